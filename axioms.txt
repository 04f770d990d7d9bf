Verif.Props.Acquire.C66_force: none
Verif.Props.Acquire.C66_run: propext, Classical.choice, Quot.sound
Verif.Props.Acquire.C66_single_raises: propext, Classical.choice, Quot.sound
Verif.Props.Acquire.C66_single_returns: propext, Classical.choice, Quot.sound
Verif.Props.Acquire.C66_single_shape: propext, Classical.choice, Quot.sound
Verif.Props.Acquire.C66_stop: propext, Classical.choice, Quot.sound
Verif.Props.Acquire.C67_timeout_fails: propext, Classical.choice, Quot.sound
Verif.Props.Acquire.C67_timeout_partial: propext, Classical.choice, Quot.sound
Verif.Props.Affine.C75_vertical: propext, Classical.choice, Quot.sound
Verif.Props.AffineMeasures.C75_auto: propext, Classical.choice, Quot.sound
Verif.Props.AffineMeasures.C75_bits: propext, Classical.choice, Quot.sound
Verif.Props.AffineMeasures.C75_decagon: propext, Classical.choice, Quot.sound
Verif.Props.AffineMeasures.C75_hexagon: propext, Classical.choice, Quot.sound
Verif.Props.AffineMeasures.C75_levels: propext, Classical.choice, Quot.sound
Verif.Props.AffineMeasures.C75_measures: propext, Classical.choice, Quot.sound
Verif.Props.Again.C85_again: propext, Classical.choice, Quot.sound
Verif.Props.Again.C85_as_new: propext, Classical.choice, Quot.sound
Verif.Props.Again.C85_asked: propext, Classical.choice, Quot.sound
Verif.Props.Again.C85_bits: propext, Classical.choice, Quot.sound
Verif.Props.Again.C85_bits_fails: propext, Classical.choice, Quot.sound
Verif.Props.Again.C85_config: propext, Classical.choice, Quot.sound
Verif.Props.Again.C85_config_fails: propext, Classical.choice, Quot.sound
Verif.Props.Again.C85_config_kept: propext, Classical.choice, Quot.sound
Verif.Props.Again.C85_handover: propext, Classical.choice, Quot.sound
Verif.Props.Again.C85_no_mask: propext, Classical.choice, Quot.sound
Verif.Props.Again.C85_retry_fails: propext, Classical.choice, Quot.sound
Verif.Props.Again.C85_settings_fails: propext, Classical.choice, Quot.sound
Verif.Props.Again.C85_settings_partial: propext, Classical.choice, Quot.sound
Verif.Props.Again.C85_skip_fails: propext, Classical.choice, Quot.sound
Verif.Props.Again.C85_skip_raises: propext, Classical.choice, Quot.sound
Verif.Props.Again.C85_stuck: propext, Classical.choice, Quot.sound
Verif.Props.AutoLevels.C74_aliased_fails: propext, Classical.choice, Quot.sound
Verif.Props.AutoLevels.C74_constant_fails: propext, Classical.choice, Quot.sound
Verif.Props.AutoLevels.C74_halves: propext, Classical.choice, Quot.sound
Verif.Props.AutoLevels.C74_levels_partial: propext, Classical.choice, Quot.sound
Verif.Props.AutoLevels.C74_nrzl_partial: propext, Classical.choice, Quot.sound
Verif.Props.AutoLevels.C74_nrzm_partial: propext, Classical.choice, Quot.sound
Verif.Props.AutoLevels.C74_rare_fails: propext, Classical.choice, Quot.sound
Verif.Props.AutoLevels.C74_zero_fails: propext, Classical.choice, Quot.sound
Verif.Props.Autoscale.C26_bounded: propext, Classical.choice, Quot.sound
Verif.Props.Autoscale.C26_restore_fails: propext, Classical.choice, Quot.sound
Verif.Props.Autoscale.C26_restores_partial: propext, Classical.choice, Quot.sound
Verif.Props.Autoscale.C26_returns_settled: propext, Classical.choice, Quot.sound
Verif.Props.Autoscale.C26_timeout_fails: propext, Classical.choice, Quot.sound
Verif.Props.Autoscale.C26_timeout_partial: propext, Classical.choice, Quot.sound
Verif.Props.Autoscale.C27_converges: propext, Classical.choice, Quot.sound
Verif.Props.Autoscale.C27_factor: propext, Classical.choice, Quot.sound
Verif.Props.Autoscale.C27_offscreen: propext, Classical.choice, Quot.sound
Verif.Props.Autoscale.C27_recentres: propext, Classical.choice, Quot.sound
Verif.Props.Autoscale.C27_span: propext, Classical.choice, Quot.sound
Verif.Props.AutoscaleReal.C100_converges: propext, Classical.choice, Quot.sound
Verif.Props.AutoscaleReal.C100_exact: propext, Classical.choice, Quot.sound
Verif.Props.CdrDetrend.C12_detrend: propext, Classical.choice, Quot.sound
Verif.Props.CdrDetrend.C49_best_fit: propext, Classical.choice, Quot.sound
Verif.Props.CdrDetrend.C49_empty: propext, Classical.choice, Quot.sound
Verif.Props.CdrDetrend.C49_exact: propext, Classical.choice, Quot.sound
Verif.Props.CdrDetrend.C49_positive: propext, Classical.choice, Quot.sound
Verif.Props.CdrFft.C64_cutoff: propext, Classical.choice, Quot.sound
Verif.Props.CdrFft.C64_dc: propext, Classical.choice, Quot.sound
Verif.Props.CdrFft.C64_each: propext, Classical.choice, Quot.sound
Verif.Props.CdrFft.C64_even: propext, Classical.choice, Quot.sound
Verif.Props.CdrFft.C64_monotone: propext, Classical.choice, Quot.sound
Verif.Props.CdrFft.C64_order: propext, Classical.choice, Quot.sound
Verif.Props.CdrFft.C64_range: propext, Classical.choice, Quot.sound
Verif.Props.CdrFft.C65_at_edges: propext, Classical.choice, Quot.sound
Verif.Props.CdrFft.C65_errors: propext, Classical.choice, Quot.sound
Verif.Props.CdrFft.C65_extremes: propext, Classical.choice, Quot.sound
Verif.Props.CdrFft.C65_short: propext, Classical.choice, Quot.sound
Verif.Props.CdrFft.C65_sum: propext, Classical.choice, Quot.sound
Verif.Props.CdrRun.C12_minimize_fails: propext, Classical.choice, Quot.sound
Verif.Props.CdrRun.C12_minimize_partial: propext, Classical.choice, Quot.sound
Verif.Props.CdrRun.C12_minimize_raises: propext, Classical.choice, Quot.sound
Verif.Props.CdrRun.C12_run_partial: propext, Classical.choice, Quot.sound
Verif.Props.CdrRun.C48_empty_fails: propext, Classical.choice, Quot.sound
Verif.Props.CdrRun.C48_errors: propext, Classical.choice, Quot.sound
Verif.Props.CdrRun.C48_exact: propext, Classical.choice, Quot.sound
Verif.Props.CdrRun.C48_recovered: propext, Classical.choice, Quot.sound
Verif.Props.CdrRun.C48_resampled: propext, Classical.choice, Quot.sound
Verif.Props.CdrRun.C50_refine_compiled: propext, Classical.choice, Quot.sound
Verif.Props.CdrSearch.C50_finds: propext, Classical.choice, Quot.sound
Verif.Props.CdrSearch.C50_found: propext, Classical.choice, Quot.sound
Verif.Props.CdrSearch.C50_missing: propext, Classical.choice, Quot.sound
Verif.Props.CdrSearch.C50_no_edges: propext, Classical.choice, Quot.sound
Verif.Props.CdrSearch.C50_refine: propext, Classical.choice, Quot.sound
Verif.Props.CdrSearch.C50_t_sym: propext, Classical.choice, Quot.sound
Verif.Props.CdrTone.C65_sum_of_tones: propext, Classical.choice, Quot.sound
Verif.Props.CdrTone.C65_tones: propext, Classical.choice, Quot.sound
Verif.Props.CdrTone.C65_transforms: propext, Classical.choice, Quot.sound
Verif.Props.Clock.C53_bounded: propext, Classical.choice, Quot.sound
Verif.Props.Clock.C53_count: propext, Classical.choice, Quot.sound
Verif.Props.Clock.C53_dcd: propext, Classical.choice, Quot.sound
Verif.Props.Clock.C53_ideal: propext, Classical.choice, Quot.sound
Verif.Props.Clock.C53_ordered: propext, Classical.choice, Quot.sound
Verif.Props.ClosureMonotone.C120_penalty: propext, Classical.choice, Quot.sound
Verif.Props.ClosureMonotone.C120_percentile: propext, Classical.choice, Quot.sound
Verif.Props.Crossing.C05_backward: propext, Classical.choice, Quot.sound
Verif.Props.Crossing.C05_forward: propext, Classical.choice, Quot.sound
Verif.Props.Crossing.C05_outside: propext, Classical.choice, Quot.sound
Verif.Props.Decimal.C32_exact: propext, Classical.choice, Quot.sound
Verif.Props.Decimal.C32_int: propext, Classical.choice, Quot.sound
Verif.Props.Decimal.C32_nearest: propext, Classical.choice, Quot.sound
Verif.Props.Decimal.C32_round_trip: propext, Classical.choice, Quot.sound
Verif.Props.Draw.C77_clean: propext, Classical.choice, Quot.sound
Verif.Props.Draw.C77_decagon: propext, Classical.choice, Quot.sound
Verif.Props.Draw.C77_grid: propext, Classical.choice, Quot.sound
Verif.Props.Draw.C77_hexagon: propext, Classical.choice, Quot.sound
Verif.Props.Draw.C77_hits: propext, Classical.choice, Quot.sound
Verif.Props.Draw.C77_mask: propext, Classical.choice, Quot.sound
Verif.Props.Draw.C77_no_hits: propext, Classical.choice, Quot.sound
Verif.Props.Draw.C77_no_mask: propext, Classical.choice, Quot.sound
Verif.Props.Draw.C77_red_fails: propext, Classical.choice, Quot.sound
Verif.Props.Draw.C77_red_partial: propext, Classical.choice, Quot.sound
Verif.Props.Draw.C77_stack_fails: propext, Classical.choice, Quot.sound
Verif.Props.Draw.C77_stack_partial: propext, Classical.choice, Quot.sound
Verif.Props.EdgeJitter.C97_times: propext, Classical.choice, Quot.sound
Verif.Props.Edges.C06_C07_timeline: propext, Classical.choice, Quot.sound
Verif.Props.Edges.C06_C07_timeline_partial: propext, Classical.choice, Quot.sound
Verif.Props.Edges.C06_first_edge_fails: propext, Classical.choice, Quot.sound
Verif.Props.Edges.C06_nan_only_initial: propext, Classical.choice, Quot.sound
Verif.Props.Edges.C07_edges_np: propext, Classical.choice, Quot.sound
Verif.Props.Edges.C07_edges_schmitt: propext, Classical.choice, Quot.sound
Verif.Props.Edges.C07_empty: propext, Classical.choice, Quot.sound
Verif.Props.Edges.C07_no_edges_in_band: propext, Classical.choice, Quot.sound
Verif.Props.Equipment.C21_bounded: propext, Classical.choice, Quot.sound
Verif.Props.Equipment.C21_returns: propext, Classical.choice, Quot.sound
Verif.Props.Equipment.C21_timeout: propext, Classical.choice, Quot.sound
Verif.Props.Equipment.C22_after_close: propext
Verif.Props.Equipment.C22_closed_once: propext, Quot.sound
Verif.Props.Equipment.C22_construction_partial: propext, Quot.sound
Verif.Props.Equipment.C22_io: propext
Verif.Props.Equipment.C22_not_message_based_fails: none
Verif.Props.Equipment.C22_open_raises: none
Verif.Props.Equipment.C22_with: propext, Quot.sound
Verif.Props.Equipment.C22_with_outcome: propext, Quot.sound
Verif.Props.Equipment.C23_accepts_456_partial: propext, Classical.choice, Quot.sound
Verif.Props.Equipment.C23_accepts_fails: propext, Classical.choice, Quot.sound
Verif.Props.Equipment.C23_accepts_partial: propext, Classical.choice, Quot.sound
Verif.Props.Equipment.C23_builtin_disjoint: propext, Classical.choice, Quot.sound
Verif.Props.Equipment.C23_first_match: propext, Quot.sound
Verif.Props.Equipment.C23_ident_raises: none
Verif.Props.Equipment.C23_install_order: propext, Quot.sound
Verif.Props.Equipment.C23_install_rejects: propext
Verif.Props.Equipment.C23_last_install: propext, Classical.choice, Quot.sound
Verif.Props.Equipment.C23_no_match: propext, Quot.sound
Verif.Props.Equipment.C23_not_message_based: none
Verif.Props.Equipment.C23_priority_kept: propext, Quot.sound
Verif.Props.Equipment.C23_probe_closed: propext
Verif.Props.Equipment.C23_supported_dispatched: propext, Classical.choice, Quot.sound
Verif.Props.EyeBathtub.C47_curve: propext, Classical.choice, Quot.sound
Verif.Props.EyeBathtub.C47_hits: propext, Classical.choice, Quot.sound
Verif.Props.EyeC.C12_mask: propext, Classical.choice, Quot.sound
Verif.Props.EyeC.C12_slice: propext, Classical.choice, Quot.sound
Verif.Props.EyeC.C12_stack: propext, Classical.choice, Quot.sound
Verif.Props.EyeConfig.C51_consume_order: propext, Classical.choice, Quot.sound
Verif.Props.EyeConfig.C51_documented: propext, Classical.choice, Quot.sound
Verif.Props.EyeConfig.C51_documented_fails: propext, Classical.choice, Quot.sound
Verif.Props.EyeConfig.C51_known: propext, Classical.choice, Quot.sound
Verif.Props.EyeConfig.C51_method_fails: propext, Quot.sound
Verif.Props.EyeConfig.C51_nothing_else: propext, Classical.choice, Quot.sound
Verif.Props.EyeConfig.C51_unknown_partial: propext, Quot.sound
Verif.Props.EyeConfig.C52_clock_edges: propext, Quot.sound
Verif.Props.EyeConfig.C52_getters: propext, Classical.choice, Quot.sound
Verif.Props.EyeConfig.C52_new: propext, Classical.choice, Quot.sound
Verif.Props.EyeImage.C55_edge_fails: propext, Classical.choice, Quot.sound
Verif.Props.EyeImage.C55_inside_partial: propext, Classical.choice, Quot.sound
Verif.Props.EyeImage.C55_monotone: propext, Classical.choice, Quot.sound
Verif.Props.EyeImage.C55_outside: propext, Classical.choice, Quot.sound
Verif.Props.EyeImage.C55_range: propext, Classical.choice, Quot.sound
Verif.Props.EyeImage.C56_fallback: propext, Classical.choice, Quot.sound
Verif.Props.EyeImage.C56_fallback_errors: propext, Classical.choice, Quot.sound
Verif.Props.EyeImage.C56_period: propext, Classical.choice, Quot.sound
Verif.Props.EyeImage.C56_regular: propext, Classical.choice, Quot.sound
Verif.Props.EyeImage.C59_counts: propext, Classical.choice, Quot.sound
Verif.Props.EyeImage.C59_order: propext, Classical.choice, Quot.sound
Verif.Props.EyeImage.C59_orientation: propext, Classical.choice, Quot.sound
Verif.Props.EyeImage.C59_pixels: propext, Classical.choice, Quot.sound
Verif.Props.EyeImage.C59_point_cloud: propext, Classical.choice, Quot.sound
Verif.Props.EyeImage.C59_total: propext, Classical.choice, Quot.sound
Verif.Props.EyeMask.C42_decagon: propext, Classical.choice, Quot.sound
Verif.Props.EyeMask.C42_hexagon: propext, Classical.choice, Quot.sound
Verif.Props.EyeMask.C42_order: propext, Classical.choice, Quot.sound
Verif.Props.EyeMask.C42_points: propext, Classical.choice, Quot.sound
Verif.Props.EyeMask.C42_waveform: propext, Classical.choice, Quot.sound
Verif.Props.EyeMask.C42_waveforms: propext, Classical.choice, Quot.sound
Verif.Props.EyeWindow.C43_aligned_partial: propext, Classical.choice, Quot.sound
Verif.Props.EyeWindow.C43_half_sample: propext, Classical.choice, Quot.sound
Verif.Props.EyeWindow.C43_inside: propext, Classical.choice, Quot.sound
Verif.Props.EyeWindow.C43_unaligned_fails: propext, Classical.choice, Quot.sound
Verif.Props.Float.C80_apart_fails: propext, Classical.choice, Quot.sound
Verif.Props.Float.C80_clear: propext, Classical.choice, Quot.sound
Verif.Props.Float.C80_crossing: propext, Classical.choice, Quot.sound
Verif.Props.Float.C80_edges: propext, Classical.choice, Quot.sound
Verif.Props.Float.C80_exact: propext, Classical.choice, Quot.sound
Verif.Props.Float.C80_found: propext, Classical.choice, Quot.sound
Verif.Props.Float.C80_hits_found: propext, Classical.choice, Quot.sound
Verif.Props.Float.C80_hits_reported: propext, Classical.choice, Quot.sound
Verif.Props.Float.C80_is_hitting: propext, Classical.choice, Quot.sound
Verif.Props.Float.C80_reported: propext, Classical.choice, Quot.sound
Verif.Props.Float.C80_touching_fails: propext, Classical.choice, Quot.sound
Verif.Props.FloatBathtub.C109_bathtub: propext, Classical.choice, Quot.sound
Verif.Props.FloatBathtub.C109_curve: propext, Classical.choice, Quot.sound
Verif.Props.FloatBathtub.C109_exact: propext, Classical.choice, Quot.sound
Verif.Props.FloatBathtub.C109_hits: propext, Classical.choice, Quot.sound
Verif.Props.FloatBathtub.C109_order_fails: propext, Classical.choice, Quot.sound
Verif.Props.FloatBits.C108_directions: propext, Classical.choice, Quot.sound
Verif.Props.FloatBits.C108_no_period: propext, Classical.choice, Quot.sound
Verif.Props.FloatBits.C108_nrzl_partial: propext, Classical.choice, Quot.sound
Verif.Props.FloatBits.C108_nrzm: propext, Classical.choice, Quot.sound
Verif.Props.FloatCdr.C98_count_fails: propext, Classical.choice, Quot.sound
Verif.Props.FloatCdr.C98_count_partial: propext, Classical.choice, Quot.sound
Verif.Props.FloatCdr.C98_errors: propext, Classical.choice, Quot.sound
Verif.Props.FloatCdr.C98_exact: propext, Classical.choice, Quot.sound
Verif.Props.FloatCdr.C98_fits: propext, Classical.choice, Quot.sound
Verif.Props.FloatCdr.C98_locks: propext, Classical.choice, Quot.sound
Verif.Props.FloatCdr.C98_resample: propext, Classical.choice, Quot.sound
Verif.Props.FloatClock.C106_bounded: propext, Classical.choice, Quot.sound
Verif.Props.FloatClock.C106_ordered: propext, Classical.choice, Quot.sound
Verif.Props.FloatClock.C106_recovered: propext, Classical.choice, Quot.sound
Verif.Props.FloatDecode.C99_directions: propext, Classical.choice, Quot.sound
Verif.Props.FloatDecode.C99_exact: propext, Classical.choice, Quot.sound
Verif.Props.FloatDecode.C99_nrzl_partial: propext, Classical.choice, Quot.sound
Verif.Props.FloatDecode.C99_nrzm: propext, Classical.choice, Quot.sound
Verif.Props.FloatDecode.C99_period: propext, Classical.choice, Quot.sound
Verif.Props.FloatDecode.C99_sampling: propext, Classical.choice, Quot.sound
Verif.Props.FloatEye.C82_centre: propext, Classical.choice, Quot.sound
Verif.Props.FloatEye.C82_exact: propext, Classical.choice, Quot.sound
Verif.Props.FloatEye.C82_mask: propext, Classical.choice, Quot.sound
Verif.Props.FloatEye.C82_normalise: propext, Classical.choice, Quot.sound
Verif.Props.FloatEye.C82_pixels: propext, Classical.choice, Quot.sound
Verif.Props.FloatEye.C82_same_centre: propext, Classical.choice, Quot.sound
Verif.Props.FloatEye.C82_width: propext, Classical.choice, Quot.sound
Verif.Props.FloatEye.C82_window: propext, Classical.choice, Quot.sound
Verif.Props.FloatFormat.C104_clock: propext, Classical.choice, Quot.sound
Verif.Props.FloatFormat.C104_dates: propext, Classical.choice, Quot.sound
Verif.Props.FloatFormat.C104_elapsed: propext, Classical.choice, Quot.sound
Verif.Props.FloatFormat.C104_hundredths: propext, Classical.choice, Quot.sound
Verif.Props.FloatFormat.C104_negative_fails: propext, Classical.choice, Quot.sound
Verif.Props.FloatFormat.C104_negative_partial: propext, Classical.choice, Quot.sound
Verif.Props.FloatFormat.C104_prefix: propext, Classical.choice, Quot.sound
Verif.Props.FloatFormat.C104_range: propext, Classical.choice, Quot.sound
Verif.Props.FloatFormat.C104_time: propext, Classical.choice, Quot.sound
Verif.Props.FloatGaussian.C116_accuracy: propext, Classical.choice, Quot.sound
Verif.Props.FloatGaussian.C116_center: propext, Classical.choice, Quot.sound
Verif.Props.FloatGaussian.C116_mix: propext, Classical.choice, Quot.sound
Verif.Props.FloatGaussian.C116_nonneg: propext, Classical.choice, Quot.sound
Verif.Props.FloatGaussian.C116_peak: propext, Classical.choice, Quot.sound
Verif.Props.FloatGaussian.C116_single: propext, Classical.choice, Quot.sound
Verif.Props.FloatGaussian.C116_symmetric: propext, Classical.choice, Quot.sound
Verif.Props.FloatGaussianPeak.C117_doubles_partial: propext, Classical.choice, Quot.sound
Verif.Props.FloatHorizontal.C111_compiled: propext, Classical.choice, Quot.sound
Verif.Props.FloatHorizontal.C111_crossings: propext, Classical.choice, Quot.sound
Verif.Props.FloatHorizontal.C111_edges: propext, Classical.choice, Quot.sound
Verif.Props.FloatHorizontal.C111_exact: propext, Classical.choice, Quot.sound
Verif.Props.FloatHorizontal.C111_measures: propext, Classical.choice, Quot.sound
Verif.Props.FloatHorizontal.C111_received: propext, Classical.choice, Quot.sound
Verif.Props.FloatHorizontal.C111_steep: propext, Classical.choice, Quot.sound
Verif.Props.FloatHorizontal.C111_times: propext, Classical.choice, Quot.sound
Verif.Props.FloatHorizontal.C111_total: propext, Classical.choice, Quot.sound
Verif.Props.FloatInterpolation.C115_accuracy: propext, Classical.choice, Quot.sound
Verif.Props.FloatInterpolation.C115_grid: propext, Classical.choice, Quot.sound
Verif.Props.FloatInterpolation.C115_samples: propext, Classical.choice, Quot.sound
Verif.Props.FloatInterpolation.C115_shape: propext, Classical.choice, Quot.sound
Verif.Props.FloatLine2D.C114_intersecting_partial: propext, Classical.choice, Quot.sound
Verif.Props.FloatLine2D.C114_intersection: propext, Classical.choice, Quot.sound
Verif.Props.FloatLine2D.C114_none: propext, Classical.choice, Quot.sound
Verif.Props.FloatLine2D.C114_orientation: propext, Classical.choice, Quot.sound
Verif.Props.FloatLine2D.C114_parallel_fails: propext, Classical.choice, Quot.sound
Verif.Props.FloatLine2D.C114_parallel_partial: propext, Classical.choice, Quot.sound
Verif.Props.FloatLine2D.C114_touching_fails: propext, Classical.choice, Quot.sound
Verif.Props.FloatMask.C112_adjust_decagon: propext, Classical.choice, Quot.sound
Verif.Props.FloatMask.C112_adjust_hexagon: propext, Classical.choice, Quot.sound
Verif.Props.FloatMask.C112_convert_decagon: propext, Classical.choice, Quot.sound
Verif.Props.FloatMask.C112_convert_hexagon: propext, Classical.choice, Quot.sound
Verif.Props.FloatMaskTest.C112_ends_decagon: propext, Classical.choice, Quot.sound
Verif.Props.FloatMaskTest.C112_ends_hexagon: propext, Classical.choice, Quot.sound
Verif.Props.FloatMaskTest.C112_exact: propext, Classical.choice, Quot.sound
Verif.Props.FloatMaskTest.C112_mask_decagon: propext, Classical.choice, Quot.sound
Verif.Props.FloatMaskTest.C112_mask_hexagon: propext, Classical.choice, Quot.sound
Verif.Props.FloatMeasures.C110_deviations: propext, Classical.choice, Quot.sound
Verif.Props.FloatMeasures.C110_levels: propext, Classical.choice, Quot.sound
Verif.Props.FloatMeasures.C110_measures: propext, Classical.choice, Quot.sound
Verif.Props.FloatMeasures.C110_nan: propext, Classical.choice, Quot.sound
Verif.Props.FloatMeasures.C110_ratios: propext, Classical.choice, Quot.sound
Verif.Props.FloatMeasures.C110_received: propext, Classical.choice, Quot.sound
Verif.Props.FloatPam2.C99_compiled: propext, Classical.choice, Quot.sound
Verif.Props.FloatPam2.C99_vertical: propext, Classical.choice, Quot.sound
Verif.Props.FloatPercentile.C119_penalty: propext, Classical.choice, Quot.sound
Verif.Props.FloatPercentile.C119_percentile: propext, Classical.choice, Quot.sound
Verif.Props.FloatRecover.C107_recovers: propext, Classical.choice, Quot.sound
Verif.Props.FloatSearchExact.C107_exact: propext, Classical.choice, Quot.sound
Verif.Props.FloatStats.C81_bin_linear: propext, Classical.choice, Quot.sound
Verif.Props.FloatStats.C81_downsample_exact: propext, Classical.choice, Quot.sound
Verif.Props.FloatStats.C81_downsample_linear: propext, Classical.choice, Quot.sound
Verif.Props.FloatStats.C81_exact: propext, Classical.choice, Quot.sound
Verif.Props.FloatStats.C81_lost_fails: propext, Classical.choice, Quot.sound
Verif.Props.FloatStats.C81_short: propext, Classical.choice, Quot.sound
Verif.Props.FloatUncertain.C105_add_sub: propext, Classical.choice, Quot.sound
Verif.Props.FloatUncertain.C105_mul_div: propext, Classical.choice, Quot.sound
Verif.Props.FloatUncertain.C105_samples: propext, Classical.choice, Quot.sound
Verif.Props.FloatUncertain.C105_scale: propext, Classical.choice, Quot.sound
Verif.Props.FloatVecp.C118_clean: propext, Classical.choice, Quot.sound
Verif.Props.FloatVecp.C118_extremes: propext, Classical.choice, Quot.sound
Verif.Props.FloatVecp.C118_log: propext, Classical.choice, Quot.sound
Verif.Props.FloatVecp.C118_log10: propext, Classical.choice, Quot.sound
Verif.Props.FloatVecp.C118_open: propext, Classical.choice, Quot.sound
Verif.Props.FloatVecp.C118_order: propext, Classical.choice, Quot.sound
Verif.Props.FloatVecp.C118_percentile: propext, Classical.choice, Quot.sound
Verif.Props.FloatVecp.C118_position: propext, Classical.choice, Quot.sound
Verif.Props.FloatVecp.C118_vecp: propext, Classical.choice, Quot.sound
Verif.Props.FloatVecpMeasures.C118_measures: propext, Classical.choice, Quot.sound
Verif.Props.FloatVecpMeasures.C118_received: propext, Classical.choice, Quot.sound
Verif.Props.FloatWait.C90_decimal_differs: propext, Classical.choice, Quot.sound
Verif.Props.FloatWait.C90_gives_up: propext, Classical.choice, Quot.sound
Verif.Props.FloatWait.C90_in_time: propext, Classical.choice, Quot.sound
Verif.Props.FloatWait.C90_late: propext, Classical.choice, Quot.sound
Verif.Props.FloatWave.C101_exact: propext, Classical.choice, Quot.sound
Verif.Props.FloatWave.C101_file: propext, Classical.choice, Quot.sound
Verif.Props.FloatWave.C101_noise_fails: propext, Classical.choice, Quot.sound
Verif.Props.FloatWave.C101_noise_partial: propext, Classical.choice, Quot.sound
Verif.Props.FloatWave.C101_query: propext, Classical.choice, Quot.sound
Verif.Props.Gaussian.C57_array: propext, Classical.choice, Quot.sound
Verif.Props.Gaussian.C57_array_impulse: propext, Classical.choice, Quot.sound
Verif.Props.Gaussian.C57_center_empty: propext, Classical.choice, Quot.sound
Verif.Props.Gaussian.C57_center_grid_max: propext, Classical.choice, Quot.sound
Verif.Props.Gaussian.C57_center_range: propext, Classical.choice, Quot.sound
Verif.Props.Gaussian.C57_center_single: propext, Classical.choice, Quot.sound
Verif.Props.Gaussian.C57_density: propext, Classical.choice, Quot.sound
Verif.Props.Gaussian.C57_f: propext, Classical.choice, Quot.sound
Verif.Props.Gaussian.C57_impulse: propext, Classical.choice, Quot.sound
Verif.Props.Gaussian.C57_normal: propext, Classical.choice, Quot.sound
Verif.Props.Gaussian.C57_sample_error_inv: propext, Classical.choice, Quot.sound
Verif.Props.GaussianFit.C83_center_range: propext, Classical.choice, Quot.sound
Verif.Props.GaussianFit.C83_center_unit: propext, Classical.choice, Quot.sound
Verif.Props.GaussianFit.C83_complete: propext, Classical.choice, Quot.sound
Verif.Props.GaussianFit.C83_equal: propext, Classical.choice, Quot.sound
Verif.Props.GaussianFit.C83_errors: propext, Classical.choice, Quot.sound
Verif.Props.GaussianFit.C83_levels: propext, Classical.choice, Quot.sound
Verif.Props.GaussianFit.C83_levels_equal: propext, Classical.choice, Quot.sound
Verif.Props.GaussianFit.C83_levels_unit: propext, Classical.choice, Quot.sound
Verif.Props.GaussianFit.C83_pdf: propext, Classical.choice, Quot.sound
Verif.Props.GaussianFit.C83_pdf_errors: propext, Classical.choice, Quot.sound
Verif.Props.GaussianFit.C83_pdf_scale: propext, Classical.choice, Quot.sound
Verif.Props.GaussianFit.C83_result: propext, Classical.choice, Quot.sound
Verif.Props.GaussianFit.C83_unit: propext, Classical.choice, Quot.sound
Verif.Props.GaussianPeak.C117_peak_fails: propext, Classical.choice, Quot.sound
Verif.Props.GaussianPeak.C117_peak_partial: propext, Classical.choice, Quot.sound
Verif.Props.Heatmap.C86_cloud_near: propext, Classical.choice, Quot.sound
Verif.Props.Heatmap.C86_cloud_order: propext, Classical.choice, Quot.sound
Verif.Props.Heatmap.C86_cloud_sum: propext, Classical.choice, Quot.sound
Verif.Props.Heatmap.C86_counts: propext, Classical.choice, Quot.sound
Verif.Props.Heatmap.C86_fraction: propext, Classical.choice, Quot.sound
Verif.Props.Heatmap.C86_near: propext, Classical.choice, Quot.sound
Verif.Props.Heatmap.C86_order: propext, Classical.choice, Quot.sound
Verif.Props.Heatmap.C86_single_mono: propext, Classical.choice, Quot.sound
Verif.Props.Heatmap.C86_total_fails: propext, Classical.choice, Quot.sound
Verif.Props.Heatmap.C86_total_partial: propext, Classical.choice, Quot.sound
Verif.Props.Heatmap.C86_zero: propext, Classical.choice, Quot.sound
Verif.Props.Hysteresis.C93_edges: propext, Classical.choice, Quot.sound
Verif.Props.Hysteresis.C93_noise_partial: propext, Classical.choice, Quot.sound
Verif.Props.Hysteresis.C93_same_partial: propext, Classical.choice, Quot.sound
Verif.Props.Hysteresis.C93_start_fails: propext, Classical.choice, Quot.sound
Verif.Props.Image.C19_associative_fails: propext, Classical.choice, Quot.sound
Verif.Props.Image.C19_associative_partial: propext, Classical.choice, Quot.sound
Verif.Props.Image.C19_layer_valid: propext, Classical.choice, Quot.sound
Verif.Props.Image.C19_opaque: propext, Classical.choice, Quot.sound
Verif.Props.Image.C19_rejects: propext, Classical.choice, Quot.sound
Verif.Props.Image.C19_transparent: propext, Classical.choice, Quot.sound
Verif.Props.Image.C19_weighted: propext, Classical.choice, Quot.sound
Verif.Props.Interpolation.C20_interpolates: propext, Classical.choice, Quot.sound
Verif.Props.Interpolation.C20_linear: propext, Classical.choice, Quot.sound
Verif.Props.Interpolation.C20_shape: propext, Classical.choice, Quot.sound
Verif.Props.Intersect.C08_lines: propext, Classical.choice, Quot.sound
Verif.Props.Intersect.C08_segments: propext, Classical.choice, Quot.sound
Verif.Props.Intersect.C08_symmetric: propext, Classical.choice, Quot.sound
Verif.Props.Intersect.C09_empty_path: propext, Classical.choice, Quot.sound
Verif.Props.Intersect.C09_hits: propext, Classical.choice, Quot.sound
Verif.Props.Intersect.C09_is_hitting: propext, Classical.choice, Quot.sound
Verif.Props.Intersect.C09_is_hitting_geometric: propext, Classical.choice, Quot.sound
Verif.Props.Intersect.C09_unordered_time_loses_hits: propext, Classical.choice, Quot.sound
Verif.Props.Invert.C92_edges_partial: propext, Classical.choice, Quot.sound
Verif.Props.Invert.C92_touch_fails: propext, Classical.choice, Quot.sound
Verif.Props.InvertEye.C92_bits_partial: propext, Classical.choice, Quot.sound
Verif.Props.InvertEye.C92_decagon: propext, Classical.choice, Quot.sound
Verif.Props.InvertEye.C92_hexagon: propext, Classical.choice, Quot.sound
Verif.Props.InvertEye.C92_inverted_partial: propext, Classical.choice, Quot.sound
Verif.Props.InvertEye.C92_quiet_fails: propext, Classical.choice, Quot.sound
Verif.Props.InvertEye.C92_tie_fails: propext, Classical.choice, Quot.sound
Verif.Props.Keyed.C102_bits: propext, Classical.choice, Quot.sound
Verif.Props.Keyed.C102_edges: propext, Classical.choice, Quot.sound
Verif.Props.Keyed.C103_file: propext, Classical.choice, Quot.sound
Verif.Props.Keyed.C103_read: propext, Classical.choice, Quot.sound
Verif.Props.Keyed.C103_reply: propext, Classical.choice, Quot.sound
Verif.Props.Line2D.C10_in_rect: propext, Classical.choice, Quot.sound
Verif.Props.Line2D.C10_in_rect_iff: propext, Classical.choice, Quot.sound
Verif.Props.Line2D.C10_line_intersection: propext, Classical.choice, Quot.sound
Verif.Props.Line2D.C10_none_iff: propext, Classical.choice, Quot.sound
Verif.Props.Line2D.C11_intersecting_partial: propext, Classical.choice, Quot.sound
Verif.Props.Line2D.C11_origin_fails: propext, Classical.choice, Quot.sound
Verif.Props.Line2D.C11_tolerance_fails: propext, Classical.choice, Quot.sound
Verif.Props.LinesC.C12_crossing: propext, Classical.choice, Quot.sound
Verif.Props.LinesC.C12_crossing_outside: propext, Classical.choice, Quot.sound
Verif.Props.LinesC.C12_draw: propext, Classical.choice, Quot.sound
Verif.Props.LinesC.C12_draw_points: propext, Classical.choice, Quot.sound
Verif.Props.LinesC.C12_draw_short: propext
Verif.Props.LinesC.C12_edges: propext, Classical.choice, Quot.sound
Verif.Props.LinesC.C12_edges_outside: propext, Classical.choice, Quot.sound
Verif.Props.LinesC.C12_hits: propext, Classical.choice, Quot.sound
Verif.Props.LinesC.C12_hits_empty_path: propext, Classical.choice, Quot.sound
Verif.Props.LinesC.C12_hits_np: propext, Classical.choice, Quot.sound
Verif.Props.LinesC.C12_hits_np_fails: propext, Classical.choice, Quot.sound
Verif.Props.LinesC.C12_int32: propext, Classical.choice, Quot.sound
Verif.Props.LinesC.C12_intersection: propext, Classical.choice, Quot.sound
Verif.Props.LinesC.C12_is_hitting: propext, Classical.choice, Quot.sound
Verif.Props.Longer.C94_bitsL_fails: propext, Classical.choice, Quot.sound
Verif.Props.Longer.C94_bitsL_iff: propext, Classical.choice, Quot.sound
Verif.Props.Longer.C94_bitsL_partial: propext, Classical.choice, Quot.sound
Verif.Props.Longer.C94_bitsM: propext, Quot.sound
Verif.Props.Longer.C94_decagon: propext, Classical.choice, Quot.sound
Verif.Props.Longer.C94_hexagon: propext, Classical.choice, Quot.sound
Verif.Props.Longer.C94_longer: propext, Classical.choice, Quot.sound
Verif.Props.Mask.C39_convert_decagon: propext, Classical.choice, Quot.sound
Verif.Props.Mask.C39_convert_hexagon: propext, Classical.choice, Quot.sound
Verif.Props.Mask.C39_history_decagon: propext, Classical.choice, Quot.sound
Verif.Props.Mask.C39_history_hexagon: propext, Classical.choice, Quot.sound
Verif.Props.Mask.C39_twice_decagon_partial: propext, Classical.choice, Quot.sound
Verif.Props.Mask.C39_twice_fails: propext, Classical.choice, Quot.sound
Verif.Props.Mask.C39_twice_hexagon_partial: propext, Classical.choice, Quot.sound
Verif.Props.Mask.C40_grows_decagon: propext, Classical.choice, Quot.sound
Verif.Props.Mask.C40_grows_hexagon: propext, Classical.choice, Quot.sound
Verif.Props.Mask.C40_limits_decagon: propext, Classical.choice, Quot.sound
Verif.Props.Mask.C40_limits_hexagon: propext, Classical.choice, Quot.sound
Verif.Props.Mask.C40_minus_one_decagon: propext, Classical.choice, Quot.sound
Verif.Props.Mask.C40_minus_one_hexagon: propext, Classical.choice, Quot.sound
Verif.Props.Mask.C40_one_decagon: propext, Classical.choice, Quot.sound
Verif.Props.Mask.C40_one_hexagon: propext, Classical.choice, Quot.sound
Verif.Props.Mask.C40_proportions_decagon: propext, Classical.choice, Quot.sound
Verif.Props.Mask.C40_proportions_hexagon: propext, Classical.choice, Quot.sound
Verif.Props.Mask.C40_units_fails: propext, Classical.choice, Quot.sound
Verif.Props.Mask.C40_zero_decagon: propext, Classical.choice, Quot.sound
Verif.Props.Mask.C40_zero_hexagon: propext, Classical.choice, Quot.sound
Verif.Props.MaskDict.C84_base: none
Verif.Props.MaskDict.C84_determines_decagon: propext, Classical.choice, Quot.sound
Verif.Props.MaskDict.C84_determines_hexagon: propext, Classical.choice, Quot.sound
Verif.Props.MaskDict.C84_new_decagon_partial: propext
Verif.Props.MaskDict.C84_new_hexagon_partial: propext
Verif.Props.MaskDict.C84_rebuild_decagon: propext, Classical.choice, Quot.sound
Verif.Props.MaskDict.C84_rebuild_hexagon: propext, Classical.choice, Quot.sound
Verif.Props.MaskDict.C84_reference_fails: propext, Classical.choice, Quot.sound
Verif.Props.MaskDict.C84_shapes: propext
Verif.Props.MaskDict.C84_stored_decagon: propext
Verif.Props.MaskDict.C84_stored_hexagon: propext
Verif.Props.MaskDict.C84_units_fails: propext, Classical.choice, Quot.sound
Verif.Props.MaskHits.C41_decagon_partial: propext, Classical.choice, Quot.sound
Verif.Props.MaskHits.C41_far_limits_fails: propext, Classical.choice, Quot.sound
Verif.Props.MaskHits.C41_hexagon_partial: propext, Classical.choice, Quot.sound
Verif.Props.MaskInside.C95_hit_decagon: propext, Classical.choice, Quot.sound
Verif.Props.MaskInside.C95_hit_hexagon: propext, Classical.choice, Quot.sound
Verif.Props.MaskInside.C95_margin_decagon_partial: propext, Classical.choice, Quot.sound
Verif.Props.MaskInside.C95_margin_fails: propext, Classical.choice, Quot.sound
Verif.Props.MaskInside.C95_margin_hexagon_partial: propext, Classical.choice, Quot.sound
Verif.Props.MaskInside.C95_offenders: propext, Classical.choice, Quot.sound
Verif.Props.NoisyLevels.C96_measures: propext, Classical.choice, Quot.sound
Verif.Props.NoisyLevels.C96_square: propext, Classical.choice, Quot.sound
Verif.Props.OpenEye.C70_nrzl_partial: propext, Classical.choice, Quot.sound
Verif.Props.OpenEye.C70_nrzm: propext, Classical.choice, Quot.sound
Verif.Props.Order.C78_auto_partial: propext, Classical.choice, Quot.sound
Verif.Props.Order.C78_decagon: propext, Classical.choice, Quot.sound
Verif.Props.Order.C78_decimated_fails: propext, Classical.choice, Quot.sound
Verif.Props.Order.C78_hexagon: propext, Classical.choice, Quot.sound
Verif.Props.Order.C78_horizontal: propext, Classical.choice, Quot.sound
Verif.Props.Order.C78_interval_fails: propext, Classical.choice, Quot.sound
Verif.Props.Order.C78_order_partial: propext, Classical.choice, Quot.sound
Verif.Props.Order.C78_vertical: propext, Classical.choice, Quot.sound
Verif.Props.Pam2Bits.C46_constant_fails: propext, Classical.choice, Quot.sound
Verif.Props.Pam2Bits.C46_not_calculated: propext
Verif.Props.Pam2Bits.C46_nrzl_partial: propext, Classical.choice, Quot.sound
Verif.Props.Pam2Bits.C46_nrzm: propext, Classical.choice, Quot.sound
Verif.Props.Pam2Bits.C46_regular_partial: propext, Classical.choice, Quot.sound
Verif.Props.Pam2Bits.C46_skipped_fails: propext
Verif.Props.Pam2Bits.C46_wide_fails: propext, Classical.choice, Quot.sound
Verif.Props.Pam2Clock.C60_clock: propext, Classical.choice, Quot.sound
Verif.Props.Pam2Clock.C60_fallback: propext, Classical.choice, Quot.sound
Verif.Props.Pam2Clock.C60_given: propext, Classical.choice, Quot.sound
Verif.Props.Pam2Clock.C60_recovery: propext, Classical.choice, Quot.sound
Verif.Props.Pam2Horizontal.C12_horizontal_fails: propext, Classical.choice, Quot.sound
Verif.Props.Pam2Horizontal.C45_compiled: propext, Classical.choice, Quot.sound
Verif.Props.Pam2Horizontal.C45_samples: propext, Classical.choice, Quot.sound
Verif.Props.Pam2Levels.C54_snr_fails: propext, Classical.choice, Quot.sound
Verif.Props.Pam2Levels.C54_snr_off: propext, Quot.sound
Verif.Props.Pam2Levels.C54_snr_partial: propext, Classical.choice, Quot.sound
Verif.Props.Pam2Levels.C54_thresholds: propext, Classical.choice, Quot.sound
Verif.Props.Pam2Levels.C61_manual_low_fails: propext, Quot.sound
Verif.Props.Pam2Levels.C61_update_partial: propext, Classical.choice, Quot.sound
Verif.Props.Pam2Measures.C45_crossing: propext, Classical.choice, Quot.sound
Verif.Props.Pam2Measures.C63_amplitude: propext, Classical.choice, Quot.sound
Verif.Props.Pam2Measures.C63_edges: propext, Classical.choice, Quot.sound
Verif.Props.Pam2Measures.C63_extinction_fails: propext, Classical.choice, Quot.sound
Verif.Props.Pam2Measures.C63_horizontal: propext, Classical.choice, Quot.sound
Verif.Props.Pam2Measures.C63_jitter: propext, Classical.choice, Quot.sound
Verif.Props.Pam2Measures.C63_levels: propext, Classical.choice, Quot.sound
Verif.Props.Pam2Measures.C63_narrow_fails: propext, Classical.choice, Quot.sound
Verif.Props.Pam2Measures.C63_period: propext, Classical.choice, Quot.sound
Verif.Props.Pam2Measures.C63_vertical: propext, Classical.choice, Quot.sound
Verif.Props.Pam2Ratios.C63_edge_times: propext, Classical.choice, Quot.sound
Verif.Props.Pam2Ratios.C63_nan_horizontal: propext, Classical.choice, Quot.sound
Verif.Props.Pam2Ratios.C63_nan_vertical: propext, Classical.choice, Quot.sound
Verif.Props.Pam2Ratios.C63_oma: propext, Classical.choice, Quot.sound
Verif.Props.Pam2Ratios.C63_ratios_horizontal: propext, Classical.choice, Quot.sound
Verif.Props.Pam2Ratios.C63_ratios_vertical: propext, Classical.choice, Quot.sound
Verif.Props.Pam2Ratios.C63_transitions: propext, Classical.choice, Quot.sound
Verif.Props.Pam2Ratios.C72_empty: propext, Classical.choice, Quot.sound
Verif.Props.Pam2Ratios.C72_extremes: propext, Classical.choice, Quot.sound
Verif.Props.Pam2Ratios.C72_percentile: propext, Classical.choice, Quot.sound
Verif.Props.Pam2Ratios.C72_vecp: propext, Classical.choice, Quot.sound
Verif.Props.Pam2Vertical.C12_vertical: propext, Classical.choice, Quot.sound
Verif.Props.Pam2Vertical.C12_vertical_outside: propext, Classical.choice, Quot.sound
Verif.Props.Pam2Vertical.C44_decided: propext, Classical.choice, Quot.sound
Verif.Props.Pam2Vertical.C44_symbols: propext, Classical.choice, Quot.sound
Verif.Props.Pam2Vertical.C44_total: propext, Classical.choice, Quot.sound
Verif.Props.Pam2Vertical.C44_windows: propext, Classical.choice, Quot.sound
Verif.Props.Pam2Vertical.C62_cross_fails: propext, Classical.choice, Quot.sound
Verif.Props.Pam2Vertical.C62_levels_partial: propext, Classical.choice, Quot.sound
Verif.Props.Pipeline.C61_measured_partial: propext, Classical.choice, Quot.sound
Verif.Props.Pipeline.C69_completes_partial: propext, Classical.choice, Quot.sound
Verif.Props.Pipeline.C69_edge_level_fails: propext, Classical.choice, Quot.sound
Verif.Props.Pipeline.C69_flat_fails: propext, Classical.choice, Quot.sound
Verif.Props.Pipeline.C69_nan_clock_fails: propext, Classical.choice, Quot.sound
Verif.Props.Png.C87_again: propext, Classical.choice, Quot.sound
Verif.Props.Png.C87_byte: propext, Classical.choice, Quot.sound
Verif.Props.Png.C87_junk_fails: propext, Classical.choice, Quot.sound
Verif.Props.Png.C87_layer: propext, Classical.choice, Quot.sound
Verif.Props.Png.C87_near: propext, Classical.choice, Quot.sound
Verif.Props.Png.C87_none: propext, Classical.choice, Quot.sound
Verif.Props.Png.C87_opaque: propext, Classical.choice, Quot.sound
Verif.Props.Png.C87_order: propext, Classical.choice, Quot.sound
Verif.Props.Png.C87_property: propext, Classical.choice, Quot.sound
Verif.Props.Png.C87_range_fails: propext, Classical.choice, Quot.sound
Verif.Props.Png.C87_save: propext, Classical.choice, Quot.sound
Verif.Props.Png.C87_shapes: propext, Classical.choice, Quot.sound
Verif.Props.Png.C87_stack: propext, Classical.choice, Quot.sound
Verif.Props.Png.C87_transparent: propext, Classical.choice, Quot.sound
Verif.Props.Raster.C01_segment_terminates: propext, Classical.choice, Quot.sound
Verif.Props.Raster.C01_zero_length: propext
Verif.Props.Raster.C02_segment_accuracy: propext, Classical.choice, Quot.sound
Verif.Props.Raster.C02_segment_box: propext, Classical.choice, Quot.sound
Verif.Props.Raster.C03_additive: propext, Classical.choice, Quot.sound
Verif.Props.Raster.C03_cells: propext, Classical.choice, Quot.sound
Verif.Props.Raster.C03_error_iff: propext, Classical.choice, Quot.sound
Verif.Props.Raster.C03_order_independent: propext, Classical.choice, Quot.sound
Verif.Props.Raster.C03_total: propext, Classical.choice, Quot.sound
Verif.Props.Raster.C04_draw_points: propext, Quot.sound
Verif.Props.ReadSearch.C113_file: propext, Classical.choice, Quot.sound
Verif.Props.ReadSearch.C113_read: propext, Classical.choice, Quot.sound
Verif.Props.ReadSearch.C113_reply: propext, Classical.choice, Quot.sound
Verif.Props.Report.C79_dict: propext, Classical.choice, Quot.sound
Verif.Props.Report.C79_images: propext, Classical.choice, Quot.sound
Verif.Props.Report.C79_json: propext, Classical.choice, Quot.sound
Verif.Props.Report.C79_names: propext, Classical.choice, Quot.sound
Verif.Props.Report.C79_pam2_json: propext, Classical.choice, Quot.sound
Verif.Props.Report.C79_pam2_print: propext, Classical.choice, Quot.sound
Verif.Props.Report.C79_print: propext, Classical.choice, Quot.sound
Verif.Props.Report.C79_print_dictionaries: propext, Classical.choice, Quot.sound
Verif.Props.Report.C79_print_others: propext, Classical.choice, Quot.sound
Verif.Props.Report.C79_skipped: propext, Classical.choice, Quot.sound
Verif.Props.Report.C79_standard_fails: propext, Classical.choice, Quot.sound
Verif.Props.Report.C79_standard_partial: propext, Classical.choice, Quot.sound
Verif.Props.Report.C79_values: propext, Classical.choice, Quot.sound
Verif.Props.ScopeInit.C73_4000: propext, Classical.choice, Quot.sound
Verif.Props.ScopeInit.C73_456: propext, Classical.choice, Quot.sound
Verif.Props.ScopeInit.C73_456_errors: propext, Classical.choice, Quot.sound
Verif.Props.ScopeInit.C73_header_fails: propext, Classical.choice, Quot.sound
Verif.Props.ScopeInit.C73_header_partial: propext, Classical.choice, Quot.sound
Verif.Props.ScopeInit.C73_unknown: propext, Classical.choice, Quot.sound
Verif.Props.Scpi.C24_flat: propext, Classical.choice, Quot.sound
Verif.Props.Scpi.C24_flat_keys_injective: propext
Verif.Props.Scpi.C24_last_write: propext, Classical.choice, Quot.sound
Verif.Props.Scpi.C24_nested: propext, Classical.choice, Quot.sound
Verif.Props.Scpi.C24_round_trip: propext, Classical.choice, Quot.sound
Verif.Props.Scpi.C24_trailing_colon: propext, Classical.choice, Quot.sound
Verif.Props.Scpi.C25_blank_header: propext, Classical.choice, Quot.sound
Verif.Props.Scpi.C25_empty: propext, Classical.choice, Quot.sound
Verif.Props.Scpi.C25_key_known: propext, Classical.choice, Quot.sound
Verif.Props.Scpi.C25_key_unknown: propext, Classical.choice, Quot.sound
Verif.Props.Scpi.C25_key_untyped: propext, Classical.choice, Quot.sound
Verif.Props.Scpi.C25_no_value: propext, Classical.choice, Quot.sound
Verif.Props.Scpi.C25_relative: propext
Verif.Props.Scpi.C25_typed: propext, Classical.choice, Quot.sound
Verif.Props.Scpi.C25_typed_stream: propext, Classical.choice, Quot.sound
Verif.Props.Single.C12_crossing_fails: propext, Classical.choice, Quot.sound
Verif.Props.Single.C12_crossing_partial: propext, Classical.choice, Quot.sound
Verif.Props.Single.C12_edges_fails: propext, Classical.choice, Quot.sound
Verif.Props.Single.C12_edges_moved: propext, Classical.choice, Quot.sound
Verif.Props.Single.C12_edges_partial: propext, Classical.choice, Quot.sound
Verif.Props.Single.C12_single_fits: propext, Classical.choice, Quot.sound
Verif.Props.Single.C12_single_near: propext, Classical.choice, Quot.sound
Verif.Props.SquareWave.C71_nrzl_partial: propext, Classical.choice, Quot.sound
Verif.Props.SquareWave.C71_nrzm: propext, Classical.choice, Quot.sound
Verif.Props.Stats.C13_bin_exact: propext, Classical.choice, Quot.sound
Verif.Props.Stats.C13_faithful: propext, Classical.choice, Quot.sound
Verif.Props.Stats.C13_order_independent: propext, Classical.choice, Quot.sound
Verif.Props.Stats.C14_bin_linear: propext, Classical.choice, Quot.sound
Verif.Props.Stats.C14_empty: propext, Classical.choice, Quot.sound
Verif.Props.Stats.C14_exactly_one_bin: propext, Classical.choice, Quot.sound
Verif.Props.Stats.C15_empty: propext, Classical.choice, Quot.sound
Verif.Props.Stats.C15_exact: propext, Classical.choice, Quot.sound
Verif.Props.Stats.C15_linear: propext, Classical.choice, Quot.sound
Verif.Props.Stats.C15_short: propext, Classical.choice, Quot.sound
Verif.Props.StatsExp.C68_density: propext, Classical.choice, Quot.sound
Verif.Props.StatsExp.C68_density_equal: propext, Classical.choice, Quot.sound
Verif.Props.StatsExp.C68_empty: propext, Classical.choice, Quot.sound
Verif.Props.StatsExp.C68_positive: propext, Classical.choice, Quot.sound
Verif.Props.StatsExp.C68_zeros: propext, Classical.choice, Quot.sound
Verif.Props.Strformat.C17_default_range: propext, Classical.choice, Quot.sound
Verif.Props.Strformat.C17_empty: propext, Classical.choice, Quot.sound
Verif.Props.Strformat.C17_metric_prefix: propext, Classical.choice, Quot.sound
Verif.Props.Strformat.C17_special: propext, Classical.choice, Quot.sound
Verif.Props.Strformat.C18_elapsed: propext, Classical.choice, Quot.sound
Verif.Props.Strformat.C18_field: propext, Classical.choice, Quot.sound
Verif.Props.Strformat.C18_hundredths_partial: propext, Classical.choice, Quot.sound
Verif.Props.Strformat.C18_layout: propext, Classical.choice, Quot.sound
Verif.Props.Strformat.C18_minutes_only: propext, Classical.choice, Quot.sound
Verif.Props.Strformat.C18_seconds_fails: propext, Classical.choice, Quot.sound
Verif.Props.Strformat.C18_whole_seconds: propext, Classical.choice, Quot.sound
Verif.Props.Tek.C28_inclusive_fails: propext, Classical.choice, Quot.sound
Verif.Props.Tek.C28_line_level_fails: propext, Classical.choice, Quot.sound
Verif.Props.Tek.C28_read_back_partial: propext, Classical.choice, Quot.sound
Verif.Props.Tek.C29_rejected_partial: propext, Classical.choice, Quot.sound
Verif.Props.Tek.C29_type_fails: propext, Classical.choice, Quot.sound
Verif.Props.Tek.C30_count: propext, Classical.choice, Quot.sound
Verif.Props.Tek.C30_mode: propext, Classical.choice, Quot.sound
Verif.Props.Tek.C31_apostrophe_fails: propext, Classical.choice, Quot.sound
Verif.Props.Tek.C31_read_back_partial: propext, Classical.choice, Quot.sound
Verif.Props.Tek.C31_sent: propext, Quot.sound
Verif.Props.Tek.C32_sample_rate: propext, Classical.choice, Quot.sound
Verif.Props.Tek.C32_setting: propext, Classical.choice, Quot.sound
Verif.Props.Tek.C32_time_base: propext, Classical.choice, Quot.sound
Verif.Props.Tek.C33_active: propext, Classical.choice, Quot.sound
Verif.Props.Tek.C33_coupling: propext, Classical.choice, Quot.sound
Verif.Props.Tek.C33_inverted_fails: propext, Classical.choice, Quot.sound
Verif.Props.Tek.C33_inverted_partial: propext, Classical.choice, Quot.sound
Verif.Props.Tek.C34_comparison_partial: propext, Classical.choice, Quot.sound
Verif.Props.Tek.C34_documented: propext, Classical.choice, Quot.sound
Verif.Props.Tek.C34_polarity: propext, Classical.choice, Quot.sound
Verif.Props.Tek.C34_sample_mode: propext, Classical.choice, Quot.sound
Verif.Props.Tek.C34_shadowed_fails: propext, Classical.choice, Quot.sound
Verif.Props.Tek.C34_threshold: propext, Classical.choice, Quot.sound
Verif.Props.Tek.C34_untouched_fails: propext, Classical.choice, Quot.sound
Verif.Props.Tek.C58_failed_transfer: propext, Classical.choice, Quot.sound
Verif.Props.Tek.C58_request: propext, Classical.choice, Quot.sound
Verif.Props.TekText.C88_acquire: propext, Classical.choice, Quot.sound
Verif.Props.TekText.C88_channel: propext, Classical.choice, Quot.sound
Verif.Props.TekText.C88_edge: propext, Classical.choice, Quot.sound
Verif.Props.TekText.C88_label: propext, Classical.choice, Quot.sound
Verif.Props.TekText.C88_pulse: propext, Classical.choice, Quot.sound
Verif.Props.TekText.C88_queries: propext, Classical.choice, Quot.sound
Verif.Props.TekText.C88_queries_family: propext, Classical.choice, Quot.sound
Verif.Props.TekText.C88_sample_rate: propext, Classical.choice, Quot.sound
Verif.Props.TekText.C88_slope_unknown: propext, Classical.choice, Quot.sound
Verif.Props.TekText.C88_timeout: propext, Classical.choice, Quot.sound
Verif.Props.TekText.C88_waveform: propext, Classical.choice, Quot.sound
Verif.Props.TekTypes.C25_no_range: propext, Classical.choice, Quot.sound
Verif.Props.TekTypes.C25_range: propext, Classical.choice, Quot.sound
Verif.Props.TekTypes.C89_error: propext, Classical.choice, Quot.sound
Verif.Props.TekTypes.C89_keys: propext, Classical.choice, Quot.sound
Verif.Props.TekTypes.C89_reply: propext, Classical.choice, Quot.sound
Verif.Props.TimeScale.C76_auto_partial: propext, Classical.choice, Quot.sound
Verif.Props.TimeScale.C76_cdr_fixed: propext, Classical.choice, Quot.sound
Verif.Props.TimeScale.C76_cdr_shift: propext, Classical.choice, Quot.sound
Verif.Props.TimeScale.C76_decagon: propext, Classical.choice, Quot.sound
Verif.Props.TimeScale.C76_hexagon: propext, Classical.choice, Quot.sound
Verif.Props.TimeScale.C76_recover_fixed: propext, Classical.choice, Quot.sound
Verif.Props.TimeScale.C76_recover_shift: propext, Classical.choice, Quot.sound
Verif.Props.TimeScale.C76_score_fails: propext, Classical.choice, Quot.sound
Verif.Props.TimeScale.C76_shift_fails: propext, Classical.choice, Quot.sound
Verif.Props.TimeScale.C76_time_partial: propext, Classical.choice, Quot.sound
Verif.Props.Together.C91_bits: propext
Verif.Props.Together.C91_decagon: propext, Classical.choice, Quot.sound
Verif.Props.Together.C91_hexagon: propext, Classical.choice, Quot.sound
Verif.Props.Together.C91_together: propext, Classical.choice, Quot.sound
Verif.Props.Uncertain.C16_add_sub_increases: propext, Classical.choice, Quot.sound
Verif.Props.Uncertain.C16_add_sub_variance: propext, Classical.choice, Quot.sound
Verif.Props.Uncertain.C16_comparison: propext, Classical.choice, Quot.sound
Verif.Props.Uncertain.C16_exact_operand: propext, Classical.choice, Quot.sound
Verif.Props.Uncertain.C16_log: propext, Classical.choice, Quot.sound
Verif.Props.Uncertain.C16_mul_div_relative: propext, Classical.choice, Quot.sound
Verif.Props.Uncertain.C16_mul_div_value: propext, Classical.choice, Quot.sound
Verif.Props.Uncertain.C16_mul_div_zero: propext, Classical.choice, Quot.sound
Verif.Props.Uncertain.C16_samples: propext, Classical.choice, Quot.sound
Verif.Props.Uncertain.C16_scale: propext, Classical.choice, Quot.sound
Verif.Props.Wave.C35_decodes_partial: propext, Classical.choice, Quot.sound
Verif.Props.Wave.C35_marker_fails: propext, Classical.choice, Quot.sound
Verif.Props.Wave.C35_rejects: propext, Classical.choice, Quot.sound
Verif.Props.Wave.C35_undecodable: propext, Classical.choice, Quot.sound
Verif.Props.Wave.C35_unsigned_fails: propext, Classical.choice, Quot.sound
Verif.Props.Wave.C38_beyond_fails: propext, Classical.choice, Quot.sound
Verif.Props.Wave.C38_clipped_fails: propext, Classical.choice, Quot.sound
Verif.Props.Wave.C38_dither_partial: propext, Classical.choice, Quot.sound
Verif.Props.Wave.C38_query_partial: propext, Classical.choice, Quot.sound
Verif.Props.Wave.C38_zero_fails: propext, Classical.choice, Quot.sound
Verif.Props.Wfm.C36_altered_partial: propext, Classical.choice, Quot.sound
Verif.Props.Wfm.C36_length_fails: propext, Classical.choice, Quot.sound
Verif.Props.Wfm.C36_longer_partial: propext, Classical.choice, Quot.sound
Verif.Props.Wfm.C36_only_value_error_partial: propext, Classical.choice, Quot.sound
Verif.Props.Wfm.C36_rejects: propext, Classical.choice, Quot.sound
Verif.Props.Wfm.C36_rejects_partial: propext, Classical.choice, Quot.sound
Verif.Props.Wfm.C36_time_fails: propext, Classical.choice, Quot.sound
Verif.Props.Wfm.C36_time_limits: propext, Classical.choice, Quot.sound
Verif.Props.Wfm.C36_version: propext, Quot.sound
Verif.Props.Wfm.C36_version_only: propext, Quot.sound
Verif.Props.Wfm.C37_frames_partial: propext, Classical.choice, Quot.sound
Verif.Props.Wfm.C37_misaligned_fails: propext, Classical.choice, Quot.sound
Verif.Props.Wfm.C37_slice: propext, Classical.choice, Quot.sound
Verif.Props.Wfm.C37_unequal_fails: propext, Classical.choice, Quot.sound
Verif.Props.Wfm.C38_file_partial: propext, Classical.choice, Quot.sound
