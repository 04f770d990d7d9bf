{
 "claims": [
  {
   "property": "C01",
   "status": "proved",
   "theorems": [
    "Verif.Props.Raster.C01_segment_terminates",
    "Verif.Props.Raster.C01_zero_length"
   ],
   "note": ""
  },
  {
   "property": "C02",
   "status": "proved",
   "theorems": [
    "Verif.Props.Raster.C02_segment_accuracy",
    "Verif.Props.Raster.C02_segment_box"
   ],
   "note": ""
  },
  {
   "property": "C03",
   "status": "proved",
   "theorems": [
    "Verif.Props.Raster.C03_error_iff",
    "Verif.Props.Raster.C03_additive",
    "Verif.Props.Raster.C03_cells",
    "Verif.Props.Raster.C03_order_independent",
    "Verif.Props.Raster.C03_total"
   ],
   "note": ""
  },
  {
   "property": "C04",
   "status": "proved",
   "theorems": [
    "Verif.Props.Raster.C04_draw_points"
   ],
   "note": ""
  },
  {
   "property": "C05",
   "status": "proved",
   "theorems": [
    "Verif.Props.Crossing.C05_backward",
    "Verif.Props.Crossing.C05_forward",
    "Verif.Props.Crossing.C05_outside"
   ],
   "note": ""
  },
  {
   "property": "C06",
   "status": "partial",
   "theorems": [
    "Verif.Props.Edges.C06_C07_timeline",
    "Verif.Props.Edges.C06_C07_timeline_partial",
    "Verif.Props.Edges.C06_first_edge_fails",
    "Verif.Props.Edges.C06_nan_only_initial"
   ],
   "note": "False for a waveform that starts between the falling threshold and the half level and then drops: a falling edge at time nan is reported (C06_first_edge_fails). C06_nan_only_initial shows that this is the only source of nan."
  },
  {
   "property": "C07",
   "status": "partial",
   "theorems": [
    "Verif.Props.Edges.C07_edges_schmitt",
    "Verif.Props.Edges.C07_no_edges_in_band",
    "Verif.Props.Edges.C07_empty",
    "Verif.Props.Edges.C06_C07_timeline",
    "Verif.Props.Edges.C06_C07_timeline_partial",
    "Verif.Props.Edges.C07_edges_np"
   ],
   "note": "The time line theorem needs a waveform that does not start between the falling threshold and the half level, see C06_first_edge_fails. The Schmitt trigger characterisation C07_edges_schmitt holds without that condition."
  },
  {
   "property": "C08",
   "status": "proved",
   "theorems": [
    "Verif.Props.Intersect.C08_segments",
    "Verif.Props.Intersect.C08_lines",
    "Verif.Props.Intersect.C08_symmetric"
   ],
   "note": ""
  },
  {
   "property": "C09",
   "status": "proved",
   "theorems": [
    "Verif.Props.Intersect.C09_hits",
    "Verif.Props.Intersect.C09_empty_path",
    "Verif.Props.Intersect.C09_is_hitting",
    "Verif.Props.Intersect.C09_is_hitting_geometric",
    "Verif.Props.Intersect.C09_unordered_time_loses_hits"
   ],
   "note": ""
  },
  {
   "property": "C10",
   "status": "proved",
   "theorems": [
    "Verif.Props.Line2D.C10_line_intersection",
    "Verif.Props.Line2D.C10_none_iff",
    "Verif.Props.Line2D.C10_in_rect",
    "Verif.Props.Line2D.C10_in_rect_iff"
   ],
   "note": ""
  },
  {
   "property": "C11",
   "status": "partial",
   "theorems": [
    "Verif.Props.Line2D.C11_intersecting_partial",
    "Verif.Props.Line2D.C11_origin_fails",
    "Verif.Props.Line2D.C11_tolerance_fails"
   ],
   "note": "False with a point at the origin (ZeroDivisionError, C11_origin_fails) and because of the relative tolerance (C11_tolerance_fails). The partial theorem excludes points at the origin."
  },
  {
   "property": "C12",
   "status": "partial",
   "theorems": [
    "Verif.Props.CdrDetrend.C12_detrend",
    "Verif.Props.CdrRun.C12_run_partial",
    "Verif.Props.CdrRun.C12_minimize_partial",
    "Verif.Props.CdrRun.C12_minimize_raises",
    "Verif.Props.CdrRun.C12_minimize_fails",
    "Verif.Props.EyeC.C12_mask",
    "Verif.Props.EyeC.C12_slice",
    "Verif.Props.EyeC.C12_stack",
    "Verif.Props.LinesC.C12_int32",
    "Verif.Props.LinesC.C12_draw",
    "Verif.Props.LinesC.C12_draw_short",
    "Verif.Props.LinesC.C12_draw_points",
    "Verif.Props.LinesC.C12_crossing",
    "Verif.Props.LinesC.C12_crossing_outside",
    "Verif.Props.LinesC.C12_edges",
    "Verif.Props.LinesC.C12_edges_outside",
    "Verif.Props.LinesC.C12_intersection",
    "Verif.Props.LinesC.C12_hits",
    "Verif.Props.LinesC.C12_is_hitting",
    "Verif.Props.LinesC.C12_hits_np",
    "Verif.Props.LinesC.C12_hits_np_fails",
    "Verif.Props.LinesC.C12_hits_empty_path",
    "Verif.Props.Pam2Horizontal.C12_horizontal_fails",
    "Verif.Props.Pam2Vertical.C12_vertical",
    "Verif.Props.Pam2Vertical.C12_vertical_outside",
    "Verif.Props.Single.C12_single_fits",
    "Verif.Props.Single.C12_single_near",
    "Verif.Props.Single.C12_crossing_partial",
    "Verif.Props.Single.C12_edges_partial",
    "Verif.Props.Single.C12_edges_moved",
    "Verif.Props.Single.C12_crossing_fails",
    "Verif.Props.Single.C12_edges_fails"
   ],
   "note": "math/_lines.pyx: crossing and edges take their thresholds as C floats of 24 bits: they return the same as the fallback for the rounded thresholds (C12_crossing, C12_edges), so the same for thresholds that fit (C12_crossing_partial, C12_edges_partial, C12_single_fits), or that have no sample between them and the rounded ones (C12_edges_moved, rounding error C12_single_near), else not (C12_crossing_fails, C12_edges_fails: no edges at all of a square wave on a large offset). intersection, hits, is_hitting, draw_points and draw (coordinates up to 2^26: no 32 bit overflow) return the same as the fallback whatever is in memory outside of the arrays (C12_intersection, C12_hits, C12_is_hitting, C12_draw_points, C12_draw). hits_np: the same rows (C12_hits_np), but without hits the shape is (0,) in the fallback and (0, 2) in the compiled version (C12_hits_np_fails). Outside of the contract they differ: C12_draw_short, C12_crossing_outside, C12_edges_outside, C12_hits_empty_path. _eyediagram.pyx: sample_mask, y_slice, stack agree for symbols within the record (C12_mask, C12_slice, C12_stack). sample_vertical: agrees for symbols within the record (C12_vertical); outside it would not (C12_vertical_outside), but such symbols are dropped (C43). sample_horizontal: crossing times agree (C45_compiled), edge times do not: C12_horizontal_fails. detrend_ties: equal (C12_detrend); minimize_tie_disjoints: the compiled version differs in one step width, so it may return another period, and raises ZeroDivisionError where the fallback has nan: if all edges are less than half of the longest period after the first one (C12_minimize_raises, C12_minimize_fails; Cython 3, older versions print the error and return 0). Else it equals the fallback with that step width (C12_minimize_partial), so CDR.run with it is covered by C48, C50 too (C12_run_partial)."
  },
  {
   "property": "C13",
   "status": "proved",
   "theorems": [
    "Verif.Props.Stats.C13_bin_exact",
    "Verif.Props.Stats.C13_order_independent",
    "Verif.Props.Stats.C13_faithful"
   ],
   "note": ""
  },
  {
   "property": "C14",
   "status": "proved",
   "theorems": [
    "Verif.Props.Stats.C14_bin_linear",
    "Verif.Props.Stats.C14_exactly_one_bin",
    "Verif.Props.Stats.C14_empty"
   ],
   "note": ""
  },
  {
   "property": "C15",
   "status": "proved",
   "theorems": [
    "Verif.Props.Stats.C15_short",
    "Verif.Props.Stats.C15_empty",
    "Verif.Props.Stats.C15_exact",
    "Verif.Props.Stats.C15_linear"
   ],
   "note": ""
  },
  {
   "property": "C16",
   "status": "proved",
   "theorems": [
    "Verif.Props.Uncertain.C16_add_sub_variance",
    "Verif.Props.Uncertain.C16_add_sub_increases",
    "Verif.Props.Uncertain.C16_exact_operand",
    "Verif.Props.Uncertain.C16_mul_div_relative",
    "Verif.Props.Uncertain.C16_mul_div_zero",
    "Verif.Props.Uncertain.C16_mul_div_value",
    "Verif.Props.Uncertain.C16_scale",
    "Verif.Props.Uncertain.C16_comparison",
    "Verif.Props.Uncertain.C16_samples",
    "Verif.Props.Uncertain.C16_log"
   ],
   "note": ""
  },
  {
   "property": "C17",
   "status": "proved",
   "theorems": [
    "Verif.Props.Strformat.C17_metric_prefix",
    "Verif.Props.Strformat.C17_default_range",
    "Verif.Props.Strformat.C17_special",
    "Verif.Props.Strformat.C17_empty"
   ],
   "note": ""
  },
  {
   "property": "C18",
   "status": "partial",
   "theorems": [
    "Verif.Props.Strformat.C18_layout",
    "Verif.Props.Strformat.C18_field",
    "Verif.Props.Strformat.C18_whole_seconds",
    "Verif.Props.Strformat.C18_minutes_only",
    "Verif.Props.Strformat.C18_hundredths_partial",
    "Verif.Props.Strformat.C18_seconds_fails",
    "Verif.Props.Strformat.C18_elapsed"
   ],
   "note": "False from 59.995 s within a minute on: the seconds field prints as 60 (C18_seconds_fails). Proved below that."
  },
  {
   "property": "C19",
   "status": "partial",
   "theorems": [
    "Verif.Props.Image.C19_layer_valid",
    "Verif.Props.Image.C19_opaque",
    "Verif.Props.Image.C19_transparent",
    "Verif.Props.Image.C19_weighted",
    "Verif.Props.Image.C19_associative_partial",
    "Verif.Props.Image.C19_associative_fails",
    "Verif.Props.Image.C19_rejects"
   ],
   "note": "Validity, opacity, transparency, weighting and rejection for any uninitialised memory. Associativity is violated if the memory holds nan or inf (C19_associative_fails); C19_associative_partial: finite memory."
  },
  {
   "property": "C20",
   "status": "proved",
   "theorems": [
    "Verif.Props.Interpolation.C20_interpolates",
    "Verif.Props.Interpolation.C20_linear",
    "Verif.Props.Interpolation.C20_shape"
   ],
   "note": ""
  },
  {
   "property": "C21",
   "status": "proved",
   "theorems": [
    "Verif.Props.Equipment.C21_returns",
    "Verif.Props.Equipment.C21_timeout",
    "Verif.Props.Equipment.C21_bounded"
   ],
   "note": ""
  },
  {
   "property": "C22",
   "status": "partial",
   "theorems": [
    "Verif.Props.Equipment.C22_closed_once",
    "Verif.Props.Equipment.C22_after_close",
    "Verif.Props.Equipment.C22_io",
    "Verif.Props.Equipment.C22_with_outcome",
    "Verif.Props.Equipment.C22_with",
    "Verif.Props.Equipment.C22_construction_partial",
    "Verif.Props.Equipment.C22_open_raises",
    "Verif.Props.Equipment.C22_not_message_based_fails"
   ],
   "note": "False when the resource is not message based: it is opened and never closed. Proved for the rest."
  },
  {
   "property": "C23",
   "status": "partial",
   "theorems": [
    "Verif.Props.Equipment.C23_probe_closed",
    "Verif.Props.Equipment.C23_first_match",
    "Verif.Props.Equipment.C23_no_match",
    "Verif.Props.Equipment.C23_not_message_based",
    "Verif.Props.Equipment.C23_ident_raises",
    "Verif.Props.Equipment.C23_install_rejects",
    "Verif.Props.Equipment.C23_install_order",
    "Verif.Props.Equipment.C23_priority_kept",
    "Verif.Props.Equipment.C23_last_install",
    "Verif.Props.Equipment.C23_accepts_partial",
    "Verif.Props.Equipment.C23_accepts_fails",
    "Verif.Props.Equipment.C23_accepts_456_partial",
    "Verif.Props.Equipment.C23_builtin_disjoint",
    "Verif.Props.Equipment.C23_supported_dispatched"
   ],
   "note": "That the selected driver accepts the instrument is proved for the 3000/4000 series and for every documented 4/5/6 series model; it is false for models such as MSO45 that the table matches and the driver rejects (C23_accepts_fails)."
  },
  {
   "property": "C24",
   "status": "proved",
   "theorems": [
    "Verif.Props.Scpi.C24_flat",
    "Verif.Props.Scpi.C24_flat_keys_injective",
    "Verif.Props.Scpi.C24_nested",
    "Verif.Props.Scpi.C24_last_write",
    "Verif.Props.Scpi.C24_round_trip",
    "Verif.Props.Scpi.C24_trailing_colon"
   ],
   "note": ""
  },
  {
   "property": "C25",
   "status": "proved",
   "theorems": [
    "Verif.Props.Scpi.C25_no_value",
    "Verif.Props.Scpi.C25_empty",
    "Verif.Props.Scpi.C25_blank_header",
    "Verif.Props.Scpi.C25_relative",
    "Verif.Props.Scpi.C25_key_known",
    "Verif.Props.Scpi.C25_key_unknown",
    "Verif.Props.Scpi.C25_key_untyped",
    "Verif.Props.Scpi.C25_typed",
    "Verif.Props.Scpi.C25_typed_stream",
    "Verif.Props.TekTypes.C25_range",
    "Verif.Props.TekTypes.C25_no_range"
   ],
   "note": ""
  },
  {
   "property": "C26",
   "status": "partial",
   "theorems": [
    "Verif.Props.Autoscale.C26_bounded",
    "Verif.Props.Autoscale.C26_restores_partial",
    "Verif.Props.Autoscale.C26_returns_settled",
    "Verif.Props.Autoscale.C26_timeout_partial",
    "Verif.Props.Autoscale.C26_timeout_fails",
    "Verif.Props.Autoscale.C26_restore_fails"
   ],
   "note": "False when the tenth attempt settles (TimeoutError all the same) and when an acquisition raises (record length not restored). Proved otherwise."
  },
  {
   "property": "C27",
   "status": "proved",
   "theorems": [
    "Verif.Props.Autoscale.C27_recentres",
    "Verif.Props.Autoscale.C27_converges",
    "Verif.Props.Autoscale.C27_span",
    "Verif.Props.Autoscale.C27_factor",
    "Verif.Props.Autoscale.C27_offscreen"
   ],
   "note": ""
  },
  {
   "property": "C28",
   "status": "partial",
   "theorems": [
    "Verif.Props.Tek.C28_read_back_partial",
    "Verif.Props.Tek.C28_inclusive_fails",
    "Verif.Props.Tek.C28_line_level_fails"
   ],
   "note": "False for pulse triggers with an inclusive comparison (<= reads back as <, C28_inclusive_fails) and for edge triggers on the mains line of the 4/5/6 series (the level is neither sent nor read, C28_line_level_fails). Proved for the others, on an instrument that stores what it is sent up to number formatting and keyword abbreviation."
  },
  {
   "property": "C29",
   "status": "partial",
   "theorems": [
    "Verif.Props.Tek.C29_rejected_partial",
    "Verif.Props.Tek.C29_type_fails"
   ],
   "note": "ValueError and every other register are proved unchanged; false for the trigger type, which is switched before the source is checked (C29_type_fails)."
  },
  {
   "property": "C30",
   "status": "proved",
   "theorems": [
    "Verif.Props.Tek.C30_mode",
    "Verif.Props.Tek.C30_count"
   ],
   "note": ""
  },
  {
   "property": "C31",
   "status": "partial",
   "theorems": [
    "Verif.Props.Tek.C31_sent",
    "Verif.Props.Tek.C31_read_back_partial",
    "Verif.Props.Tek.C31_apostrophe_fails"
   ],
   "note": "What is sent is proved for all strings. Reading back is proved for labels without apostrophe; with one, the string that is sent is not a SCPI string (C31_apostrophe_fails)."
  },
  {
   "property": "C32",
   "status": "proved",
   "theorems": [
    "Verif.Props.Decimal.C32_round_trip",
    "Verif.Props.Decimal.C32_exact",
    "Verif.Props.Decimal.C32_nearest",
    "Verif.Props.Decimal.C32_int",
    "Verif.Props.Tek.C32_setting",
    "Verif.Props.Tek.C32_time_base",
    "Verif.Props.Tek.C32_sample_rate"
   ],
   "note": ""
  },
  {
   "property": "C33",
   "status": "partial",
   "theorems": [
    "Verif.Props.Tek.C33_active",
    "Verif.Props.Tek.C33_coupling",
    "Verif.Props.Tek.C33_inverted_fails",
    "Verif.Props.Tek.C33_inverted_partial"
   ],
   "note": "active and dc_coupling are proved. inverted reads back True always (bool of a non-empty string, C33_inverted_fails)."
  },
  {
   "property": "C34",
   "status": "partial",
   "theorems": [
    "Verif.Props.Tek.C34_polarity",
    "Verif.Props.Tek.C34_sample_mode",
    "Verif.Props.Tek.C34_comparison_partial",
    "Verif.Props.Tek.C34_shadowed_fails",
    "Verif.Props.Tek.C34_untouched_fails",
    "Verif.Props.Tek.C34_documented",
    "Verif.Props.Tek.C34_threshold"
   ],
   "note": "Exact characterisations of what each parser recognises. False for LESSEQUAL and MOREEQUAL, which read as LESS and MORE (C34_shadowed_fails), and for texts that only begin like an abbreviation, which are not returned untouched (C34_untouched_fails)."
  },
  {
   "property": "C35",
   "status": "partial",
   "theorems": [
    "Verif.Props.Wave.C35_decodes_partial",
    "Verif.Props.Wave.C35_marker_fails",
    "Verif.Props.Wave.C35_unsigned_fails",
    "Verif.Props.Wave.C35_rejects",
    "Verif.Props.Wave.C35_undecodable"
   ],
   "note": "Proved for every reply whose header and samples do not contain the bytes of the curve marker (C35_decodes_partial): codes of any content, 1 or 2 bytes, both byte orders, signed and unsigned, abbreviated keys, the missing quote of some instruments. False otherwise: a reply whose samples contain the marker is rejected (C35_marker_fails); unsigned samples are compared with the limits of signed ones (C35_unsigned_fails)."
  },
  {
   "property": "C36",
   "status": "partial",
   "theorems": [
    "Verif.Props.Wfm.C36_time_limits",
    "Verif.Props.Wfm.C36_rejects_partial",
    "Verif.Props.Wfm.C36_rejects",
    "Verif.Props.Wfm.C36_only_value_error_partial",
    "Verif.Props.Wfm.C36_altered_partial",
    "Verif.Props.Wfm.C36_longer_partial",
    "Verif.Props.Wfm.C36_length_fails",
    "Verif.Props.Wfm.C36_time_fails",
    "Verif.Props.Wfm.C36_version",
    "Verif.Props.Wfm.C36_version_only"
   ],
   "note": "C36_rejects: every file that is too short or has a wrong marker, version, dimension, format, width, length or checksum is rejected with some error; C36_rejects_partial: with ValueError when the time of the trigger can be converted. C36_altered_partial: altering one covered byte outside the two length fields leads to an error, a ValueError unless the byte is in the fraction of the trigger time. C36_longer_partial: a length field that got larger leads to ValueError. False when a length field gets smaller and the samples happen to contain the checksum (C36_length_fails), and for the time fraction (OverflowError, C36_time_fails)."
  },
  {
   "property": "C37",
   "status": "partial",
   "theorems": [
    "Verif.Props.Wfm.C37_slice",
    "Verif.Props.Wfm.C37_frames_partial",
    "Verif.Props.Wfm.C37_unequal_fails",
    "Verif.Props.Wfm.C37_misaligned_fails"
   ],
   "note": "Proved for files with as many precharge as postcharge samples whose samples fill the frames. With unequal numbers every file is rejected (C37_unequal_fails, general); with bytes before the samples, or after them with several frames, the samples are taken from the wrong place (C37_misaligned_fails)."
  },
  {
   "property": "C38",
   "status": "partial",
   "theorems": [
    "Verif.Props.Wave.C38_dither_partial",
    "Verif.Props.Wave.C38_zero_fails",
    "Verif.Props.Wave.C38_clipped_fails",
    "Verif.Props.Wave.C38_beyond_fails",
    "Verif.Props.Wave.C38_query_partial",
    "Verif.Props.Wfm.C38_file_partial"
   ],
   "note": "Proved for codes within the limits that are not all zero, at the level of the samples and of whole replies. False for an all-zero waveform (noise of full range), for clipped samples when the LSB is larger than 1, and for codes beyond the limits (the three _fails theorems)."
  },
  {
   "property": "C39",
   "status": "partial",
   "theorems": [
    "Verif.Props.Mask.C39_convert_hexagon",
    "Verif.Props.Mask.C39_convert_decagon",
    "Verif.Props.Mask.C39_history_hexagon",
    "Verif.Props.Mask.C39_history_decagon",
    "Verif.Props.Mask.C39_twice_hexagon_partial",
    "Verif.Props.Mask.C39_twice_decagon_partial",
    "Verif.Props.Mask.C39_twice_fails"
   ],
   "note": "Converting from any mixture of units gives the documented paths, paths before conversion raise ValueError after any history of calls. A second conversion is only harmless with zero_ref=True: with zero_ref=False it turns y1, y_lower, y_upper around once more (C39_twice_fails, a bug in the code)."
  },
  {
   "property": "C40",
   "status": "partial",
   "theorems": [
    "Verif.Props.Mask.C40_zero_hexagon",
    "Verif.Props.Mask.C40_zero_decagon",
    "Verif.Props.Mask.C40_minus_one_hexagon",
    "Verif.Props.Mask.C40_minus_one_decagon",
    "Verif.Props.Mask.C40_one_hexagon",
    "Verif.Props.Mask.C40_one_decagon",
    "Verif.Props.Mask.C40_proportions_hexagon",
    "Verif.Props.Mask.C40_proportions_decagon",
    "Verif.Props.Mask.C40_grows_hexagon",
    "Verif.Props.Mask.C40_grows_decagon",
    "Verif.Props.Mask.C40_limits_hexagon",
    "Verif.Props.Mask.C40_limits_decagon",
    "Verif.Props.Mask.C40_units_fails"
   ],
   "note": "Proved for converted masks (hexagon and decagon): factor 0, -1, 1, proportions, growth of the polygon and approach of the limits (limits at most 0.5 UA away). Adjusting before the conversion forgets the units of the parameters (C40_units_fails)."
  },
  {
   "property": "C41",
   "status": "partial",
   "theorems": [
    "Verif.Props.MaskHits.C41_hexagon_partial",
    "Verif.Props.MaskHits.C41_decagon_partial",
    "Verif.Props.MaskHits.C41_far_limits_fails"
   ],
   "note": "Proved for every window and every pair of margins -1..1 for convex hexagons/decagons whose limits are between 0 and 0.5 UA away. Limits further away come closer for negative margins, and a window can hit at margin -1 and not at -0.1 (C41_far_limits_fails)."
  },
  {
   "property": "C42",
   "status": "proved",
   "theorems": [
    "Verif.Props.EyeMask.C42_waveform",
    "Verif.Props.EyeMask.C42_waveforms",
    "Verif.Props.EyeMask.C42_points",
    "Verif.Props.EyeMask.C42_order",
    "Verif.Props.EyeMask.C42_hexagon",
    "Verif.Props.EyeMask.C42_decagon"
   ],
   "note": "C42_waveform and C42_waveforms hold for every family of mask paths with monotone hits (the property's quantifier); C42_hexagon and C42_decagon discharge that assumption with C41 for masks with limits up to half an amplitude away and waveforms less than one amplitude outside 0 and 1. C42_order: the order of the waveforms does not matter."
  },
  {
   "property": "C43",
   "status": "partial",
   "theorems": [
    "Verif.Props.EyeWindow.C43_inside",
    "Verif.Props.EyeWindow.C43_aligned_partial",
    "Verif.Props.EyeWindow.C43_half_sample",
    "Verif.Props.EyeWindow.C43_unaligned_fails"
   ],
   "note": "Proved: a window never leaves the record (C43_inside), is exact when the first sample's time is a multiple of the sample period (C43_aligned_partial), and is off by at most half a sample otherwise (C43_half_sample). C43_unaligned_fails: with another time of the first sample the window is shifted, since eyediagram.py:631 takes b % t_delta instead of (b - t_zero) % t_delta."
  },
  {
   "property": "C44",
   "status": "proved",
   "theorems": [
    "Verif.Props.Pam2Vertical.C44_symbols",
    "Verif.Props.Pam2Vertical.C44_total",
    "Verif.Props.Pam2Vertical.C44_windows",
    "Verif.Props.Pam2Vertical.C44_decided"
   ],
   "note": "For all waveforms and symbols within the record (all sampled symbols are, C43). Decision windows wider than a symbol overlap: a sample counts for the first one (slot); C44_windows for narrower ones."
  },
  {
   "property": "C45",
   "status": "proved",
   "theorems": [
    "Verif.Props.Pam2Horizontal.C45_samples",
    "Verif.Props.Pam2Horizontal.C45_compiled",
    "Verif.Props.Pam2Measures.C45_crossing"
   ],
   "note": "C45_samples: complete description for the fallback; C45_compiled: for the compiled version, which takes all samples up to the middle of the symbol instead of those between the extremes (see C12); C45_crossing: ranges of crossing times for both."
  },
  {
   "property": "C46",
   "status": "partial",
   "theorems": [
    "Verif.Props.Pam2Bits.C46_nrzm",
    "Verif.Props.Pam2Bits.C46_nrzl_partial",
    "Verif.Props.Pam2Bits.C46_not_calculated",
    "Verif.Props.Pam2Bits.C46_constant_fails",
    "Verif.Props.Pam2Bits.C46_skipped_fails",
    "Verif.Props.Pam2Bits.C46_regular_partial",
    "Verif.Props.Pam2Bits.C46_wide_fails"
   ],
   "note": "C46_nrzm (edges) in full. C46_nrzl_partial (levels): if each symbol's level is what its successor sees as the previous one, and there is an edge or no high symbol; C46_constant_fails: a record that is high throughout gives zeros. C46_regular_partial: the first assumption holds for a regular clock and decision windows of at most 3 samples; C46_wide_fails: with wider ones the window of the previous symbol is cut off and a bit is wrong. C46_not_calculated / C46_skipped_fails: RuntimeError before calculating as documented, but TypeError when the measures were skipped."
  },
  {
   "property": "C47",
   "status": "proved",
   "theorems": [
    "Verif.Props.EyeBathtub.C47_curve",
    "Verif.Props.EyeBathtub.C47_hits"
   ],
   "note": "For every list of hits between 0 and 1 (C47_curve), and the hits of every eye diagram are (C47_hits). Of several hits at the same time the outermost point has the stated fraction; the others are between it and the fraction of hits strictly further in."
  },
  {
   "property": "C48",
   "status": "partial",
   "theorems": [
    "Verif.Props.CdrRun.C48_recovered",
    "Verif.Props.CdrRun.C48_errors",
    "Verif.Props.CdrRun.C48_empty_fails",
    "Verif.Props.CdrRun.C48_resampled",
    "Verif.Props.CdrRun.C48_exact"
   ],
   "note": "C48_recovered, C48_resampled, C48_errors for strictly increasing edges, any initial period, any way to sort the scores and any list of finer searches (fallback and compiled). C48_exact: edges without jitter are recovered exactly, clock edges at the symbol centres. C48_empty_fails: no edges at all raise IndexError instead of the documented ValueError. A period of nan (no gap longer than half a period) raises ValueError."
  },
  {
   "property": "C49",
   "status": "proved",
   "theorems": [
    "Verif.Props.CdrDetrend.C49_best_fit",
    "Verif.Props.CdrDetrend.C49_exact",
    "Verif.Props.CdrDetrend.C49_positive",
    "Verif.Props.CdrDetrend.C49_empty"
   ],
   "note": "C49_best_fit in general, C49_exact for edges without jitter, C49_positive for increasing edges; the compiled version is the same (C12_detrend)."
  },
  {
   "property": "C50",
   "status": "proved",
   "theorems": [
    "Verif.Props.CdrRun.C50_refine_compiled",
    "Verif.Props.CdrSearch.C50_found",
    "Verif.Props.CdrSearch.C50_t_sym",
    "Verif.Props.CdrSearch.C50_missing",
    "Verif.Props.CdrSearch.C50_no_edges",
    "Verif.Props.CdrSearch.C50_finds",
    "Verif.Props.CdrSearch.C50_refine"
   ],
   "note": "C50_found, C50_t_sym, C50_missing, C50_no_edges for any way to sort (scores of nan may be anywhere) and any list of finer searches; C50_finds: edges without jitter are found in the first round. C50_refine: how the fallback narrows the bounds."
  },
  {
   "property": "C51",
   "status": "partial",
   "theorems": [
    "Verif.Props.EyeConfig.C51_known",
    "Verif.Props.EyeConfig.C51_nothing_else",
    "Verif.Props.EyeConfig.C51_unknown_partial",
    "Verif.Props.EyeConfig.C51_consume_order",
    "Verif.Props.EyeConfig.C51_method_fails",
    "Verif.Props.EyeConfig.C51_documented",
    "Verif.Props.EyeConfig.C51_documented_fails"
   ],
   "note": "Known parameters: C51_known, C51_nothing_else, C51_consume_order. C51_unknown_partial: KeyError for unknown names except `consume` and the attributes of every python object, which hasattr() finds; C51_method_fails: PAM2Config(consume=1) is accepted. C51_documented: the known parameters are the documented ones except for time_hight, which raises KeyError (C51_documented_fails); the attribute is time_height."
  },
  {
   "property": "C52",
   "status": "proved",
   "theorems": [
    "Verif.Props.EyeConfig.C52_new",
    "Verif.Props.EyeConfig.C52_getters",
    "Verif.Props.EyeConfig.C52_clock_edges"
   ],
   "note": ""
  },
  {
   "property": "C53",
   "status": "proved",
   "theorems": [
    "Verif.Props.Clock.C53_count",
    "Verif.Props.Clock.C53_ideal",
    "Verif.Props.Clock.C53_bounded",
    "Verif.Props.Clock.C53_ordered",
    "Verif.Props.Clock.C53_dcd"
   ],
   "note": ""
  },
  {
   "property": "C54",
   "status": "partial",
   "theorems": [
    "Verif.Props.Pam2Levels.C54_thresholds",
    "Verif.Props.Pam2Levels.C54_snr_partial",
    "Verif.Props.Pam2Levels.C54_snr_off",
    "Verif.Props.Pam2Levels.C54_snr_fails"
   ],
   "note": "C54_thresholds in full; C54_snr_partial: low SNR exactly if the amplitude is below twice the sum of deviations, when a level is measured; C54_snr_off: never with both levels given (C54_snr_fails: even if inverted) or without noise."
  },
  {
   "property": "C55",
   "status": "partial",
   "theorems": [
    "Verif.Props.EyeImage.C55_monotone",
    "Verif.Props.EyeImage.C55_range",
    "Verif.Props.EyeImage.C55_inside_partial",
    "Verif.Props.EyeImage.C55_edge_fails",
    "Verif.Props.EyeImage.C55_outside"
   ],
   "note": "C55_monotone and C55_range in full. C55_inside_partial: positions for drawing are inside the image except from 1.5 on, for one pixel; C55_edge_fails: 1.5 itself is mapped to [resolution], outside the image (pos <= resolution instead of <)."
  },
  {
   "property": "C56",
   "status": "proved",
   "theorems": [
    "Verif.Props.EyeImage.C56_fallback",
    "Verif.Props.EyeImage.C56_fallback_errors",
    "Verif.Props.EyeImage.C56_period",
    "Verif.Props.EyeImage.C56_regular"
   ],
   "note": ""
  },
  {
   "property": "C57",
   "status": "proved",
   "theorems": [
    "Verif.Props.Gaussian.C57_density",
    "Verif.Props.Gaussian.C57_impulse",
    "Verif.Props.Gaussian.C57_f",
    "Verif.Props.Gaussian.C57_center_single",
    "Verif.Props.Gaussian.C57_center_empty",
    "Verif.Props.Gaussian.C57_center_range",
    "Verif.Props.Gaussian.C57_center_grid_max",
    "Verif.Props.Gaussian.C57_sample_error_inv",
    "Verif.Props.Gaussian.C57_normal",
    "Verif.Props.Gaussian.C57_array",
    "Verif.Props.Gaussian.C57_array_impulse"
   ],
   "note": ""
  },
  {
   "property": "C58",
   "status": "proved",
   "theorems": [
    "Verif.Props.Tek.C58_request",
    "Verif.Props.Tek.C58_failed_transfer"
   ],
   "note": "On success the header setting is restored; C58_failed_transfer shows what is left behind when the transfer raises."
  },
  {
   "property": "C59",
   "status": "proved",
   "theorems": [
    "Verif.Props.EyeImage.C59_orientation",
    "Verif.Props.EyeImage.C59_total",
    "Verif.Props.EyeImage.C59_point_cloud",
    "Verif.Props.EyeImage.C59_pixels",
    "Verif.Props.EyeImage.C59_counts",
    "Verif.Props.EyeImage.C59_order"
   ],
   "note": ""
  },
  {
   "property": "C60",
   "status": "proved",
   "theorems": [
    "Verif.Props.Pam2Clock.C60_given",
    "Verif.Props.Pam2Clock.C60_clock",
    "Verif.Props.Pam2Clock.C60_recovery",
    "Verif.Props.Pam2Clock.C60_fallback"
   ],
   "note": ""
  },
  {
   "property": "C61",
   "status": "partial",
   "theorems": [
    "Verif.Props.Pam2Levels.C61_update_partial",
    "Verif.Props.Pam2Levels.C61_manual_low_fails",
    "Verif.Props.Pipeline.C61_measured_partial"
   ],
   "note": "C61_update_partial, C61_measured_partial (levels that were not measured): unless only the level of a 0 is given; C61_manual_low_fails: then zero + ua is not the level of a 1, since ua is measured from the measured 0."
  },
  {
   "property": "C62",
   "status": "partial",
   "theorems": [
    "Verif.Props.Pam2Vertical.C62_levels_partial",
    "Verif.Props.Pam2Vertical.C62_cross_fails"
   ],
   "note": "C62_levels_partial: the samples come from symbols of the right level without an edge, but C62_cross_fails: they are taken at the centre of the symbol (with level_width), not at the crossing."
  },
  {
   "property": "C63",
   "status": "partial",
   "theorems": [
    "Verif.Props.Pam2Measures.C63_levels",
    "Verif.Props.Pam2Measures.C63_vertical",
    "Verif.Props.Pam2Measures.C63_amplitude",
    "Verif.Props.Pam2Measures.C63_narrow_fails",
    "Verif.Props.Pam2Measures.C63_extinction_fails",
    "Verif.Props.Pam2Measures.C63_horizontal",
    "Verif.Props.Pam2Measures.C63_edges",
    "Verif.Props.Pam2Measures.C63_period",
    "Verif.Props.Pam2Measures.C63_jitter",
    "Verif.Props.Pam2Ratios.C63_ratios_vertical",
    "Verif.Props.Pam2Ratios.C63_ratios_horizontal",
    "Verif.Props.Pam2Ratios.C63_nan_vertical",
    "Verif.Props.Pam2Ratios.C63_nan_horizontal",
    "Verif.Props.Pam2Ratios.C63_edge_times",
    "Verif.Props.Pam2Ratios.C63_oma",
    "Verif.Props.Pam2Ratios.C63_transitions"
   ],
   "note": "C63_levels, C63_vertical, C63_horizontal, C63_edges, C63_period, C63_jitter in full; C63_amplitude (y_0 <= threshold < y_1) for level windows at least 1.01 samples wide and narrower than a symbol; C63_narrow_fails: with narrower windows, widened only for the decision, the level of a 1 can be below the threshold. C63_extinction_fails: the extinction ratio is above 1, documented as [0, 1]. C63_ratios_vertical, C63_ratios_horizontal: uncertainties; C63_oma; C63_transitions."
  },
  {
   "property": "C64",
   "status": "proved",
   "theorems": [
    "Verif.Props.CdrFft.C64_dc",
    "Verif.Props.CdrFft.C64_range",
    "Verif.Props.CdrFft.C64_cutoff",
    "Verif.Props.CdrFft.C64_monotone",
    "Verif.Props.CdrFft.C64_even",
    "Verif.Props.CdrFft.C64_order",
    "Verif.Props.CdrFft.C64_each"
   ],
   "note": "For a bandwidth not zero and natural orders; real numbers instead of floats."
  },
  {
   "property": "C65",
   "status": "proved",
   "theorems": [
    "Verif.Props.CdrFft.C65_sum",
    "Verif.Props.CdrFft.C65_short",
    "Verif.Props.CdrFft.C65_extremes",
    "Verif.Props.CdrFft.C65_errors",
    "Verif.Props.CdrFft.C65_at_edges",
    "Verif.Props.CdrTone.C65_transforms",
    "Verif.Props.CdrTone.C65_sum_of_tones",
    "Verif.Props.CdrTone.C65_tones"
   ],
   "note": "C65_tones and C65_sum_of_tones are about numpy's transforms as defined in Model/CdrFft (C65_transforms: they are inverse to each other); the other theorems hold for any transforms that are."
  },
  {
   "property": "C66",
   "status": "proved",
   "theorems": [
    "Verif.Props.Acquire.C66_stop",
    "Verif.Props.Acquire.C66_run",
    "Verif.Props.Acquire.C66_force",
    "Verif.Props.Acquire.C66_single_returns",
    "Verif.Props.Acquire.C66_single_raises",
    "Verif.Props.Acquire.C66_single_shape"
   ],
   "note": "An instrument is any function from the traffic so far to the next reply; a trigger command is any function that may send messages and may raise. Times are counted in polls of 50 ms, as in C21."
  },
  {
   "property": "C67",
   "status": "partial",
   "theorems": [
    "Verif.Props.Acquire.C67_timeout_partial",
    "Verif.Props.Acquire.C67_timeout_fails"
   ],
   "note": "C67_timeout_partial: true for timeouts up to 1 s. C67_timeout_fails: the last wait (ACQUIRE:NUMACQ?) does not pass the timeout on and uses the default of 1 s."
  },
  {
   "property": "C68",
   "status": "proved",
   "theorems": [
    "Verif.Props.StatsExp.C68_zeros",
    "Verif.Props.StatsExp.C68_positive",
    "Verif.Props.StatsExp.C68_empty",
    "Verif.Props.StatsExp.C68_density",
    "Verif.Props.StatsExp.C68_density_equal"
   ],
   "note": "Real logarithms instead of floats; samples are non-negative (the log of a negative one is nan). C68_density_equal: the density of equal non-zero samples is 0 / 0."
  },
  {
   "property": "C69",
   "status": "partial",
   "theorems": [
    "Verif.Props.Pipeline.C69_completes_partial",
    "Verif.Props.Pipeline.C69_edge_level_fails",
    "Verif.Props.Pipeline.C69_nan_clock_fails",
    "Verif.Props.Pipeline.C69_flat_fails"
   ],
   "note": "C69_completes_partial needs levels of the edges that are not just above 1.5 (C69_edge_level_fails: IndexError, see C55) and clock edges that are numbers (C69_nan_clock_fails: ValueError, see C06). The mask must be evaluable with manual levels; without a mask any levels. C69_flat_fails: with equal levels and a mask ZeroDivisionError."
  },
  {
   "property": "C70",
   "status": "partial",
   "theorems": [
    "Verif.Props.OpenEye.C70_nrzm",
    "Verif.Props.OpenEye.C70_nrzl_partial"
   ],
   "note": "NRZM is proved. NRZL (C70_nrzl_partial) is exact: a record whose decoded symbols are all ones is decoded as zeros (see C46)."
  },
  {
   "property": "C71",
   "status": "partial",
   "theorems": [
    "Verif.Props.SquareWave.C71_nrzm",
    "Verif.Props.SquareWave.C71_nrzl_partial"
   ],
   "note": "NRZM is proved. NRZL (C71_nrzl_partial) has the exception of C70. The conditions on the edges and on the nominal period are those of C48."
  },
  {
   "property": "C72",
   "status": "proved",
   "theorems": [
    "Verif.Props.Pam2Ratios.C72_percentile",
    "Verif.Props.Pam2Ratios.C72_extremes",
    "Verif.Props.Pam2Ratios.C72_vecp",
    "Verif.Props.Pam2Ratios.C72_empty"
   ],
   "note": "C72_percentile specifies numpy's median_unbiased percentile by the number of samples below and above. C72_vecp, C72_extremes, C72_empty. nan and inf are not distinguished."
  },
  {
   "property": "C73",
   "status": "partial",
   "theorems": [
    "Verif.Props.ScopeInit.C73_unknown",
    "Verif.Props.ScopeInit.C73_4000",
    "Verif.Props.ScopeInit.C73_456",
    "Verif.Props.ScopeInit.C73_456_errors",
    "Verif.Props.ScopeInit.C73_header_partial",
    "Verif.Props.ScopeInit.C73_header_fails"
   ],
   "note": "Channels, names and refusals are proved (C73_4000, C73_456, C73_unknown). Headers off: C73_header_partial; C73_header_fails: a 4/5/6 series construction that raises on the reply to DISPLAY? leaves HEADER ON. That the 4000 family takes any reply as an auxiliary input is noted in DESIGN.md."
  },
  {
   "property": "C74",
   "status": "partial",
   "theorems": [
    "Verif.Props.AutoLevels.C74_levels_partial",
    "Verif.Props.AutoLevels.C74_halves",
    "Verif.Props.AutoLevels.C74_zero_fails",
    "Verif.Props.AutoLevels.C74_constant_fails",
    "Verif.Props.AutoLevels.C74_rare_fails",
    "Verif.Props.AutoLevels.C74_aliased_fails",
    "Verif.Props.AutoLevels.C74_nrzm_partial",
    "Verif.Props.AutoLevels.C74_nrzl_partial"
   ],
   "note": "Proved if both values are represented among the samples that are evaluated (C74_levels_partial, C74_nrzm_partial, C74_nrzl_partial). The code violates the full claim: constant signals (C74_constant_fails), signals with a rare level (C74_rare_fails, which with C74_levels_partial decides all signals of two values) and periodic signals whose period divides the decimation step (C74_aliased_fails: ones and zeros in turn, 200000 samples) raise ValueError. The sklearn fit is a parameter and is not reached for two values. C74_halves specifies the levels of all other signals in terms of the fit. C74_zero_fails: levels_n_max = 0."
  },
  {
   "property": "C75",
   "status": "proved",
   "theorems": [
    "Verif.Props.Affine.C75_vertical",
    "Verif.Props.AffineMeasures.C75_hexagon",
    "Verif.Props.AffineMeasures.C75_decagon",
    "Verif.Props.AffineMeasures.C75_bits",
    "Verif.Props.AffineMeasures.C75_measures",
    "Verif.Props.AffineMeasures.C75_levels",
    "Verif.Props.AffineMeasures.C75_auto"
   ],
   "note": "C75_vertical (whole analysis, any clock recovery), C75_hexagon and C75_decagon (masks), C75_bits, C75_measures (vertical measures), C75_levels and C75_auto (measured levels, for a mixture fit and standard deviation that convert likewise; levels_n_max positive). Exact arithmetic: rounding of floats is not covered."
  },
  {
   "property": "C76",
   "status": "partial",
   "theorems": [
    "Verif.Props.TimeScale.C76_time_partial",
    "Verif.Props.TimeScale.C76_auto_partial",
    "Verif.Props.TimeScale.C76_hexagon",
    "Verif.Props.TimeScale.C76_decagon",
    "Verif.Props.TimeScale.C76_cdr_fixed",
    "Verif.Props.TimeScale.C76_cdr_shift",
    "Verif.Props.TimeScale.C76_recover_shift",
    "Verif.Props.TimeScale.C76_recover_fixed",
    "Verif.Props.TimeScale.C76_shift_fails",
    "Verif.Props.TimeScale.C76_score_fails"
   ],
   "note": "C76_time_partial and C76_auto_partial: any unit, origins that move by whole samples, any clock recovery that converts likewise, which is proved for fixed periods (C76_recover_fixed, any unit and origin) and for the search with any origin (C76_recover_shift); masks C76_hexagon, C76_decagon. Violated: an origin that moves by part of a sample changes the evaluated symbols (C76_shift_fails, see C43); the score of the period search compares a time with a count, so its order depends on the unit (C76_score_fails)."
  },
  {
   "property": "C77",
   "status": "partial",
   "theorems": [
    "Verif.Props.Draw.C77_hits",
    "Verif.Props.Draw.C77_no_hits",
    "Verif.Props.Draw.C77_red_partial",
    "Verif.Props.Draw.C77_no_mask",
    "Verif.Props.Draw.C77_mask",
    "Verif.Props.Draw.C77_grid",
    "Verif.Props.Draw.C77_clean",
    "Verif.Props.Draw.C77_hexagon",
    "Verif.Props.Draw.C77_decagon",
    "Verif.Props.Draw.C77_stack_partial",
    "Verif.Props.Draw.C77_red_fails",
    "Verif.Props.Draw.C77_stack_fails"
   ],
   "note": "C77_clean, C77_grid, C77_mask, C77_no_mask, C77_hits, C77_no_hits, C77_hexagon, C77_decagon in full (drawing functions of skimage and the colour map are parameters). Violated: layer_rgba leaves uninitialised memory in transparent pixels, which becomes nan in a visible pixel of the next layer if it holds nan or inf: C77_red_fails (two waveforms), C77_stack_fails; C77_red_partial, C77_stack_partial: finite memory (or a single waveform)."
  },
  {
   "property": "C78",
   "status": "partial",
   "theorems": [
    "Verif.Props.Order.C78_hexagon",
    "Verif.Props.Order.C78_decagon",
    "Verif.Props.Order.C78_order_partial",
    "Verif.Props.Order.C78_vertical",
    "Verif.Props.Order.C78_horizontal",
    "Verif.Props.Order.C78_auto_partial",
    "Verif.Props.Order.C78_interval_fails",
    "Verif.Props.Order.C78_decimated_fails"
   ],
   "note": "C78_order_partial, C78_hexagon, C78_decagon for waveforms with the same sampling interval; C78_vertical, C78_horizontal: measures; C78_auto_partial: automatic levels without decimation (fit and standard deviation are parameters that do not depend on the order). Violated: the sampling interval of the first waveform is used for all, C78_interval_fails; automatic levels from more than ten times the configured number of points take every k-th sample of all waveforms in a row, C78_decimated_fails."
  },
  {
   "property": "C79",
   "status": "partial",
   "theorems": [
    "Verif.Props.Report.C79_dict",
    "Verif.Props.Report.C79_names",
    "Verif.Props.Report.C79_values",
    "Verif.Props.Report.C79_images",
    "Verif.Props.Report.C79_skipped",
    "Verif.Props.Report.C79_json",
    "Verif.Props.Report.C79_pam2_json",
    "Verif.Props.Report.C79_standard_partial",
    "Verif.Props.Report.C79_standard_fails",
    "Verif.Props.Report.C79_print",
    "Verif.Props.Report.C79_print_dictionaries",
    "Verif.Props.Report.C79_print_others",
    "Verif.Props.Report.C79_pam2_print"
   ],
   "note": "C79_dict, C79_names, C79_values, C79_images, C79_skipped, C79_json, C79_pam2_json, C79_print, C79_pam2_print in full (JSON as a tree; the text of numbers and the png encoder are parameters). Violated: without a mask the margin and the number of bad symbols are nan, which save_json writes as NaN, not standard JSON: C79_standard_fails; C79_standard_partial: standard exactly if no number is nan or inf."
  },
  {
   "property": "C80",
   "status": "partial",
   "theorems": [
    "Verif.Props.Float.C80_crossing",
    "Verif.Props.Float.C80_edges",
    "Verif.Props.Float.C80_found",
    "Verif.Props.Float.C80_reported",
    "Verif.Props.Float.C80_is_hitting",
    "Verif.Props.Float.C80_hits_found",
    "Verif.Props.Float.C80_hits_reported",
    "Verif.Props.Float.C80_clear",
    "Verif.Props.Float.C80_exact",
    "Verif.Props.Float.C80_touching_fails",
    "Verif.Props.Float.C80_apart_fails"
   ],
   "note": "C80_crossing, C80_edges, C80_found, C80_reported, C80_is_hitting, C80_hits_found, C80_hits_reported, C80_clear in full for the standard model of floating point arithmetic (no overflow, no underflow), of which `double` is shown to be an instance; C80_exact: without rounding these are the functions of C05 to C09. Violated: segments that meet in an end point are reported not to meet, C80_touching_fails, and segments that do not meet are reported to do so, C80_apart_fails, both evaluated in doubles."
  },
  {
   "property": "C81",
   "status": "partial",
   "theorems": [
    "Verif.Props.FloatStats.C81_bin_linear",
    "Verif.Props.FloatStats.C81_short",
    "Verif.Props.FloatStats.C81_downsample_exact",
    "Verif.Props.FloatStats.C81_downsample_linear",
    "Verif.Props.FloatStats.C81_exact",
    "Verif.Props.FloatStats.C81_lost_fails"
   ],
   "note": "C81_bin_linear, C81_short, C81_downsample_exact, C81_downsample_linear for all `Floats` (no overflow, no underflow); `doubles` shows that IEEE doubles are an instance. C81_exact: without rounding these are the functions of C13 to C15. Violated: the scaled count may be rounded below an integer, then the bin loses one sample: of 49 equal samples reduced to one none is left, C81_lost_fails, evaluated in doubles. That it is never more than one sample (and never one too many) is part of C81_downsample_exact."
  },
  {
   "property": "C82",
   "status": "proved",
   "theorems": [
    "Verif.Props.FloatEye.C82_centre",
    "Verif.Props.FloatEye.C82_width",
    "Verif.Props.FloatEye.C82_same_centre",
    "Verif.Props.FloatEye.C82_window",
    "Verif.Props.FloatEye.C82_normalise",
    "Verif.Props.FloatEye.C82_pixels",
    "Verif.Props.FloatEye.C82_mask",
    "Verif.Props.FloatEye.C82_exact"
   ],
   "note": "C82_centre, C82_width, C82_same_centre, C82_window, C82_normalise, C82_mask, C82_pixels for the standard model of floating point arithmetic (no overflow, no underflow), C82_mask for `Floats`; `doubles` shows that IEEE doubles are an instance. C82_exact: without rounding these are the functions of C42, C43, C48."
  },
  {
   "property": "C83",
   "status": "proved",
   "theorems": [
    "Verif.Props.GaussianFit.C83_result",
    "Verif.Props.GaussianFit.C83_complete",
    "Verif.Props.GaussianFit.C83_equal",
    "Verif.Props.GaussianFit.C83_errors",
    "Verif.Props.GaussianFit.C83_unit",
    "Verif.Props.GaussianFit.C83_center_unit",
    "Verif.Props.GaussianFit.C83_levels_unit",
    "Verif.Props.GaussianFit.C83_center_range",
    "Verif.Props.GaussianFit.C83_levels",
    "Verif.Props.GaussianFit.C83_levels_equal",
    "Verif.Props.GaussianFit.C83_pdf",
    "Verif.Props.GaussianFit.C83_pdf_scale",
    "Verif.Props.GaussianFit.C83_pdf_errors"
   ],
   "note": "The optimisers are parameters; `Works`, `InRange`, `Positive` are what is assumed about sklearn where it is needed (as many components as asked for, means in the range of the samples, positive variances). C83_unit, C83_result, C83_errors, C83_pdf_* hold for any optimiser. C83_levels_unit discharges for real samples the assumption on the fit in C75_levels."
  },
  {
   "property": "C84",
   "status": "partial",
   "theorems": [
    "Verif.Props.MaskDict.C84_stored_hexagon",
    "Verif.Props.MaskDict.C84_stored_decagon",
    "Verif.Props.MaskDict.C84_rebuild_hexagon",
    "Verif.Props.MaskDict.C84_rebuild_decagon",
    "Verif.Props.MaskDict.C84_new_hexagon_partial",
    "Verif.Props.MaskDict.C84_new_decagon_partial",
    "Verif.Props.MaskDict.C84_determines_hexagon",
    "Verif.Props.MaskDict.C84_determines_decagon",
    "Verif.Props.MaskDict.C84_shapes",
    "Verif.Props.MaskDict.C84_base",
    "Verif.Props.MaskDict.C84_reference_fails",
    "Verif.Props.MaskDict.C84_units_fails"
   ],
   "note": "Proved for all converted masks (C84_rebuild_*, C84_determines_*), for any units given at the second conversion. For masks that are not converted the claim is false: neither `zero_ref` (C84_reference_fails) nor that a number is in real units (C84_units_fails) is stored. C84_new_*_partial: new masks with normalised units and the default reference. Missing: other new masks, for which it does not hold."
  },
  {
   "property": "C85",
   "status": "partial",
   "theorems": [
    "Verif.Props.Again.C85_as_new",
    "Verif.Props.Again.C85_again",
    "Verif.Props.Again.C85_handover",
    "Verif.Props.Again.C85_settings_partial",
    "Verif.Props.Again.C85_bits",
    "Verif.Props.Again.C85_asked",
    "Verif.Props.Again.C85_stuck",
    "Verif.Props.Again.C85_no_mask",
    "Verif.Props.Again.C85_skip_raises",
    "Verif.Props.Again.C85_config",
    "Verif.Props.Again.C85_config_kept",
    "Verif.Props.Again.C85_retry_fails",
    "Verif.Props.Again.C85_config_fails",
    "Verif.Props.Again.C85_settings_fails",
    "Verif.Props.Again.C85_skip_fails",
    "Verif.Props.Again.C85_bits_fails"
   ],
   "note": "C85_as_new: in every state a calculation gives what a new eye diagram gives that is given the clock edges found so far, except for skipping the measures after a mask was used. C85_again, C85_handover, C85_bits, C85_config: as claimed. The rest of the claim is false of the code: settings that change the clock are ignored (C85_settings_fails), a calculation that did not find the clock makes every later one raise (C85_stuck, C85_retry_fails), skipping measures after a mask raises (C85_skip_raises, C85_skip_fails) and otherwise leaves old bits (C85_bits_fails), and the clock recovery is stored in the configuration with the first period (C85_config_fails). C85_settings_partial says what is computed with other settings. Missing: those cases, in which the claim does not hold."
  },
  {
   "property": "C86",
   "status": "partial",
   "theorems": [
    "Verif.Props.Heatmap.C86_single_mono",
    "Verif.Props.Heatmap.C86_counts",
    "Verif.Props.Heatmap.C86_total_partial",
    "Verif.Props.Heatmap.C86_total_fails",
    "Verif.Props.Heatmap.C86_near",
    "Verif.Props.Heatmap.C86_order",
    "Verif.Props.Heatmap.C86_zero",
    "Verif.Props.Heatmap.C86_cloud_near",
    "Verif.Props.Heatmap.C86_cloud_sum",
    "Verif.Props.Heatmap.C86_cloud_order",
    "Verif.Props.Heatmap.C86_fraction"
   ],
   "note": "Exact up to 2^24 counts per cell (C86_counts, C86_total_partial); beyond that counts are lost (C86_total_fails), with a relative error of at most 2^-24 (C86_near). Zero exactly where nothing was drawn, for any counts and both modes (C86_zero); the order is kept (C86_order, C86_cloud_order, C86_single_mono). Point cloud: C86_cloud_near, C86_cloud_sum for columns of up to 2^24 points. Colours: C86_fraction."
  },
  {
   "property": "C87",
   "status": "partial",
   "theorems": [
    "Verif.Props.Png.C87_byte",
    "Verif.Props.Png.C87_order",
    "Verif.Props.Png.C87_again",
    "Verif.Props.Png.C87_range_fails",
    "Verif.Props.Png.C87_shapes",
    "Verif.Props.Png.C87_layer",
    "Verif.Props.Png.C87_opaque",
    "Verif.Props.Png.C87_transparent",
    "Verif.Props.Png.C87_near",
    "Verif.Props.Png.C87_save",
    "Verif.Props.Png.C87_stack",
    "Verif.Props.Png.C87_none",
    "Verif.Props.Png.C87_property",
    "Verif.Props.Png.C87_junk_fails"
   ],
   "note": "C87_byte, C87_order, C87_again, C87_layer, C87_opaque, C87_transparent, C87_near, C87_save, C87_stack, C87_none, C87_property in full for values from 0 to 1 and finite uninitialised memory. C87_range_fails: a value of 256/255 has no byte (the conversion is undefined). C87_junk_fails: uninitialised memory with nan makes the colours below the mask undefined where neither grid nor heat map is drawn. PIL (PNG encoding, writing) is not modelled: a file is the array of bytes."
  },
  {
   "property": "C88",
   "status": "proved",
   "theorems": [
    "Verif.Props.TekText.C88_queries",
    "Verif.Props.TekText.C88_queries_family",
    "Verif.Props.TekText.C88_channel",
    "Verif.Props.TekText.C88_label",
    "Verif.Props.TekText.C88_acquire",
    "Verif.Props.TekText.C88_sample_rate",
    "Verif.Props.TekText.C88_edge",
    "Verif.Props.TekText.C88_slope_unknown",
    "Verif.Props.TekText.C88_timeout",
    "Verif.Props.TekText.C88_pulse",
    "Verif.Props.TekText.C88_waveform"
   ],
   "note": "C88_queries, C88_queries_family, C88_channel, C88_label, C88_acquire, C88_sample_rate, C88_edge, C88_timeout, C88_pulse, C88_waveform in full; the text of a number is that of C32 (fmtE6). Messages of the constructor and of stop, run, single, force are in C66 and C73."
  },
  {
   "property": "C89",
   "status": "proved",
   "theorems": [
    "Verif.Props.TekTypes.C89_keys",
    "Verif.Props.TekTypes.C89_reply",
    "Verif.Props.TekTypes.C89_error"
   ],
   "note": "C89_keys, C89_reply, C89_error for the flat dictionary, with the full path in each command. The conversions pyFloat, pyInt, parse_polarity, parse_comparison, parse_threshold are those of the model, see C32, C33."
  },
  {
   "property": "C90",
   "status": "proved",
   "theorems": [
    "Verif.Props.FloatWait.C90_gives_up",
    "Verif.Props.FloatWait.C90_in_time",
    "Verif.Props.FloatWait.C90_late",
    "Verif.Props.FloatWait.C90_decimal_differs"
   ],
   "note": "ask_and_wait in doubles (Model/FloatWait). C90_decimal_differs shows that the count of polls is not that of the decimal numbers: with timeout 0.15 the state replied after three pauses of 0.05 comes too late."
  },
  {
   "property": "C91",
   "status": "proved",
   "theorems": [
    "Verif.Props.Together.C91_hexagon",
    "Verif.Props.Together.C91_decagon",
    "Verif.Props.Together.C91_together",
    "Verif.Props.Together.C91_bits"
   ],
   "note": "For given clock edges of one period (C91_together), masks C91_hexagon and C91_decagon, bits C91_bits. Horizontal samples are not claimed equal: they are cut at the mean crossing of all waveforms."
  },
  {
   "property": "C92",
   "status": "partial",
   "theorems": [
    "Verif.Props.Invert.C92_edges_partial",
    "Verif.Props.Invert.C92_touch_fails",
    "Verif.Props.InvertEye.C92_hexagon",
    "Verif.Props.InvertEye.C92_decagon",
    "Verif.Props.InvertEye.C92_inverted_partial",
    "Verif.Props.InvertEye.C92_bits_partial",
    "Verif.Props.InvertEye.C92_tie_fails",
    "Verif.Props.InvertEye.C92_quiet_fails"
   ],
   "note": "False as stated: a symbol whose average is exactly at the threshold is low in both (C92_tie_fails), a signal without edges has bits 0 in both (C92_quiet_fails), a signal that only touches a threshold has an edge in one of the two (C92_touch_fails). Proved with clear decisions and a clean or given clock, both levels given or none (C92_inverted_partial, C92_bits_partial); masks without conditions (C92_hexagon, C92_decagon). The image is not claimed to be mirrored."
  },
  {
   "property": "C93",
   "status": "partial",
   "theorems": [
    "Verif.Props.Hysteresis.C93_edges",
    "Verif.Props.Hysteresis.C93_noise_partial",
    "Verif.Props.Hysteresis.C93_same_partial",
    "Verif.Props.Hysteresis.C93_start_fails"
   ],
   "note": "Exact relation C93_edges. A signal that starts between the thresholds counts as low with the closer ones and as high with the wider ones: then one falling edge more is possible (C93_start_fails); otherwise as stated (C93_noise_partial, C93_same_partial)."
  },
  {
   "property": "C94",
   "status": "partial",
   "theorems": [
    "Verif.Props.Longer.C94_hexagon",
    "Verif.Props.Longer.C94_decagon",
    "Verif.Props.Longer.C94_longer",
    "Verif.Props.Longer.C94_bitsL_iff",
    "Verif.Props.Longer.C94_bitsM",
    "Verif.Props.Longer.C94_bitsL_partial",
    "Verif.Props.Longer.C94_bitsL_fails"
   ],
   "note": "C94_longer with C94_hexagon, C94_decagon; NRZ-M bits C94_bitsM. NRZ-L bits only if the short record has a transition (C94_bitsL_partial, exactly C94_bitsL_iff): a record without transitions is read as zeros even at the high level, and a longer one turns these bits into ones (C94_bitsL_fails). Horizontal samples and the bathtub curve are not claimed: they are cut at the mean crossing of all symbols or are rates."
  },
  {
   "property": "C95",
   "status": "partial",
   "theorems": [
    "Verif.Props.MaskInside.C95_hit_hexagon",
    "Verif.Props.MaskInside.C95_hit_decagon",
    "Verif.Props.MaskInside.C95_offenders",
    "Verif.Props.MaskInside.C95_margin_hexagon_partial",
    "Verif.Props.MaskInside.C95_margin_decagon_partial",
    "Verif.Props.MaskInside.C95_margin_fails"
   ],
   "note": "C95_hit_* and C95_offenders for all nested masks of either shape (area as convex hull of the corners). The claim about margins is false in general (C95_margin_fails: a rectangle has a smaller margin than a hexagon around it, because adjusting keeps the proportions of the top); proved for masks whose inner corners are not further out in proportion."
  },
  {
   "property": "C96",
   "status": "proved",
   "theorems": [
    "Verif.Props.NoisyLevels.C96_measures",
    "Verif.Props.NoisyLevels.C96_square"
   ],
   "note": "C96_measures for a regular clock (given, from a clock signal or recovered: any clockEdges result with equal distances), windows narrower than a symbol. That a level is measured at all needs a sampled symbol with it, and windows not narrower than a sample (C63_narrow_fails). C96_square for manual levels, with the model's clock recovery."
  },
  {
   "property": "C97",
   "status": "proved",
   "theorems": [
    "Verif.Props.EdgeJitter.C97_times"
   ],
   "note": "C97_times for a regular clock; the half sample is the rounding of clock edges to samples. The crossing level is the measured one (mean of the samples at the boundaries), so the hypothesis is about samples near that level; rise and fall times are not part of the claim."
  },
  {
   "property": "C98",
   "status": "partial",
   "theorems": [
    "Verif.Props.FloatCdr.C98_fits",
    "Verif.Props.FloatCdr.C98_locks",
    "Verif.Props.FloatCdr.C98_count_partial",
    "Verif.Props.FloatCdr.C98_resample",
    "Verif.Props.FloatCdr.C98_errors",
    "Verif.Props.FloatCdr.C98_exact",
    "Verif.Props.FloatCdr.C98_count_fails"
   ],
   "note": "C98_fits for every run that returns (search and fit of the period are parameters), C98_locks for a fixed period, C98_resample, C98_exact. C98_count_fails: with data edges at exact multiples of a period of 0.05 there is one clock edge too many, after the last data edge; C98_count_partial: the number is right unless the data ends within rounding of a symbol boundary. Overflow and underflow are not modelled."
  },
  {
   "property": "C99",
   "status": "partial",
   "theorems": [
    "Verif.Props.FloatDecode.C99_period",
    "Verif.Props.FloatDecode.C99_directions",
    "Verif.Props.FloatDecode.C99_nrzm",
    "Verif.Props.FloatDecode.C99_nrzl_partial",
    "Verif.Props.FloatDecode.C99_sampling",
    "Verif.Props.FloatDecode.C99_exact",
    "Verif.Props.FloatPam2.C99_vertical",
    "Verif.Props.FloatPam2.C99_compiled"
   ],
   "note": "C99_directions and C99_nrzm for all steps together; C99_nrzl_partial: as NRZL a record with only ones is decoded as zeros (C46_constant_fails). C99_vertical and C99_compiled for the decisions of the python and the compiled code, C99_period, C99_sampling, C99_exact. The thresholds are given, the clock recovery has a fixed period; overflow and underflow are not modelled."
  },
  {
   "property": "C100",
   "status": "proved",
   "theorems": [
    "Verif.Props.AutoscaleReal.C100_converges",
    "Verif.Props.AutoscaleReal.C100_exact"
   ],
   "note": "C100_converges for every instrument that fulfils Steady (nothing is assumed about pictures that leave the screen), C100_exact. Position limits of the instrument, overflow and underflow are not modelled."
  },
  {
   "property": "C101",
   "status": "partial",
   "theorems": [
    "Verif.Props.FloatWave.C101_query",
    "Verif.Props.FloatWave.C101_noise_partial",
    "Verif.Props.FloatWave.C101_noise_fails",
    "Verif.Props.FloatWave.C101_file",
    "Verif.Props.FloatWave.C101_exact"
   ],
   "note": "C101_query for replies, C101_file for files (under the provisos of C37), C101_exact. The noise is only partly as claimed: C101_noise_partial for random numbers up to 1 - 2^-36, C101_noise_fails: the largest double below 1 moves a sample by exactly half the bit, the code below the upper limit is then reported as clipped and the lower limit as not clipped. Overflow and underflow are not modelled."
  },
  {
   "property": "C102",
   "status": "proved",
   "theorems": [
    "Verif.Props.Keyed.C102_edges",
    "Verif.Props.Keyed.C102_bits"
   ],
   "note": "C102_edges for the edges (exact arithmetic), C102_bits for all steps together in rounded arithmetic. The thresholds are given, the clock recovery has a fixed period; overflow and underflow are not modelled. The hypothesis on the first sample (past a threshold) excludes C06_first_edge_fails."
  },
  {
   "property": "C103",
   "status": "proved",
   "theorems": [
    "Verif.Props.Keyed.C103_read",
    "Verif.Props.Keyed.C103_reply",
    "Verif.Props.Keyed.C103_file"
   ],
   "note": "C103_reply and C103_file, by way of C103_read for what was read however it was. Without noise; the thresholds are given, the clock recovery has a fixed period; overflow and underflow are not modelled."
  },
  {
   "property": "C104",
   "status": "partial",
   "theorems": [
    "Verif.Props.FloatFormat.C104_prefix",
    "Verif.Props.FloatFormat.C104_range",
    "Verif.Props.FloatFormat.C104_time",
    "Verif.Props.FloatFormat.C104_hundredths",
    "Verif.Props.FloatFormat.C104_negative_partial",
    "Verif.Props.FloatFormat.C104_negative_fails",
    "Verif.Props.FloatFormat.C104_elapsed",
    "Verif.Props.FloatFormat.C104_clock",
    "Verif.Props.FloatFormat.C104_dates"
   ],
   "note": "C104_prefix for every rounding and threshold, C104_range for doubles with the default threshold, C104_time, C104_hundredths, C104_elapsed, C104_clock, C104_dates. C104_negative_fails: time_str(-1e-17, sub=False) is -1:59:60, since divmod rounds the remainder up to 60; C104_negative_partial: otherwise whole seconds are right for negative durations, too. Overflow and underflow are not modelled; the digits printed are the correctly rounded ones of the float."
  },
  {
   "property": "C105",
   "status": "proved",
   "theorems": [
    "Verif.Props.FloatUncertain.C105_add_sub",
    "Verif.Props.FloatUncertain.C105_mul_div",
    "Verif.Props.FloatUncertain.C105_scale",
    "Verif.Props.FloatUncertain.C105_samples"
   ],
   "note": "C105_add_sub, C105_mul_div, C105_scale, C105_samples. np.sqrt is any function with a relative error of at most one rounding (rootD is one for doubles); the square is the rounded exact one. The logarithms are not covered; overflow and underflow are not modelled."
  },
  {
   "property": "C106",
   "status": "proved",
   "theorems": [
    "Verif.Props.FloatClock.C106_bounded",
    "Verif.Props.FloatClock.C106_ordered",
    "Verif.Props.FloatClock.C106_recovered"
   ],
   "note": "C106_bounded, C106_ordered, C106_recovered. The sine is any function within -1 and 1; the gaussian draws are bounded by B, which is 0 without random jitter. Overflow and underflow are not modelled."
  },
  {
   "property": "C107",
   "status": "proved",
   "theorems": [
    "Verif.Props.FloatRecover.C107_recovers",
    "Verif.Props.FloatSearchExact.C107_exact"
   ],
   "note": "C107_recovers for the search that ends in its first round (up to about a thousand edges with 4.9 symbols each, more with denser edges), C107_exact: in exact arithmetic the functions are those of C48-C50, for all rounds. The mean and the dot product of numpy are any additions in any order; the C compiler is assumed not to contract `a - b * c`. The unit of time matters as in C50: a symbol is at most 1.5 units per edge. Overflow and underflow are not modelled."
  },
  {
   "property": "C108",
   "status": "partial",
   "theorems": [
    "Verif.Props.FloatBits.C108_directions",
    "Verif.Props.FloatBits.C108_no_period",
    "Verif.Props.FloatBits.C108_nrzm",
    "Verif.Props.FloatBits.C108_nrzl_partial"
   ],
   "note": "C108_directions and C108_nrzm for all steps from the samples on; C108_nrzl_partial: as NRZL a record with only ones is decoded as zeros (C46_constant_fails). The same conditions on the edges as in C107 (search that ends in its first round, unit of time). The thresholds are given; overflow and underflow are not modelled."
  },
  {
   "property": "C109",
   "status": "partial",
   "theorems": [
    "Verif.Props.FloatBathtub.C109_hits",
    "Verif.Props.FloatBathtub.C109_curve",
    "Verif.Props.FloatBathtub.C109_bathtub",
    "Verif.Props.FloatBathtub.C109_exact",
    "Verif.Props.FloatBathtub.C109_order_fails"
   ],
   "note": "C109_hits, C109_curve, C109_bathtub, C109_exact; C109_order_fails: a line that crosses the level within rounding of the start of the unit interval gives a hit before 0 (-2^-55), so the first two times are not in order. C109_hits bounds how far before 0 or after 1 a hit can be, and C109_curve has the times in order if all hits are in [0, 1]. Overflow and underflow are not modelled."
  },
  {
   "property": "C110",
   "status": "proved",
   "theorems": [
    "Verif.Props.FloatMeasures.C110_levels",
    "Verif.Props.FloatMeasures.C110_ratios",
    "Verif.Props.FloatMeasures.C110_nan",
    "Verif.Props.FloatMeasures.C110_deviations",
    "Verif.Props.FloatMeasures.C110_measures",
    "Verif.Props.FloatMeasures.C110_received"
   ],
   "note": "C110_received (from the samples on, with the clock recovery of C108), C110_measures and C110_levels (from the samples of the levels), C110_ratios and C110_deviations (from the reported levels), C110_nan. The closure penalty (a logarithm of percentiles) is not in the rounded model, see C63 and C96; nor are overflow and underflow."
  },
  {
   "property": "C111",
   "status": "proved",
   "theorems": [
    "Verif.Props.FloatHorizontal.C111_total",
    "Verif.Props.FloatHorizontal.C111_crossings",
    "Verif.Props.FloatHorizontal.C111_edges",
    "Verif.Props.FloatHorizontal.C111_compiled",
    "Verif.Props.FloatHorizontal.C111_exact",
    "Verif.Props.FloatHorizontal.C111_measures",
    "Verif.Props.FloatHorizontal.C111_times",
    "Verif.Props.FloatHorizontal.C111_steep",
    "Verif.Props.FloatHorizontal.C111_received"
   ],
   "note": "C111_total, C111_crossings, C111_edges and C111_compiled (which times are collected), C111_measures (what is reported of them), C111_times, C111_steep and C111_received (for steep edges), C111_exact (without rounding these are the samples of C45). Overflow and underflow are not in the rounded model."
  },
  {
   "property": "C112",
   "status": "proved",
   "theorems": [
    "Verif.Props.FloatMask.C112_convert_hexagon",
    "Verif.Props.FloatMask.C112_convert_decagon",
    "Verif.Props.FloatMask.C112_adjust_hexagon",
    "Verif.Props.FloatMask.C112_adjust_decagon",
    "Verif.Props.FloatMaskTest.C112_mask_hexagon",
    "Verif.Props.FloatMaskTest.C112_mask_decagon",
    "Verif.Props.FloatMaskTest.C112_ends_hexagon",
    "Verif.Props.FloatMaskTest.C112_ends_decagon",
    "Verif.Props.FloatMaskTest.C112_exact"
   ],
   "note": "C112_convert_*, C112_adjust_* (conversion and adjustment), C112_ends_* (margins 0, 1 and -1 without rounding error), C112_mask_* (the mask test over all waveforms), C112_exact (without rounding these are the functions of C39-C42). The symbols are the rounded windows, which C82 relates to the exact ones. Overflow and underflow are not in the rounded model."
  },
  {
   "property": "C113",
   "status": "proved",
   "theorems": [
    "Verif.Props.ReadSearch.C113_read",
    "Verif.Props.ReadSearch.C113_reply",
    "Verif.Props.ReadSearch.C113_file"
   ],
   "note": "C113_reply and C113_file, by way of C113_read for what was read however it was; C108 supplies the decoding, C101 the reading. Without noise; the thresholds are given; the period is at most 4.5 units of time (see C107); overflow and underflow are not modelled."
  },
  {
   "property": "C114",
   "status": "partial",
   "theorems": [
    "Verif.Props.FloatLine2D.C114_orientation",
    "Verif.Props.FloatLine2D.C114_intersecting_partial",
    "Verif.Props.FloatLine2D.C114_intersection",
    "Verif.Props.FloatLine2D.C114_none",
    "Verif.Props.FloatLine2D.C114_parallel_partial",
    "Verif.Props.FloatLine2D.C114_parallel_fails",
    "Verif.Props.FloatLine2D.C114_touching_fails"
   ],
   "note": "C114_orientation, C114_intersection and C114_none for all inputs within their bounds; C114_intersecting_partial where rounding does not blur the turns (Clear); C114_parallel_partial where the differences of the coordinates are floats. The full claims are false: C114_touching_fails (two segments that share a point, one end near the origin, are reported not to meet) and C114_parallel_fails (parallel lines with a far away intersection). Overflow and underflow are not in the rounded model."
  },
  {
   "property": "C115",
   "status": "proved",
   "theorems": [
    "Verif.Props.FloatInterpolation.C115_accuracy",
    "Verif.Props.FloatInterpolation.C115_samples",
    "Verif.Props.FloatInterpolation.C115_grid",
    "Verif.Props.FloatInterpolation.C115_shape"
   ],
   "note": "C115_accuracy (any requested times), C115_samples (the sample times), C115_grid (rounding the grid to floats gives eta = u times the largest time), C115_shape (errors). np.sinc is modelled as in numpy, with 1e-20 in place of 0; its pi and sine are parameters with stated errors. Overflow and underflow are not in the rounded model."
  },
  {
   "property": "C116",
   "status": "proved",
   "theorems": [
    "Verif.Props.FloatGaussian.C116_accuracy",
    "Verif.Props.FloatGaussian.C116_nonneg",
    "Verif.Props.FloatGaussian.C116_peak",
    "Verif.Props.FloatGaussian.C116_symmetric",
    "Verif.Props.FloatGaussian.C116_mix",
    "Verif.Props.FloatGaussian.C116_center",
    "Verif.Props.FloatGaussian.C116_single"
   ],
   "note": "C116_accuracy, C116_nonneg, C116_peak, C116_symmetric (one component), C116_mix (a mixture), C116_center, C116_single (the centre). np.pi, **2, np.exp and np.sqrt are parameters with stated errors, the example shows that doubles have such functions. A deviation of 0 involves no arithmetic and is in C57. Overflow and underflow are not in the rounded model."
  },
  {
   "property": "C117",
   "status": "partial",
   "theorems": [
    "Verif.Props.FloatGaussianPeak.C117_doubles_partial",
    "Verif.Props.GaussianPeak.C117_peak_partial",
    "Verif.Props.GaussianPeak.C117_peak_fails"
   ],
   "note": "C117_peak_partial (exact numbers) and C117_doubles_partial (doubles) bound by how much the mixture can be higher elsewhere, for every position; C117_peak_fails: a mixture of three narrow components is 50 times as high elsewhere as at the returned centre, because the highest one lies between two grid points. Missing from the property as documented: the centre is where the peak occurs."
  },
  {
   "property": "C118",
   "status": "proved",
   "theorems": [
    "Verif.Props.FloatVecp.C118_log",
    "Verif.Props.FloatVecp.C118_log10",
    "Verif.Props.FloatVecp.C118_percentile",
    "Verif.Props.FloatVecp.C118_position",
    "Verif.Props.FloatVecp.C118_extremes",
    "Verif.Props.FloatVecp.C118_vecp",
    "Verif.Props.FloatVecp.C118_order",
    "Verif.Props.FloatVecp.C118_clean",
    "Verif.Props.FloatVecp.C118_open",
    "Verif.Props.FloatVecpMeasures.C118_measures",
    "Verif.Props.FloatVecpMeasures.C118_received"
   ],
   "note": "C118_log, C118_log10 (the logarithms), C118_percentile, C118_position, C118_extremes (the percentiles), C118_vecp (the penalty), C118_order (it does not depend on the order of the samples), C118_clean (samples near two levels), C118_open (almost 0 dB for an open eye), C118_measures (the penalty of the measured samples), C118_received (from received records with the default clock recovery on, under the conditions of C110). numpy's logarithms are parameters with an error of at most two units of rounding; the example shows that doubles have such functions. nan and inf are not told apart: a distance of 0 of the percentiles gives inf in the code."
  },
  {
   "property": "C119",
   "status": "proved",
   "theorems": [
    "Verif.Props.FloatPercentile.C119_percentile",
    "Verif.Props.FloatPercentile.C119_penalty"
   ],
   "note": "C119_percentile compares the percentiles with those of the exact model (Pam2Measures), C119_penalty the penalty and its deviation for the same optical modulation amplitude. numpy's logarithms are parameters with an error of at most two units of rounding (C118)."
  },
  {
   "property": "C120",
   "status": "proved",
   "theorems": [
    "Verif.Props.ClosureMonotone.C120_percentile",
    "Verif.Props.ClosureMonotone.C120_penalty"
   ],
   "note": "C120_percentile for every fraction, C120_penalty for the penalty; exact arithmetic (C119 bounds the difference to doubles)."
  }
 ]
}