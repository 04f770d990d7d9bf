{"id": "C01", "title": "Drawing a segment terminates and is end-exclusive", "statement": "lines.draw rasterises each segment in a finite number of steps: starting at the first point it makes exactly max(|dx|,|dy|) steps, arrives exactly at the second point and increments one cell per step excluding the second point. A zero-length segment draws nothing.", "quantifier": "all integer end points, including steep, shallow, vertical, horizontal, reversed and far off-grid segments", "why_tests_cant": "the loop is `while True` and only stops on exact equality with the end point; a sampled set of slopes cannot rule out a slope that steps past it and never stops", "anchors": ["hardware_tools/math/_lines_fb.py:_draw_segment", "hardware_tools/math/_lines.pyx:_draw_segment_c"]}
{"id": "C02", "title": "Rasterised cells follow the ideal line", "statement": "Every cell visited while drawing a segment is within half a cell (measured along the minor axis) of the ideal straight line, consecutive cells are 8-neighbours, and the major axis advances by exactly one each step.", "quantifier": "all integer end points and every step of the rasterisation", "why_tests_cant": "the error accumulator's drift bound has to hold at every step of arbitrarily long lines", "anchors": ["hardware_tools/math/_lines_fb.py:_draw_segment"]}
{"id": "C03", "title": "Stacking waveforms on a heat map is additive, order independent and stays in the grid", "statement": "Drawing polylines onto a grid only adds to cells inside the grid; cell counts never decrease; the result of drawing a list of polylines is the initial grid plus the sum of each polyline's own contribution, hence independent of the order; a polyline completely inside the grid adds exactly sum(max(|dx|,|dy|))+1 counts. Points outside the grid are dropped, never wrapped. A polyline with fewer than two points is an error (UnboundLocalError), not a silent no-op.", "quantifier": "all grids (any shape), all lists of polylines with any integer coordinates, all permutations", "why_tests_cant": "negative indexes silently wrap in numpy; order independence quantifies over permutations", "anchors": ["hardware_tools/math/_lines_fb.py:draw", "hardware_tools/math/_lines.pyx:draw_c"]}
{"id": "C04", "title": "Point cloud counts", "statement": "lines.draw_points adds to each in-range cell exactly the number of listed points with these coordinates and changes nothing else.", "quantifier": "all grids and all point lists", "why_tests_cant": "unbounded point lists and positions", "anchors": ["hardware_tools/math/_lines_fb.py:draw_points", "hardware_tools/math/_lines.pyx:draw_points_c"]}
{"id": "C05", "title": "Threshold crossing search", "statement": "lines.crossing starting at index i returns the nearest index (backwards, or forwards with step_forward) at which the searched axis changes side of the value, together with the linearly interpolated return value, which satisfies the line equation and lies between the two bracketing return-axis samples; it returns nan exactly when there is no such index in the searched range, and it always terminates and never indexes outside the data.", "quantifier": "all data, all start indexes (also out of range), all values, both directions", "why_tests_cant": "must hold for every waveform shape including equal-to-threshold samples", "anchors": ["hardware_tools/math/_lines_fb.py:crossing", "hardware_tools/math/_lines.pyx:crossing_c"]}
{"id": "C06", "title": "Every reported edge is a real half-level crossing", "statement": "lines.edges / edges_np report only finite times; each is a time at which the linearly interpolated waveform equals y_half, located not after the sample that confirmed the edge. Thresholds satisfy y_fall <= y_half <= y_rise.", "quantifier": "all waveforms with increasing time and all ordered thresholds", "why_tests_cant": "depends on the full history since the last edge; corner case of a waveform that starts between the thresholds", "anchors": ["hardware_tools/math/_lines_fb.py:edges", "hardware_tools/math/_lines_fb.py:edges_np", "hardware_tools/math/_lines.pyx:edges_np_c"]}
{"id": "C07", "title": "Edges alternate with hysteresis and are ordered in time", "statement": "The rising and falling edges returned are those of a Schmitt trigger: they alternate strictly in time, their counts differ by at most one, both lists are sorted, and a waveform that stays within [y_fall, y_rise] produces no edges however noisy it is.", "quantifier": "all waveforms, all ordered thresholds", "why_tests_cant": "history dependent state machine over unbounded inputs", "anchors": ["hardware_tools/math/_lines_fb.py:edges", "hardware_tools/math/_lines_fb.py:edges_np"]}
{"id": "C08", "title": "Segment intersection is sound and complete", "statement": "lines.intersection returns a point exactly when the two lines (segments) are not parallel and share a point, and the returned point is the shared point; it is symmetric under reversing either segment and under swapping the two segments.", "quantifier": "all coordinates, both the segments and the infinite-line mode", "why_tests_cant": "continuous input domain with boundary cases (end point touching)", "anchors": ["hardware_tools/math/_lines_fb.py:intersection", "hardware_tools/math/_lines.pyx:intersection_c"]}
{"id": "C09", "title": "Bounding box filter loses no mask hits; is_hitting agrees with hits", "statement": "lines.hits returns exactly the intersections of every waveform segment with every path segment (path by path, segment by segment), i.e. the bounding box pre-filter never drops one; is_hitting is True exactly when hits is non-empty. An empty path is an error.", "quantifier": "all waveforms with non-decreasing time, all lists of non-empty paths", "why_tests_cant": "filter soundness over all relative placements; both branches of the rising/falling test", "anchors": ["hardware_tools/math/_lines_fb.py:hits", "hardware_tools/math/_lines_fb.py:is_hitting", "hardware_tools/math/_lines.pyx:hits_c", "hardware_tools/math/_lines.pyx:is_hitting_c"]}
{"id": "C10", "title": "Line2D.intersection lies on both lines; Point2D.in_rect is order independent", "statement": "Line2D.intersection returns None exactly when the lines are parallel (or degenerate), otherwise the unique common point; Point2D.in_rect is symmetric in its corners.", "quantifier": "all points", "why_tests_cant": "continuous domain", "anchors": ["hardware_tools/math/lines.py:Line2D.intersection_points", "hardware_tools/math/lines.py:Point2D.in_rect"]}
{"id": "C11", "title": "Line2D.intersecting decides segment intersection", "statement": "Line2D.intersecting is True exactly when the closed segments share a point, for points away from the origin (orientation divides by the product of the norms).", "quantifier": "all segment pairs", "why_tests_cant": "continuous domain with collinear/touching boundary cases", "anchors": ["hardware_tools/math/lines.py:Line2D.intersecting_points", "hardware_tools/math/lines.py:Point2D.orientation"]}
{"id": "C12", "title": "Compiled and pure-Python helpers agree", "statement": "The Cython and fallback implementations return the same results for crossing, edges, hits, is_hitting, sample_vertical, sample_mask and detrend_ties, so that results do not depend on whether the extension was built. (sample_horizontal is checked too.)", "quantifier": "all inputs", "why_tests_cant": "two implementations compared over all inputs; either one only is exercised on a given installation", "anchors": ["hardware_tools/math/_lines.pyx", "hardware_tools/math/_lines_fb.py", "hardware_tools/measurement/eyediagram/_pam2.pyx", "hardware_tools/measurement/eyediagram/_pam2_fb.py", "hardware_tools/measurement/eyediagram/_cdr.pyx", "hardware_tools/measurement/eyediagram/_cdr_fb.py"]}
{"id": "C13", "title": "Exact binning is a faithful multiset summary", "statement": "stats.bin_exact returns strictly increasing bins, positive counts, one bin per distinct sample, each count equal to the number of occurrences; counts sum to the number of samples; the result does not depend on sample order.", "quantifier": "all sample lists and permutations", "why_tests_cant": "permutation and size quantifiers", "anchors": ["hardware_tools/math/stats.py:bin_exact", "hardware_tools/math/stats.py:bin_exact_np"]}
{"id": "C14", "title": "Linear binning keeps every sample", "statement": "stats.bin_linear returns bin_count counts and bin_count+1 strictly increasing edges that cover all samples; each sample is counted in exactly one bin, so counts sum to the number of samples, also when all samples are equal or zero.", "quantifier": "all non-empty sample lists, all bin_count >= 1", "why_tests_cant": "boundary samples on the last edge and degenerate spans", "anchors": ["hardware_tools/math/stats.py:bin_linear"]}
{"id": "C15", "title": "Downsampling respects its cap and never invents frequency", "statement": "stats.downsample returns the input unchanged when it has at most n_max samples, otherwise at most n_max samples, sorted by bin, each bin represented floor(count*scale) times; with exact binning every returned value is an input value and never more frequent than in the input.", "quantifier": "all sample lists and all n_max >= 0", "why_tests_cant": "rounding over every combination of counts", "anchors": ["hardware_tools/math/stats.py:downsample"]}
{"id": "C16", "title": "Uncertain value propagation", "statement": "UncertainValue addition, subtraction, multiplication and division propagate independent errors: the standard deviation is never negative, adding or subtracting never reduces it, variances add, relative variances add under multiplication and division, scaling by a constant scales it by the absolute value, and comparisons order by value only. samples() gives mean within [min,max], zero deviation iff all samples are equal, and nan for no samples.", "quantifier": "all finite values and non-negative deviations, all sample arrays", "why_tests_cant": "algebraic laws over reals", "anchors": ["hardware_tools/math/stats.py:UncertainValue"]}
{"id": "C17", "title": "Metric prefix selection", "statement": "strformat.metric_prefix shows value/f with the first prefix (largest first) whose magnitude times threshold is reached; the printed scaled number times the prefix magnitude is the value; the scaled magnitude is >= threshold whenever a prefix matched, and below threshold*1000 for all values under 2e15 with the default table; values below every prefix use the last prefix with the small specifier; inf and nan never get a prefix.", "quantifier": "all values, all thresholds, all prefix tables", "why_tests_cant": "continuous domain and arbitrary tables", "anchors": ["hardware_tools/strformat.py:metric_prefix"]}
{"id": "C18", "title": "Elapsed time formatting", "statement": "strformat.time_str splits a duration into hours, minutes and seconds so that 3600*h+60*m+s equals the duration, 0<=m<60 and the printed seconds are below 60.", "quantifier": "all non-negative durations, all flag combinations", "why_tests_cant": "rounding happens on an uncountable set of inputs", "anchors": ["hardware_tools/strformat.py:time_str"]}
{"id": "C19", "title": "Alpha compositing laws", "statement": "image.layer_rgba: alpha stays in [0,1] and never decreases; an opaque pixel above hides the one below; a fully transparent pixel above leaves the (visible) pixel below unchanged; colours are convex combinations; layering is associative on visible pixels; mismatched or non-RGBA shapes raise ValueError.", "quantifier": "all images with channels in [0,1]", "why_tests_cant": "algebraic laws over continuous pixel values", "anchors": ["hardware_tools/math/image.py:layer_rgba"]}
{"id": "C20", "title": "Sinc interpolation reproduces the samples", "statement": "interpolation.sinc evaluated at the sample positions returns the sample values exactly when they are regularly spaced; it is linear in the samples; malformed inputs raise ValueError.", "quantifier": "all regularly spaced sample sets with at least two points", "why_tests_cant": "all lengths and periods", "anchors": ["hardware_tools/math/interpolation.py:sinc"]}
{"id": "C21", "title": "ask_and_wait is bounded and only returns a desired state", "statement": "ask_and_wait polls at most floor(timeout/0.05)+2 times, sends the additional command exactly once before each poll, sleeps exactly once between polls, returns a reply only if it is one of the desired states, and raises TimeoutError otherwise; if one of the polls made within the timeout replies a desired state that reply is returned.", "quantifier": "all reply sequences of the instrument, all timeouts", "why_tests_cant": "every schedule of instrument replies", "anchors": ["hardware_tools/equipment/equipment.py:Equipment.ask_and_wait"]}
{"id": "C22", "title": "Connections are released", "statement": "After close() (explicit, context-manager exit normal or by exception, or repeated) the underlying VISA resource has been closed exactly once and further closes are no-ops; a failed construction leaves no open resource behind.", "quantifier": "all histories of enter/exit/close/exception", "why_tests_cant": "all operation histories including failures", "anchors": ["hardware_tools/equipment/equipment.py:Equipment", "hardware_tools/equipment/utility.py:connect"]}
{"id": "C23", "title": "Driver dispatch", "statement": "utility.connect always closes its probe session before returning or raising, returns the driver registered first among those whose pattern matches the identity, raises LookupError when none matches and NotImplementedError for non message based resources; install_driver rejects non Equipment classes, replacing a pattern keeps its priority; a driver selected by the built-in table accepts the instrument.", "quantifier": "all identities, all histories of install_driver calls", "why_tests_cant": "registration histories and arbitrary identities", "anchors": ["hardware_tools/equipment/utility.py:connect", "hardware_tools/equipment/utility.py:install_driver"]}
{"id": "C24", "title": "SCPI stream round trip", "statement": "parse_scpi recovers every leaf of a settings tree rendered as a SCPI header stream: flat mode returns exactly the full path of each leaf with its value, nested mode returns the nested dictionary, values containing ';' inside double quotes are kept whole.", "quantifier": "all lists of absolute commands with arbitrary keys and values", "why_tests_cant": "arbitrary strings and quoting", "anchors": ["hardware_tools/equipment/utility.py:parse_scpi"]}
{"id": "C25", "title": "SCPI relative headers accumulate", "statement": "In parse_scpi a command without leading ':' is interpreted relative to the path of the previous command including that command's own parents, a leading ':' resets to the root; a command without a value raises ValueError; known keys are expanded to their long upper-case form and nothing else.", "quantifier": "all command sequences", "why_tests_cant": "history dependent path state", "anchors": ["hardware_tools/equipment/utility.py:parse_scpi"]}
{"id": "C26", "title": "Autoscale is bounded and restores the record length", "statement": "autoscale performs at most 10 acquisitions, restores time_points on every normal or timeout exit, returns only when the last acquisition needed no change, and raises TimeoutError only when ten attempts did not settle.", "quantifier": "all acquisition result sequences", "why_tests_cant": "every sequence of measurements", "anchors": ["hardware_tools/equipment/scope.py:AnalogChannel.autoscale"]}
{"id": "C27", "title": "Autoscale re-centres and converges on a steady signal", "statement": "Each adjustment made by autoscale, applied to an unchanged signal on a linear screen, puts its mid level at mid screen; for an unclipped steady signal the span becomes 80% of the screen and the next attempt succeeds.", "quantifier": "all signals, scales and positions", "why_tests_cant": "continuous domain", "anchors": ["hardware_tools/equipment/scope.py:AnalogChannel.autoscale"]}
{"id": "C28", "title": "Trigger settings read back", "statement": "Setting a supported trigger on a scope and reading the property back gives an equivalent trigger (type, source, level, slope, coupling, width, comparison, polarity, holdoff), numbers up to the 7 significant digits sent.", "quantifier": "all triggers with an available source", "why_tests_cant": "product of trigger kinds, sources and comparisons", "anchors": ["hardware_tools/equipment/tektronix/family_mso4000.py:MSO4000Family.trigger", "hardware_tools/equipment/tektronix/family_mso456.py:MSO456Family.trigger"]}
{"id": "C29", "title": "A rejected trigger does not change the scope", "statement": "Assigning a trigger whose source is not available or whose type is unknown raises ValueError and leaves the instrument's configuration unchanged.", "quantifier": "all invalid triggers and instrument states", "why_tests_cant": "all instrument states", "anchors": ["hardware_tools/equipment/tektronix/family_mso4000.py:MSO4000Family.trigger", "hardware_tools/equipment/tektronix/family_mso456.py:MSO456Family.trigger"]}
{"id": "C30", "title": "Sample mode settings read back", "statement": "sample_mode set then read returns the same mode for all modes; unknown values raise ValueError without sending anything; sample_mode_n reads back the value written in averaging modes and 1 otherwise.", "quantifier": "all modes, all counts, all prior states", "why_tests_cant": "state histories", "anchors": ["hardware_tools/equipment/tektronix/family_mso4000.py:MSO4000Family.sample_mode", "hardware_tools/equipment/tektronix/family_mso456.py:MSO456Family.sample_mode"]}
{"id": "C31", "title": "Channel labels are sanitised", "statement": "Setting a label sends at most 30 characters, all ASCII, being the ASCII characters of the given label in order; reading it back returns it when it contains no quotes at its ends; the operation is idempotent.", "quantifier": "all unicode strings", "why_tests_cant": "unbounded strings", "anchors": ["hardware_tools/equipment/tektronix/family_mso4000.py:_MSO4000Channel.label", "hardware_tools/equipment/tektronix/family_mso456.py:_MSO456Channel.label"]}
{"id": "C32", "title": "Numeric settings keep seven significant digits", "statement": "A number sent to the instrument with six decimals in scientific notation and read back differs by at most half a unit of the seventh significant digit (relative error at most 5e-7), keeps its sign and zero, and re-sending the read value changes nothing; no number with seven significant digits is closer to the one sent, and halfway between two the one with the even last digit is used.", "quantifier": "all finite numbers", "why_tests_cant": "continuous domain, rounding carry 9.9999999 -> 10", "anchors": ["hardware_tools/equipment/tektronix/family_mso4000.py:_MSO4000AnalogChannel.scale", "hardware_tools/equipment/tektronix/family_mso456.py:_MSO456AnalogChannel.scale"]}
{"id": "C33", "title": "Boolean channel settings read back", "statement": "active, dc_coupling and inverted, set to a boolean and read back, return the same boolean, independent of other channels' settings.", "quantifier": "all channels, booleans and histories of settings", "why_tests_cant": "histories of writes to several channels", "anchors": ["hardware_tools/equipment/tektronix/family_mso4000.py:_MSO4000AnalogChannel.inverted", "hardware_tools/equipment/tektronix/family_mso4000.py:_MSO4000Channel.active", "hardware_tools/equipment/tektronix/family_mso456.py:_MSO456AnalogChannel.inverted"]}
{"id": "C34", "title": "Enumeration parsing recognises every documented reply", "statement": "parse_comparison, parse_sample_mode, parse_polarity and parse_threshold map every long form and every SCPI abbreviation in their tables to the documented value, and return (or convert) anything else untouched.", "quantifier": "all reply strings", "why_tests_cant": "all strings", "anchors": ["hardware_tools/equipment/tektronix/common.py:parse_comparison", "hardware_tools/equipment/tektronix/common.py:parse_polarity", "hardware_tools/equipment/tektronix/common.py:parse_sample_mode", "hardware_tools/equipment/tektronix/common.py:parse_threshold"]}
{"id": "C35", "title": "Waveform transfer decodes the acquired samples", "statement": "parse_waveform_query of a well formed reply returns exactly the transmitted ADC codes (any supported width, byte order and signedness), time axis x_zero + k*x_incr, converted y = (code - y_off)*y_mult + y_zero, clipping flags true iff a code reaches the limit; a reply without exactly one curve marker is rejected.", "quantifier": "all sample sequences, widths, byte orders and header values", "why_tests_cant": "all payload bytes, including those that look like markers", "anchors": ["hardware_tools/equipment/tektronix/common.py:parse_waveform_query"]}
{"id": "C36", "title": "Waveform file validation rejects corruption", "statement": "parse_wfm_file rejects with ValueError files that are too short, have the wrong start marker, version, dimension, format or width, and every file in which a single covered byte was altered (additive checksum).", "quantifier": "all byte strings and all single byte corruptions", "why_tests_cant": "all files", "anchors": ["hardware_tools/equipment/tektronix/common.py:parse_wfm_file"]}
{"id": "C37", "title": "Waveform file time axis and trimming", "statement": "parse_wfm_file returns the n_samples samples between the pre- and postcharge sections, sample k being at time (k + tt_offset)*scale + offset; include_prepost adds the pre/postcharge samples at negative/later times; fast frames are split in order.", "quantifier": "all section lengths, frame counts and scales", "why_tests_cant": "all layouts", "anchors": ["hardware_tools/equipment/tektronix/common.py:parse_wfm_file"]}
{"id": "C38", "title": "Dithering noise stays within half an LSB and preserves clipping", "statement": "add_noise changes each sample by at most half of the true LSB (largest power of two dividing all codes), keeps clipped codes clipped and never moves an unclipped code beyond the limits.", "quantifier": "all code sequences and all noise draws within the range", "why_tests_cant": "all random draws", "anchors": ["hardware_tools/equipment/tektronix/common.py:parse_waveform_query", "hardware_tools/equipment/tektronix/common.py:parse_wfm_file"]}
{"id": "C39", "title": "Masks must be converted before use and conversion normalises units", "statement": "Mask.paths raises ValueError until convert_mixed_units was called; conversion divides real-unit parameters by UA/UI, leaves normalised ones, yields the shape documented for zero_ref True/False; adjust keeps the converted state; converting an already converted mask changes nothing.", "quantifier": "all mask parameters and mixtures of units, all call histories", "why_tests_cant": "mixtures of units and call orders", "anchors": ["hardware_tools/measurement/mask.py:Mask", "hardware_tools/measurement/mask.py:MaskHexagon", "hardware_tools/measurement/mask.py:MaskDecagon"]}
{"id": "C40", "title": "Mask adjustment factor", "statement": "adjust(0) is the identity, adjust(-1) collapses the centre polygon to a point and the limits to half an amplitude away, adjust(1) removes the gaps; the centre polygon keeps its proportions and grows monotonically with the factor.", "quantifier": "all masks and factors in [-1,1]", "why_tests_cant": "continuous domain", "anchors": ["hardware_tools/measurement/mask.py:MaskHexagon.adjust", "hardware_tools/measurement/mask.py:MaskDecagon.adjust"]}
{"id": "C41", "title": "Hitting a mask is monotone in the margin", "statement": "If a symbol window hits the mask at some margin it hits it at every larger margin (window starts and ends outside [0,1] UI and the waveform stays within the -1..2 UA canvas).", "quantifier": "all waveforms, all convex hexagon/decagon masks, all margin pairs", "why_tests_cant": "topological statement over all polylines", "anchors": ["hardware_tools/measurement/mask.py:MaskHexagon.adjust", "hardware_tools/math/_lines_fb.py:is_hitting_np"]}
{"id": "C42", "title": "Reported mask margin and offenders are exact", "statement": "The eye diagram's mask margin is the largest tested margin (1.000 ... -1.000 in steps of 0.001) at which no symbol hits the mask, or -1 if there is none; the offenders are exactly the symbols that hit the unadjusted mask, the hits are exactly their intersection points; results do not depend on the order of the waveforms.", "quantifier": "all waveforms and masks with monotone hits", "why_tests_cant": "greedy single pass search over all symbols vs. global optimum", "anchors": ["hardware_tools/measurement/eyediagram/_eyediagram_fb.py:sample_mask", "hardware_tools/measurement/eyediagram/eyediagram.py:EyeDiagram._sample_mask"]}
{"id": "C43", "title": "Symbol windows never leave the waveform and are aligned", "statement": "Each clock edge yields at most one sampled symbol whose window of 2*i_width+1 samples lies inside the waveform; edges whose window would not fit are skipped, all others are kept in order; sample ii of a window is at the stated time relative to the clock edge.", "quantifier": "all waveform lengths, clock edges, sample and symbol periods", "why_tests_cant": "off by one at both ends, all phases", "anchors": ["hardware_tools/measurement/eyediagram/eyediagram.py:EyeDiagram._step3_sample"]}
{"id": "C44", "title": "Vertical sampling classifies every symbol", "statement": "For every symbol exactly one of the eight transition counters is incremented, so they sum to the number of symbols; edge direction is +1/-1/0 exactly when the previous/current symbols are 01/10/equal; level samples go to the level of the symbol they were taken in; crossing samples come only from symbols with an edge.", "quantifier": "all waveforms, centres and window widths", "why_tests_cant": "all waveforms", "anchors": ["hardware_tools/measurement/eyediagram/_pam2_fb.py:sample_vertical", "hardware_tools/measurement/eyediagram/_pam2.pyx:sample_vertical_c"]}
{"id": "C45", "title": "Horizontal sampling only reports in-window times of the right edge", "statement": "Times reported for rising (falling) edges come only from symbols with a rising (falling) edge and from samples inside the amplitude window; left/right crossing times lie in [-0.5,0.5] and (0.5,1.5] UI.", "quantifier": "all waveforms", "why_tests_cant": "all waveforms", "anchors": ["hardware_tools/measurement/eyediagram/_pam2_fb.py:sample_horizontal", "hardware_tools/measurement/eyediagram/_pam2.pyx:sample_horizontal_c"]}
{"id": "C46", "title": "Bit stream decoding", "statement": "get_bit_stream returns one bit per sampled symbol; in NRZL mode the bits equal the symbols' logic levels; in NRZM mode a bit is 1 exactly when the symbol differs from its predecessor.", "quantifier": "all symbol sequences", "why_tests_cant": "all sequences incl. those without an edge", "anchors": ["hardware_tools/measurement/eyediagram/pam2.py:PAM2.get_bit_stream"]}
{"id": "C47", "title": "Bathtub curves", "statement": "A bathtub curve has values in (0,1], non-increasing on the left half and non-decreasing on the right half, times sorted from 0 to 1, and the value at a hit is the fraction of hits of that half at or beyond it.", "quantifier": "all hit lists", "why_tests_cant": "all hit lists incl. empty halves and ties", "anchors": ["hardware_tools/measurement/eyediagram/eyediagram.py:EyeDiagram._generate_bathtub_curves"]}
{"id": "C48", "title": "Recovered clock is regular and covers the data", "statement": "CDR.run returns evenly spaced clock edges of the recovered period, ceil(span/period) of them, zero-mean time interval errors one per data edge within one period, without disjoints; fewer than two edges or an implausible period raise the documented error.", "quantifier": "all data edge lists and initial periods", "why_tests_cant": "all edge lists", "anchors": ["hardware_tools/measurement/eyediagram/cdr.py:CDR.run"]}
{"id": "C49", "title": "Detrending recovers the exact period", "statement": "detrend_ties returns the exact symbol period of jitter-free data edges (each gap a whole number of periods) from any initial period close enough that no gap drifts by half a period; in general it is the least squares slope of edge time versus symbol index.", "quantifier": "all data patterns and initial periods", "why_tests_cant": "all patterns and unwrapping histories", "anchors": ["hardware_tools/measurement/eyediagram/_cdr_fb.py:detrend_ties", "hardware_tools/measurement/eyediagram/_cdr.pyx:detrend_ties_c"]}
{"id": "C50", "title": "Period search is bounded", "statement": "minimize_tie_disjoints terminates after at most max_iter refinements and returns a period within [t_min, t_max] whose number of disjoints is below the tolerance, or raises ArithmeticError; missing bounds raise ValueError.", "quantifier": "all edge lists and bounds", "why_tests_cant": "recursion depth for all inputs", "anchors": ["hardware_tools/measurement/eyediagram/_cdr_fb.py:minimize_tie_disjoints"]}
{"id": "C51", "title": "Eye diagram configuration", "statement": "Config accepts exactly its known parameters, keeps defaults for the others, later keys override earlier ones; an unknown parameter raises KeyError.", "quantifier": "all dictionaries", "why_tests_cant": "all key sets", "anchors": ["hardware_tools/measurement/eyediagram/eyediagram.py:Config.consume"]}
{"id": "C52", "title": "Eye diagram life cycle", "statement": "Constructing an eye diagram computes nothing and validates shapes; results cannot be read before calculate() completed (RuntimeError) and can afterwards, also after a failed calculate() they stay unavailable; recalculating with unchanged input gives the same clock edges.", "quantifier": "all call histories and shapes", "why_tests_cant": "all call histories incl. exceptions in any step", "anchors": ["hardware_tools/measurement/eyediagram/eyediagram.py:EyeDiagram"]}
{"id": "C53", "title": "Ideal clock generator", "statement": "clock.edges without jitter gives n evenly spaced edges starting at 0; with bounded jitter each edge stays within the sum of the amplitudes of its ideal position and, if that is below half a symbol, edges stay in order; duty-cycle distortion shifts only even edges.", "quantifier": "all periods, amplitudes, n and random draws", "why_tests_cant": "all random draws", "anchors": ["hardware_tools/signal/clock.py:edges"]}
{"id": "C54", "title": "Decision thresholds are ordered", "statement": "The PAM2 decision levels satisfy falling <= half <= rising with distance equal to the hysteresis, half is midway between the levels unless overridden, user supplied levels override measured ones, and the low SNR flag is set iff amplitude is below twice the summed deviations.", "quantifier": "all levels and configurations with non-negative hysteresis", "why_tests_cant": "all configurations", "anchors": ["hardware_tools/measurement/eyediagram/pam2.py:PAM2._step1_levels"]}
{"id": "C55", "title": "Image coordinate mapping", "statement": "Eye diagram image coordinates are monotone in UI/UA, the range [-0.5,1.5) maps onto the image 0..resolution-1, and positions returned for drawing reference lines are inside the image.", "quantifier": "all resolutions and positions", "why_tests_cant": "all resolutions, boundary value 1.5", "anchors": ["hardware_tools/measurement/eyediagram/eyediagram.py:EyeDiagram._uia_to_image"]}
{"id": "C56", "title": "Fallback clock and symbol period", "statement": "Without a recoverable clock the eye diagram uses edges spaced by fallback_period strictly inside the waveform's time span; the symbol period is the mean of the clock intervals below ten times the mean, hence positive and never zero for increasing edges.", "quantifier": "all waveforms and periods", "why_tests_cant": "all waveforms", "anchors": ["hardware_tools/measurement/eyediagram/eyediagram.py:EyeDiagram._step2_clock", "hardware_tools/measurement/eyediagram/pam2.py:PAM2._step2_clock"]}
{"id": "C57", "title": "Gaussian evaluation", "statement": "gaussian.f is non-negative for non-negative amplitude, symmetric about and maximal at the mean; a single component's center is its mean; for mixtures the center lies within one grid step of the range of the component means; sample_error_inv inverts sample_error.", "quantifier": "all parameters", "why_tests_cant": "continuous domain", "anchors": ["hardware_tools/math/gaussian.py:f", "hardware_tools/math/gaussian.py:GaussianMix.center"]}
{"id": "C58", "title": "Reading a waveform leaves the session usable", "statement": "read_waveform requests the complete record of that channel in the binary format that the parser expects and, whenever the transfer succeeds, leaves response headers off so that later property reads parse.", "quantifier": "all channels and instrument states", "why_tests_cant": "all instrument states", "anchors": ["hardware_tools/equipment/tektronix/family_mso4000.py:_MSO4000Channel.read_waveform", "hardware_tools/equipment/tektronix/family_mso456.py:_MSO456Channel.read_waveform"]}
{"id": "C59", "title": "Heat map normalisation and orientation", "statement": "The raw heat map is the stacked count grid rotated by 90 degrees (no count lost); in point cloud mode every non-empty column sums to the number of symbols and empty columns stay zero.", "quantifier": "all grids and resolutions", "why_tests_cant": "all grids", "anchors": ["hardware_tools/measurement/eyediagram/eyediagram.py:EyeDiagram._step5_stack", "hardware_tools/measurement/eyediagram/_eyediagram_fb.py:stack"]}
{"id": "C60", "title": "Where the clock edges of an eye diagram come from", "statement": "Clock edges given by the user are used unchanged. Otherwise the edges of the clock waveforms with the configured polarity are used (for BOTH: all edges of both polarities in order of time); without clock waveforms the edges of the waveform, of that polarity, go to the clock recovery and its result is used; only if the signal to noise ratio is too low are edges placed every fallback period.", "quantifier": "all combinations of given edges, clock waveforms and configuration", "why_tests_cant": "precedence over every combination of inputs, for all waveforms", "anchors": ["hardware_tools/measurement/eyediagram/pam2.py:PAM2._step2_clock", "hardware_tools/measurement/eyediagram/pam2.py:_filter_edge_polarity"]}
{"id": "C61", "title": "Levels after measuring are those measured", "statement": "After step 4 the levels used for masks and images are consistent: y_zero is the level of a logical 0, y_zero + y_ua that of a logical 1, and the threshold is half way unless configured; manual levels are kept.", "quantifier": "all configurations and measured levels", "why_tests_cant": "holds for every mix of manual and measured levels", "anchors": ["hardware_tools/measurement/eyediagram/pam2.py:PAM2._step4_measure"]}
{"id": "C62", "title": "Levels at the crossing are sampled at the crossing", "statement": "y_0_cross and y_1_cross (and so oma_cross) are the levels of logical 0 and 1 of symbols without an edge at the crossing point, as documented: samples within the y_cross window.", "quantifier": "all waveforms", "why_tests_cant": "which samples are used is not visible from a few examples with flat levels", "anchors": ["hardware_tools/measurement/eyediagram/_pam2_fb.py:sample_vertical", "hardware_tools/measurement/eyediagram/_pam2.pyx:sample_vertical_c"]}
{"id": "C63", "title": "Derived measures mean what is documented", "statement": "Levels are means of the samples of all waveforms. amp = y_1 - y_0 is positive, height = amp less three standard deviations of each level, height_r = height/amp is at most 1 and equals 1 - 3/snr; t_0 + t_1 = 2 t_sym, dcd = (t_1 - t_0)/2; the measured t_sym is positive and at most two symbols, f_sym = 1/t_sym, width_r at most 1; jitter_rms is at most half of jitter_pp; measures without samples are nan. The extinction ratio is in [0, 1] as documented.", "quantifier": "all waveforms and configurations", "why_tests_cant": "identities and bounds over all sample sets", "anchors": ["hardware_tools/measurement/eyediagram/pam2.py:PAM2._step4_measure", "hardware_tools/measurement/eyediagram/pam2.py:MeasuresPAM2"]}
{"id": "C64", "title": "High pass jitter transfer function", "statement": "high_pass_butter returns one gain per frequency: 0 at DC, otherwise in [0, 1), increasing with the magnitude of the frequency, half the power at the bandwidth, and steeper with a higher order.", "quantifier": "all frequencies, bandwidths not 0 and orders", "why_tests_cant": "all frequencies and orders", "anchors": ["hardware_tools/measurement/eyediagram/cdr.py:CDRWithFFTFilter.high_pass_butter"]}
{"id": "C65", "title": "Filtered clock recovery moves jitter from the errors to the clock", "statement": "CDRWithFFTFilter.run keeps the sum of each clock edge and its error; a transfer function of one leaves both unchanged, one of zero removes all errors; every tone of the jitter is attenuated by the gain at its frequency and keeps its phase; 100 edges at both ends are removed, errors of the recovery are passed on; not resampled, the error at a data edge is that of the next clock edge.", "quantifier": "all edge lists, transfer functions, and jitter spectra", "why_tests_cant": "all signals and filters", "anchors": ["hardware_tools/measurement/eyediagram/cdr.py:CDRWithFFTFilter.run"]}
{"id": "C66", "title": "Acquisition control sequences", "statement": "stop, run, single and force send their commands in order and return exactly if the instrument confirms every awaited state in time, otherwise TimeoutError (or what the trigger command raised) with nothing more sent; single arms the scope only once it is stopped, calls the trigger command exactly once, forces triggers only if asked to, and the number of queries is bounded by the timeout.", "quantifier": "all instrument behaviours (any function of the traffic), trigger commands, timeouts", "why_tests_cant": "all instrument behaviours", "anchors": ["hardware_tools/equipment/tektronix/family_mso4000.py:MSO4000Family.single", "hardware_tools/equipment/tektronix/family_mso456.py:MSO456Family.single", "hardware_tools/equipment/tektronix/family_mso4000.py:MSO4000Family.run", "hardware_tools/equipment/tektronix/family_mso4000.py:MSO4000Family.stop"]}
{"id": "C67", "title": "single waits for as long as asked to", "statement": "If single(timeout=T) raises TimeoutError, then one of the confirmations it waits for did not arrive within T.", "quantifier": "all instrument behaviours, trigger commands, timeouts", "why_tests_cant": "all instrument timings", "anchors": ["hardware_tools/equipment/tektronix/family_mso4000.py:MSO4000Family.single", "hardware_tools/equipment/tektronix/family_mso456.py:MSO456Family.single"]}
{"id": "C68", "title": "Exponential bins count every sample once", "statement": "bin_exponential counts every non-negative sample in exactly one bin, so that the counts add up to the number of samples; with a zero the bins are decades up to the first power of ten not below the maximum and the first one collects everything below, otherwise their limits are in geometric progression from minimum to maximum; a density times the bin width adds up to 1; no samples is a ValueError.", "quantifier": "all lists of non-negative samples and numbers of bins", "why_tests_cant": "all samples", "anchors": ["hardware_tools/math/stats.py:bin_exponential"]}
{"id": "C69", "title": "calculate completes once the clock is known", "statement": "PAM2.calculate raises no exception if the clock edges of every waveform increase, at least one waveform has two, and the mask (if any) can be evaluated; it then has a positive symbol period, and get_bit_stream returns one bit per sampled symbol.", "quantifier": "all waveforms, settings, clock sources and masks", "why_tests_cant": "all records and settings", "anchors": ["hardware_tools/measurement/eyediagram/eyediagram.py:calculate", "hardware_tools/measurement/eyediagram/pam2.py:PAM2"]}
{"id": "C70", "title": "An open eye decodes to the bits that were sent", "statement": "If the clock is regular and every sample within the decision window of a clock edge is on the side of the half level that was sent, get_bit_stream after calculate returns exactly the sent symbols (NRZL) or whether each differs from the one before (NRZM), for a contiguous range of clock edges that includes all not too close to the ends of the record.", "quantifier": "all records with an open eye, whatever their shape, noise, length and sampling phase", "why_tests_cant": "all records", "anchors": ["hardware_tools/measurement/eyediagram/pam2.py:get_bit_stream", "hardware_tools/measurement/eyediagram/eyediagram.py:calculate"]}
{"id": "C71", "title": "Square NRZ waves are decoded end to end", "statement": "For square NRZ waves with a whole number of samples per symbol, manual levels and a nominal symbol period within 1 %, calculate recovers the clock from the edges of the selected polarity (symbol period exact), and get_bit_stream returns the sent symbols between the first and the last edge, except those too close to the ends of the record.", "quantifier": "all symbol sequences (edges at most 24 symbols apart, 5 on average), samples per symbol, levels, hysteresis, polarities, time offsets and numbers of waveforms", "why_tests_cant": "all symbol sequences", "anchors": ["hardware_tools/measurement/eyediagram/eyediagram.py:calculate", "hardware_tools/measurement/eyediagram/pam2.py:PAM2", "hardware_tools/measurement/eyediagram/cdr.py:CDR.run"]}
{"id": "C72", "title": "The vertical eye closure penalty compares the modulation amplitude with the inner eye", "statement": "vecp is 10 log10 of the optical modulation amplitude (oma_cross) over the inner eye amplitude: the distance of the 0.05 % percentile of the samples of ones from the 99.95 % percentile of the samples of zeros, which with up to 1332 samples is that of the lowest one from the highest zero; its standard deviation follows from that of oma_cross; nan without samples of both levels or if the ratio is not positive.", "quantifier": "all samples", "why_tests_cant": "all sample sets", "anchors": ["hardware_tools/measurement/eyediagram/pam2.py:_step4_measure"]}
{"id": "C73", "title": "A constructed oscilloscope has exactly the channels of the instrument", "statement": "Constructing a driver on a supported instrument yields an object whose ch(i) and d(i) exist exactly for the analog and digital channels the instrument reports (KeyError otherwise), with its bandwidth, named as given or TEKTRONIX-<model>; an instrument of another maker or model raises ValueError and receives nothing but *IDN?; and after construction, successful or not, the replies of the instrument carry no headers.", "quantifier": "all instruments (replies may depend on everything received), names, channel counts", "why_tests_cant": "all replies", "anchors": ["hardware_tools/equipment/scope.py:Scope", "hardware_tools/equipment/tektronix/family_mso4000.py:_init_channels", "hardware_tools/equipment/tektronix/family_mso456.py:_init_channels"]}
{"id": "C74", "title": "Signals of two values are decoded without any level settings", "statement": "Without manual levels, PAM2 measures the levels of any signal that takes two values as these two values: exactly when at most levels_n_max samples are given, otherwise to within a thousandth of their difference, with standard deviation 0; and square waves of any symbol sequence with recoverable clock are then decoded by calculate and get_bit_stream into the sent bits, as with manual levels (C71).", "quantifier": "all signals of two values, lengths, levels_n_max, waveform counts, symbol sequences, any behaviour of the mixture fit on other data", "why_tests_cant": "all signals and lengths: whether a level survives decimation and binning depends on the length and the pattern", "anchors": ["hardware_tools/measurement/eyediagram/pam2.py:_runner_levels", "hardware_tools/measurement/eyediagram/pam2.py:PAM2._step1_levels", "hardware_tools/math/gaussian.py:fit_mix_samples", "hardware_tools/math/stats.py:downsample"]}
{"id": "C75", "title": "The eye does not depend on the vertical unit and offset", "statement": "Analysing the same waveforms in another vertical unit and with another offset (y' = a y + b, a > 0), with the level settings and mask limits in that unit, gives the same symbol period, symbols, decisions, bits, horizontal samples, mask hits, mask margin, bathtub curve and eye image, or the same exception; levels are converted, amplitude, height and modulation amplitude (and all their standard deviations) are scaled by a, and the ratios, signal to noise ratio, extinction ratio and eye closure penalty are unchanged. This also holds for measured levels, provided the mixture fit converts likewise.", "quantifier": "all waveforms, settings, masks, units a > 0, offsets b, clocks, clock recoveries", "why_tests_cant": "a relation between two runs for all inputs; absolute thresholds or a missing offset show only in particular units", "anchors": ["hardware_tools/measurement/eyediagram/pam2.py:PAM2", "hardware_tools/measurement/eyediagram/eyediagram.py:EyeDiagram.calculate", "hardware_tools/measurement/mask.py:MaskHexagon.convert", "hardware_tools/math/_lines_fb.py:edges_np"]}
{"id": "C76", "title": "The eye does not depend on the unit and the origin of time", "statement": "Analysing the same waveforms with all times converted to another unit and origin (t' = a t + b, a > 0), with the clock settings and mask limits converted likewise, gives the same exception or the same result: symbols, decisions, bits, samples in UI, mask hits, margin, bathtub curve, levels and eye image are equal, and the symbol period is scaled by a.", "quantifier": "all waveforms, settings, masks, units a > 0, origins b, clocks", "why_tests_cant": "a relation between two runs for all inputs; hidden absolute times show only in particular units or for particular starts", "anchors": ["hardware_tools/measurement/eyediagram/eyediagram.py:EyeDiagram.calculate", "hardware_tools/measurement/eyediagram/eyediagram.py:EyeDiagram._step3_sample", "hardware_tools/measurement/eyediagram/cdr.py:CDR.run", "hardware_tools/math/_lines_fb.py:edges_np"]}
{"id": "C77", "title": "The images show what was measured", "statement": "The image of the waveforms is transparent exactly where the heat map is zero and coloured by the fraction of its largest value elsewhere; the reference lines of 0 and 1 (time and level) are solid and in the coordinates of the samples; the mask image shows the polygons of the mask and the margin image those of a mask that no symbol hits; the image of the hits is red, opaque on the circles around all hits, visible elsewhere only on the way of the first two offenders of a waveform, and transparent if no symbol is bad or there is no mask. save_images(stack=True) shows hits over mask over waveforms over grid, and margin over waveforms over grid.", "quantifier": "all waveforms, masks, resolutions, pixels, contents of uninitialised memory", "why_tests_cant": "all pixels of all images; the contents of uninitialised memory are not under the control of a test", "anchors": ["hardware_tools/measurement/eyediagram/eyediagram.py:EyeDiagram._step5_stack", "hardware_tools/measurement/eyediagram/eyediagram.py:_runner_draw_symbols", "hardware_tools/measurement/eyediagram/eyediagram.py:Measures.save_images", "hardware_tools/math/image.py:layer_rgba"]}
{"id": "C78", "title": "The results do not depend on the order of the waveforms", "statement": "Analysing the same waveforms (each with its clock or clock edges) in another order succeeds as well and gives the same results: the symbol period, levels, bathtub curve, heat map, mask margin and number of offenders, vertical and horizontal measures are equal, the mask hits are the same points, and what belongs to a waveform (symbols, samples, decisions, offenders) does not change.", "quantifier": "all lists of waveforms and their permutations, settings, clocks, hexagon and decagon masks", "why_tests_cant": "a relation between runs for all permutations; state carried from one waveform to the next shows only for particular orders", "anchors": ["hardware_tools/measurement/eyediagram/eyediagram.py:EyeDiagram.calculate", "hardware_tools/measurement/eyediagram/eyediagram.py:EyeDiagram._sample_mask", "hardware_tools/measurement/eyediagram/pam2.py:PAM2._step1_levels", "hardware_tools/measurement/eyediagram/pam2.py:PAM2._step4_measure"]}
{"id": "C79", "title": "The reports contain every measure under its name", "statement": "After calculate, to_dict contains exactly the documented measures and images (no images if excluded), each under its name with the value measured; save_json writes a standard JSON file from which every value can be read back; pretty_print does not raise and prints every number on its own line behind its name, in aligned columns.", "quantifier": "all results, with and without mask, measures skipped or not, any formatting of numbers", "why_tests_cant": "a swapped or missing measure shows only for particular values; the result depends on the attributes of all objects", "anchors": ["hardware_tools/measurement/eyediagram/eyediagram.py:Measures.to_dict", "hardware_tools/measurement/eyediagram/eyediagram.py:Measures.save_json", "hardware_tools/measurement/eyediagram/eyediagram.py:Measures.pretty_print", "hardware_tools/measurement/eyediagram/eyediagram.py:MeasuresJSONEncoder", "hardware_tools/measurement/eyediagram/pam2.py:PAM2._step4_measure"]}
{"id": "C80", "title": "Edges and mask hits do not depend on the rounding of floats", "statement": "Computed in floats (every operation rounded), edges_np finds the same rising and falling edges as exact arithmetic, in the same number, nan at the same places and with the same errors, each time being off by no more than one rounding of the time and eight of the sample distance; is_hitting is true exactly if hits is not empty; a waveform that crosses a mask line by more than the rounding errors is reported, one that stays clear of all lines by more than the rounding errors is not, and every reported hit is a point of the waveform up to rounding. Segments that meet exactly are reported in floats, too.", "quantifier": "all arithmetics with a relative error of at most 1/100 per operation (among them IEEE doubles), all waveforms, thresholds and paths", "why_tests_cant": "rounding errors depend on all bits of the operands; the cases in which they change a comparison are rare and cannot be enumerated", "anchors": ["hardware_tools/math/_lines_fb.py:crossing", "hardware_tools/math/_lines_fb.py:edges_np", "hardware_tools/math/_lines_fb.py:intersection", "hardware_tools/math/_lines_fb.py:hits", "hardware_tools/math/_lines_fb.py:is_hitting"]}
{"id": "C81", "title": "Binning and downsampling do not depend on the rounding of floats", "statement": "Computed in floats, bin_linear does not raise, its edges are ordered and equally spaced up to rounding, from the smallest to the largest sample, and each sample is counted in exactly one bin; downsample returns at most n_max samples, the samples themselves if there are not more than n_max, otherwise of each bin as many as in exact arithmetic.", "quantifier": "all float arithmetics (a monotone, symmetric rounding with a bounded relative error, among them IEEE doubles), all samples, numbers of bins and caps with 4 u n <= 1, 4 u n_max len(y) < 1", "why_tests_cant": "the rounding of the edges and of the scale depends on all bits of the samples; a rounded edge below the largest sample or out of order is rare", "anchors": ["hardware_tools/math/stats.py:bin_linear", "hardware_tools/math/stats.py:downsample"]}
{"id": "C82", "title": "Symbol windows, mask test and pixels do not depend on the rounding of floats", "statement": "Computed in floats, the window of every sampled symbol is inside the waveform, its samples are at their times relative to the clock edge up to half a sample and the rounding errors, and the same samples as in exact arithmetic are the centres (unless the start of the waveform is half a sample off the sampling grid, up to rounding). The mask test reports every symbol that goes through the mask by more than the rounding errors, no symbol that stays clear of it, and the largest margin up to those that are touched within the rounding errors. Every sample is drawn at the pixel of exact arithmetic or next to it.", "quantifier": "all float arithmetics (a monotone, symmetric rounding with a bounded relative error, among them IEEE doubles), all waveforms, clock edges, masks, resolutions", "why_tests_cant": "rounding errors depend on all bits of the operands; the cases in which they change a comparison or an index are rare", "anchors": ["hardware_tools/measurement/eyediagram/eyediagram.py:EyeDiagram._step3_sample", "hardware_tools/measurement/eyediagram/_eyediagram_fb.py:sample_mask", "hardware_tools/measurement/eyediagram/_eyediagram_fb.py:stack"]}
{"id": "C83", "title": "Fits of samples and the levels taken from them", "statement": "fit_mix_samples returns the mixture with the least AIC (of equals the one with fewest components) among one to n_max components, never more than there are samples different at a millionth of their range, so the optimiser is never asked for more components than samples; its components are in the unit of the samples, largest weight first; equal samples give one component without deviation. The fit, its centre and the automatic levels do not depend on the unit and offset of the samples. Samples that are not all equal have levels: one in the range of the samples of the lower half, one in the range of those of the upper half (up to a thousandth), in order if the halves are apart. fit_pdf gives the least squares fit of the given frequencies if the optimiser does so for normalised ones, and the amplitude is proportional to the counts.", "quantifier": "all samples and frequencies, all numbers of components, all optimisers (sklearn, scipy) that return as many parameters as asked for", "why_tests_cant": "the optimisers start from random values; tests compare single fits of random samples with a tolerance", "anchors": ["hardware_tools/math/gaussian.py:fit_mix_samples", "hardware_tools/math/gaussian.py:fit_pdf", "hardware_tools/measurement/eyediagram/pam2.py:_runner_levels"]}
{"id": "C84", "title": "The dictionary of a mask describes the mask", "statement": "Mask.to_dict gives the shape and every parameter of a mask under its name. Writing it to a json file, reading it back and constructing the mask from it gives a mask with the same paths, also after any adjustment; masks with the same dictionary have the same paths. A mask class without its own dictionary gives its paths and raises ValueError unless it is converted.", "quantifier": "all hexagon and decagon masks, converted or not, all units and adjustments", "why_tests_cant": "tests compare the dictionaries of two masks", "anchors": ["hardware_tools/measurement/mask.py:Mask.to_dict", "hardware_tools/measurement/mask.py:MaskHexagon.to_dict", "hardware_tools/measurement/mask.py:MaskDecagon.to_dict"]}
{"id": "C85", "title": "Calculating again", "statement": "Calling calculate again on an eye diagram gives what a new eye diagram with the same waveforms, mask and the present settings gives. Repeating a completed calculation changes nothing; clock edges taken from a completed eye diagram (get_clock_edges) and given to a new one give the same results; the bits that can be read are those of the last calculation. After a calculation that raised, correcting the settings and calculating again works. Eye diagrams that share a configuration do not influence each other.", "quantifier": "all waveforms, clocks, masks and clock recoveries, all settings before and after, all states an eye diagram can be in, any number of further calculations", "why_tests_cant": "tests calculate every eye diagram once", "anchors": ["hardware_tools/measurement/eyediagram/eyediagram.py:calculate", "hardware_tools/measurement/eyediagram/eyediagram.py:get_clock_edges", "hardware_tools/measurement/eyediagram/pam2.py:_step2_clock", "hardware_tools/measurement/eyediagram/pam2.py:get_bits_nrzl"]}
{"id": "C86", "title": "The stored heat map keeps the counts", "statement": "The heat map, which is stored in single precision, contains the counts of the stacked waveforms: without loss, zero exactly where nothing was drawn, in the same order; in point cloud mode each column sums to the number of symbols up to the roundings. The coloured fraction is positive, at most one, and one at the maximum.", "quantifier": "all grids of counts, resolutions, numbers of symbols, roundings of division and multiplication", "why_tests_cant": "counts of more than 2^24 do not occur in tests; all grids", "anchors": ["hardware_tools/measurement/eyediagram/eyediagram.py:EyeDiagram._step5_stack", "hardware_tools/measurement/eyediagram/eyediagram.py:EyeDiagram.get_raw_heatmap"]}
{"id": "C87", "title": "The image files show the images", "statement": "save_images writes the five images and, if asked, the two stacks under the documented names. Every alpha and every colour of a pixel that is not transparent is written as a byte that differs from 255 times the value by less than one; brighter values are not written as darker bytes, and an image read from a file is written as the same bytes. Layering in doubles never leaves the range 0 to 1, so that no byte wraps around, and stays within ten roundings of exact compositing; in the stack an opaque hit is shown exactly, and elsewhere the topmost opaque layer. Without images nothing is written and TypeError is raised. The base64 images contain the same bytes as the files.", "quantifier": "all images with floats from 0 to 1, all resolutions, base names, uninitialised memory with finite floats", "why_tests_cant": "all values of a pixel; the rounding of doubles at the ends of the range; uninitialised memory", "anchors": ["hardware_tools/math/image.py:np_to_file", "hardware_tools/math/image.py:np_to_base64", "hardware_tools/math/image.py:layer_rgba", "hardware_tools/measurement/eyediagram/eyediagram.py:Measures.save_images"]}
{"id": "C88", "title": "The drivers send the documented messages", "statement": "Every setter, query and the waveform request of the two Tektronix families sends exactly the messages of the instruments' command set, in this order, with the numbers, words and channel names of the arguments.", "quantifier": "all channels, sources, numbers, labels, triggers, both families", "why_tests_cant": "the tests compare with a simulated instrument of the same author for a few values; here for all arguments", "anchors": ["hardware_tools/equipment/tektronix/family_mso4000.py", "hardware_tools/equipment/tektronix/family_mso456.py"]}
{"id": "C89", "title": "Trigger settings and preambles are read by their documented names", "statement": "parse_scpi with TEK_TYPES stores every documented setting of the trigger and of the preamble of a waveform under its long name, whichever abbreviation of each part of the name the instrument uses, as a value of the documented kind (number, integer, word, text, polarity, comparison, threshold); values of another kind raise the error of the conversion. Ranges such as CH<1-4> stand for exactly their channels.", "quantifier": "all documented settings, all combinations of abbreviations, all values, replies of any length", "why_tests_cant": "the number of combinations of abbreviations; interactions of names that abbreviate alike", "anchors": ["hardware_tools/equipment/tektronix/common.py:TEK_TYPES", "hardware_tools/equipment/utility.py:parse_scpi"]}
{"id": "C90", "title": "A wait lasts as long as asked, in doubles", "statement": "With the arithmetic of doubles, an ask_and_wait that raises TimeoutError has slept in total longer than its timeout, and not longer than one pause more up to one rounding; a desired state replied after pauses that together are not longer than the timeout is returned at once; a desired state replied only later raises TimeoutError.", "quantifier": "all timeouts up to 2^48 s, all sequences of replies, all sets of states, with and without an additional command", "why_tests_cant": "the number of polls is a truncated quotient of rounded numbers: 0.15 / 0.05 is below 3; tests use a few timeouts", "anchors": ["hardware_tools/equipment/equipment.py:Equipment.ask_and_wait"]}
{"id": "C91", "title": "Analysing waveforms together is analysing them one by one", "statement": "If two sets of waveforms with given clock edges of one period, the same sampling interval and manual levels (or without measures) can each be analysed, then they can be analysed together, and the result is that of both: the symbol period is the same, the sampled symbols, vertical measurements, crossings and bits are those of the first followed by those of the second, the counts of every pixel of the image add up, the mask is hit where it is hit in either, its margin is the smaller of the two and its number of hits the sum.", "quantifier": "all sets of waveforms, clock edges, levels, resolutions, both image modes, all hexagon and decagon masks", "why_tests_cant": "a fact about all pairs of analyses; the results share accumulators (image, margin, number of hits) across waveforms", "anchors": ["hardware_tools/measurement/eyediagram/eyediagram.py:EyeDiagram.calculate", "hardware_tools/measurement/eyediagram/eyediagram.py:EyeDiagram._step5_stack", "hardware_tools/measurement/eyediagram/pam2.py:PAM2._step4_measure"]}
{"id": "C92", "title": "Inverting a signal inverts the eye diagram", "statement": "If every sample y of the waveforms is replaced by sigma - y, and the levels, thresholds, clock polarity, edge levels and mask are turned likewise, the analysis succeeds if it did before and the result is the same eye diagram upside down: the symbols, symbol period, mask offenders, margin and bathtub curve are the same, the samples of ones and zeros are exchanged and mirrored, rising edges and their horizontal samples become those of falling edges, mask hits are mirrored, NRZ-M bits are the same and NRZ-L bits are the opposite ones.", "quantifier": "all waveforms, offsets sigma, settings, clock sources, hexagon and decagon masks", "why_tests_cant": "a relation between two analyses for all signals; rising and falling code paths are written separately and ties are decided asymmetrically", "anchors": ["hardware_tools/math/_lines_fb.py:edges", "hardware_tools/measurement/eyediagram/_pam2_fb.py:sample_vertical", "hardware_tools/measurement/eyediagram/_pam2_fb.py:sample_horizontal", "hardware_tools/measurement/eyediagram/_eyediagram_fb.py:sample_mask", "hardware_tools/measurement/eyediagram/pam2.py:PAM2._step4_measure"]}
{"id": "C93", "title": "Hysteresis keeps noise from adding edges", "statement": "Edge detection with hysteresis is monotone: of a signal with noise of at most eps, with thresholds that are eps further apart, no more rising and no more falling edges are found than of the signal itself. If the signal has as many edges with thresholds eps closer as with thresholds eps further apart, noise of at most eps changes neither number.", "quantifier": "all waveforms, all noise bounded by eps, all thresholds", "why_tests_cant": "a relation between two runs of a state machine for all noise", "anchors": ["hardware_tools/math/_lines_fb.py:edges", "hardware_tools/math/_lines_fb.py:edges_np"]}
{"id": "C94", "title": "A longer record adds symbols and changes none", "statement": "If samples are appended to the waveforms and clock edges at the same symbol period to their clock edges, the eye diagram with manual levels keeps everything it had: the sampled symbols, the samples of ones and zeros, of the crossings and averages, the transitions and the bits of the short record come first in those of the long one, every pixel of the image is counted at least as often, every mask hit and offending symbol stays and the mask margin does not grow.", "quantifier": "all waveforms, all appended samples, all clock edges in order of time, all settings with manual levels, hexagon and decagon masks", "why_tests_cant": "a relation between two analyses for all signals and all continuations of them", "anchors": ["hardware_tools/measurement/eyediagram/eyediagram.py:EyeDiagram._step3_sample", "hardware_tools/measurement/eyediagram/eyediagram.py:EyeDiagram._sample_mask", "hardware_tools/measurement/eyediagram/_pam2_fb.py:sample_vertical", "hardware_tools/measurement/eyediagram/_eyediagram_fb.py:sample_mask", "hardware_tools/measurement/eyediagram/pam2.py:PAM2.get_bit_stream"]}
{"id": "C95", "title": "What hits a mask hits every mask around it", "statement": "A mask inside another one (its polygon in the area of the other polygon, its limits not nearer), of the same or the other shape, is hit by no more symbols: in every waveform its offending symbols are among those of the other mask, in the same order. Its margin is not smaller.", "quantifier": "all waveforms in the picture, all pairs of nested hexagon and convex decagon masks, all symbol periods and levels", "why_tests_cant": "a relation between two mask tests for all signals and all pairs of nested polygons", "anchors": ["hardware_tools/measurement/eyediagram/_eyediagram_fb.py:sample_mask", "hardware_tools/measurement/eyediagram/eyediagram.py:EyeDiagram._sample_mask", "hardware_tools/measurement/mask.py:MaskHexagon.adjust", "hardware_tools/measurement/mask.py:MaskDecagon.adjust", "hardware_tools/math/_lines_fb.py:is_hitting"]}
{"id": "C96", "title": "Noise moves the measured levels by no more than itself", "statement": "If the samples around the middle of each symbol are within e of the level that was sent, on the right side of the threshold, then calculate() measures y_0 and y_1 to within e with a deviation of at most e, the amplitudes to within 2e, the eye height between the amplitude minus 8e and plus 2e, and its ratio, the signal to noise ratio and the vertical eye closure penalty accordingly; levels that were not configured end up within the same bounds; the transition counts are those of the symbols sent. Square waves, with the clock recovered from them, are measured exactly: no deviation, and an eye as high as the amplitude.", "quantifier": "all records, symbols, noise within the bound, clocks and settings", "why_tests_cant": "quantifies over all noise and all bit patterns through the whole pipeline", "anchors": ["hardware_tools/measurement/eyediagram/pam2.py:PAM2._step4_measure", "hardware_tools/measurement/eyediagram/_pam2_fb.py:sample_vertical", "hardware_tools/math/stats.py:UncertainValue.samples", "hardware_tools/measurement/eyediagram/eyediagram.py:EyeDiagram.calculate"]}
{"id": "C97", "title": "The measured times are as good as the edges", "statement": "If, around the edges of a regular clock, the samples at the measured crossing level are within ε of the boundaries between symbols, then calculate() measures the crossing time as 0 and the duration of a symbol as that of the clock to within ε and half a sample (twice that for differences), the frequency, the eye width and its ratio accordingly, and a jitter of at most 2ε and a sample peak to peak, ε and half a sample rms. They are measured (not nan) once there is such a sample at a boundary before and at one after a clock edge in view.", "quantifier": "all records, clocks, levels and settings, all edge shapes within the bound", "why_tests_cant": "quantifies over all edge shapes and sampling phases through the whole pipeline", "anchors": ["hardware_tools/measurement/eyediagram/pam2.py:PAM2._step4_measure", "hardware_tools/measurement/eyediagram/_pam2_fb.py:sample_horizontal", "hardware_tools/measurement/eyediagram/eyediagram.py:EyeDiagram.calculate"]}
{"id": "C98", "title": "The recovered clock in double precision", "statement": "Computed in doubles, a clock recovered with a period T from data edges at times up to A fits them up to 20 u (A + T), with u = 2^-53: every data edge is its time interval error from a symbol boundary, every clock edge is in the centre of a symbol, the clock edges cover the data, and the mean of the errors is zero up to the rounding of the mean. Edges with a jitter below a quarter of a fixed period (less 10 u (A + T)) never raise an error, and every clock edge is within the jitter and that rounding of the true centre of a symbol. The number of clock edges is the number of symbols between the first and the last data edge.", "quantifier": "all increasing data edges, all periods, all orders in which numpy may add up the mean, all relative rounding errors up to u", "why_tests_cant": "rounding errors depend on every bit of every edge; tests with round numbers do not show them", "anchors": ["hardware_tools/measurement/eyediagram/cdr.py:CDR.run"]}
{"id": "C99", "title": "From samples to bits in double precision", "statement": "Computed in doubles, from the samples through the data edges, the recovered clock with a fixed period, the symbol period, the symbols and the decisions, the bit stream is what was sent, for consecutive symbols, all those with a whole window in the record (up to two samples and the errors of the clock). It suffices that the edges jitter by less than a quarter of a symbol and the eye is open, in the width that the decisions look at plus the jitter and the errors, by more than the rounding errors of a mean. The levels and the transitions are measured from samples of the right level. The symbol period is the true one up to the rounding errors, and the computed time between samples keeps regular samples regular. The same decisions are made by the compiled code, which adds up without a mean.", "quantifier": "all records, symbols, settings, orders in which numpy may add up the means, all relative rounding errors up to u", "why_tests_cant": "rounding decides which samples are in a window and which symbols are near the end of a record; tests with a few round numbers do not show that no rounding flips a bit", "anchors": ["hardware_tools/measurement/eyediagram/_pam2_fb.py:sample_vertical", "hardware_tools/measurement/eyediagram/_pam2.pyx:sample_vertical_c", "hardware_tools/measurement/eyediagram/pam2.py:PAM2.get_bit_stream", "hardware_tools/measurement/eyediagram/eyediagram.py:EyeDiagram._step2_clock"]}
{"id": "C100", "title": "Autoscale converges on a real instrument, in doubles", "statement": "Computed in doubles, with an oscilloscope that takes the scale with a relative error of up to 1% and the position with an error of up to 1/200 of the screen, and records the extremes of a steady signal with an error of up to 1/512 of the screen (noise, an 8 bit converter), autoscale returns normally if the signal is on the screen at the beginning and covers at least 1/100000 of it. Afterwards the signal covers 80% of the screen within 5.6% and is in the middle within 10.4%. The offset of the signal must not be so large that the error of the scale alone moves the picture by more than 1/200 of the signal's height.", "quantifier": "all instruments, signals, scales, positions, histories, all relative rounding errors up to 1e-6", "why_tests_cant": "an adjustment is a feedback loop; whether it settles within ten attempts for all errors of the instrument cannot be seen from a mocked instrument that does what it is told", "anchors": ["hardware_tools/equipment/scope.py:AnalogChannel.autoscale"]}
{"id": "C101", "title": "Waveforms are converted accurately and in order, in doubles", "statement": "Computed in doubles, the times of a waveform reply or file are those that the header describes within four roundings of the largest term; they never decrease and are different as long as the step of the header is larger than the rounding. The voltages are the described ones within six roundings: a larger code never has a lower voltage, codes whose voltages differ by more than the rounding have different voltages, samples at the limits of the converter are exactly those at or beyond y_clip_max or y_clip_min. With noise, every sample is moved by less than half the least significant bit that the codes use and keeps its side of the clipping limits.", "quantifier": "all replies, files, headers, codes, frames, random numbers, all roundings that are monotone and odd", "why_tests_cant": "tests compare a few recorded waveforms with what the same formula gives; whether rounding can reorder samples or make a clipped sample look unclipped depends on offsets and scales that no recording has", "anchors": ["hardware_tools/equipment/tektronix/common.py:parse_waveform_query", "hardware_tools/equipment/tektronix/common.py:parse_wfm_file"]}
{"id": "C102", "title": "A keyed signal gives one edge per change of symbol and decodes to what was sent", "statement": "For a record of a signal that is past the threshold of its symbol outside a window around each symbol boundary, does not pass the other threshold near a boundary without a change and passes it only once near one with a change, the edges found are exactly one per change of the symbol (of the selected polarity) whose window is in the record, in order, each no farther from the boundary than the window and the distance between two samples. For such records of at least twenty symbols, with a change among any four, get_bit_stream computed in doubles returns the symbols that were sent (NRZL) or their changes (NRZM), without a gap, and all that are six or more symbols from the ends of the record.", "quantifier": "all records, sample times, voltages, symbols, symbol periods, thresholds, polarities, widths of the transitions, numbers of records, all roundings fine enough", "why_tests_cant": "tests decode one recorded waveform; that noise between the thresholds, the phase of the samples, and the rounding of edges, clock and sums never add, drop or shift a bit needs a proof over all signals", "anchors": ["hardware_tools/math/_lines_fb.py:edges_np", "hardware_tools/measurement/eyediagram/pam2.py:PAM2.calculate", "hardware_tools/measurement/eyediagram/pam2.py:PAM2.get_bit_stream", "hardware_tools/measurement/eyediagram/cdr.py:CDR.run"]}
{"id": "C103", "title": "From the bytes of the oscilloscope to the bits that were sent", "statement": "If waveform replies (that do not contain the bytes of the curve marker elsewhere, see C35) or the frames of a wfm file (under the provisos of C37) describe samples of a keyed signal as in C102, with thresholds and windows kept by a few roundings, then reading them and decoding what was read, all in doubles, gives the symbols that were sent: the bytes are parsed without error, and get_bit_stream returns the symbols (NRZL) or their changes (NRZM), without a gap, and all that are seven or more symbols from the ends of the record.", "quantifier": "all replies and files, headers, byte orders, codes, scales, symbols, symbol periods, thresholds, numbers of records or frames, all roundings that are monotone, odd and fine enough", "why_tests_cant": "no test covers the path from the instrument to the bits; each step is tested alone with its own examples, and errors of one step that are harmless alone can break the next", "anchors": ["hardware_tools/equipment/tektronix/common.py:parse_waveform_query", "hardware_tools/equipment/tektronix/common.py:parse_wfm_file", "hardware_tools/measurement/eyediagram/pam2.py:PAM2.calculate", "hardware_tools/measurement/eyediagram/pam2.py:PAM2.get_bit_stream"]}
{"id": "C104", "title": "Numbers and times are printed correctly, in doubles", "statement": "In doubles, metric_prefix with the default table prints a number that times the magnitude of its prefix is the value within three roundings; the value reaches the threshold of that prefix and of no larger one, up to three roundings. With the default threshold, a value from 2e-12 up to 2e15 is printed as a number from 2, never a rounding less, to 2000. time_str prints every duration from zero up to 2^53 seconds as exact arithmetic would (C18); whole seconds of a negative duration are the duration rounded down, seconds below 60. elapsed_str of two datetimes up to 272 years apart prints exactly the whole seconds between them; of two floats, the time between them within half a hundredth and a rounding.", "quantifier": "all values, thresholds, units, format specifiers, durations below 2^53 s, instants", "why_tests_cant": "tests print some values; that rounding of the magnitudes, of divmod and of differences never shows a wrong prefix, second or minute concerns the values next to every threshold", "anchors": ["hardware_tools/strformat.py:metric_prefix", "hardware_tools/strformat.py:time_str", "hardware_tools/strformat.py:elapsed_str"]}
{"id": "C105", "title": "Uncertain values do not depend on the rounding of floats", "statement": "In rounded arithmetic, the sum, difference, product and quotient of uncertain values have the rounded value, and the variance of the propagation law within four (sum, difference) or ten (product, quotient) roundings; the deviation is never negative. Mean and deviation of samples, with the additions made in any order, with or without fused multiply-add: the mean is off by roundings of the average magnitude, and the variance is the population variance within rounding plus the square of the error of the mean, so there is no cancellation however large the mean is compared with the deviation.", "quantifier": "all uncertain values, all lists of samples, all orders of summation, all roundings with a relative error of at most 1/100", "why_tests_cant": "tests compare a few results with a tolerance; jitter of picoseconds on times of seconds shows whether the formula cancels, and the order of summation is the choice of the library", "anchors": ["hardware_tools/math/stats.py:UncertainValue", "hardware_tools/math/stats.py:UncertainValue.samples"]}
{"id": "C106", "title": "The edges of the clock generator, and the recovered clock, in doubles", "statement": "In rounded arithmetic, edge k of the clock generator is within the total amplitude of the jitter and ten roundings of k times the symbol duration, and the edges are in order if that is below half a symbol. Given to the clock recovery with the period fixed to that duration, edges with less than a quarter of a symbol of jitter, up to rounding, give a clock: as many edges as generated or one less, each in the middle of a symbol up to the jitter, and time interval errors that are the jitter that was generated up to a common offset and rounding.", "quantifier": "all symbol durations, jitter amplitudes, random draws, numbers of edges, all roundings fine enough", "why_tests_cant": "the draws are random and a test sees a few of them; the claim is about all draws and all lengths, and about two modules together", "anchors": ["hardware_tools/signal/clock.py:edges", "hardware_tools/measurement/eyediagram/cdr.py:CDR.run"]}
{"id": "C107", "title": "The default clock recovery, in doubles", "statement": "In rounded arithmetic, with the compiled and with the fallback functions: given data edges at the boundaries of symbols of one duration, each displaced by at most a 32nd of a symbol, at most 12 and on average at most 4.9 symbols apart, and a configured period at most 0.9 % off, CDR.run without a fixed period raises no exception. The period it finds is off by at most 3.5 times the displacement divided by the number of edges (plus rounding), there is one clock edge for every symbol and at most one more, each is in the middle of its symbol up to the displacement and the error of the period, and the time interval errors are the distances of the data edges from the clock.", "quantifier": "all edges, jitters, symbol patterns and configured periods within the bounds, all roundings fine enough, all orders in which numpy adds, all sort functions", "why_tests_cant": "whether a search over rounded scores finds a period, and whether the wrapped errors are put together again, depends on the exact positions of the edges; tests try a few records with one random seed", "anchors": ["hardware_tools/measurement/eyediagram/cdr.py:CDR.run", "hardware_tools/measurement/eyediagram/_cdr_fb.py:minimize_tie_disjoints", "hardware_tools/measurement/eyediagram/_cdr_fb.py:detrend_ties", "hardware_tools/measurement/eyediagram/_cdr.pyx:minimize_tie_disjoints", "hardware_tools/measurement/eyediagram/_cdr.pyx:detrend_ties"]}
{"id": "C108", "title": "Decoding with the default clock recovery, in doubles", "statement": "In rounded arithmetic: records of a binary signal whose data edges are displaced by at most a 32nd of a symbol, at most 12 and on average at most 4.9 symbols apart, with a configured symbol rate at most 0.9 % off, and whose eye is open in the width that the decision looks at, are decoded by PAM2 with its default clock recovery (period searched and fitted, nothing fixed) to the symbols that were sent, without an exception. In every record the symbols found follow each other, and all of them are there that are far enough from the ends of the record. As NRZM a bit is one where the level changes; as NRZL a bit is the level, unless the record has only ones.", "quantifier": "all numbers of records, all samples, symbols, jitters, levels and configured periods within the bounds, all roundings fine enough, all orders in which numpy adds, all sort functions, the compiled and the fallback clock recovery", "why_tests_cant": "a period that is off by the rounding and the jitter adds up over the record; whether the last symbol of a long record is still read in its middle depends on all edges, and tests decode one pattern with one random seed", "anchors": ["hardware_tools/measurement/eyediagram/_pam2_fb.py:sample_vertical", "hardware_tools/measurement/eyediagram/_pam2.pyx:sample_vertical_c", "hardware_tools/measurement/eyediagram/pam2.py:PAM2.get_bit_stream", "hardware_tools/measurement/eyediagram/eyediagram.py:EyeDiagram._step2_clock", "hardware_tools/measurement/eyediagram/cdr.py:CDR.run", "hardware_tools/measurement/eyediagram/_cdr_fb.py:minimize_tie_disjoints", "hardware_tools/measurement/eyediagram/_cdr.pyx:minimize_tie_disjoints"]}
{"id": "C109", "title": "Bathtub curves, in doubles", "statement": "In rounded arithmetic: every line between two samples of a symbol that goes through the slice level inside the unit interval, with both samples away from the level, is a hit of the bathtub curve, at the time of the crossing; every hit is at a time at which such a line is at the level, up to the rounding errors; and the curve goes from (0, 1) through the hits of the left half and those of the right half to (1, 1), with rates between 0 and 1 that fall to the middle and rise from it, each the fraction of its half's hits that are at it or further in up to two roundings. The times of the curve are in order.", "quantifier": "all waveforms, centres, levels, all roundings that keep the order and 1, all numbers of hits", "why_tests_cant": "whether a crossing at the border of the unit interval or close to a sample is found depends on the rounding of six products; tests compare one curve with itself", "anchors": ["hardware_tools/measurement/eyediagram/_eyediagram_fb.py:y_slice", "hardware_tools/measurement/eyediagram/eyediagram.py:EyeDiagram._generate_bathtub_curves", "hardware_tools/math/_lines_fb.py:intersection", "hardware_tools/math/_lines_fb.py:hits"]}
{"id": "C110", "title": "Measured levels, amplitude and eye height, in doubles", "statement": "In rounded arithmetic, for clean records whose symbols are within e of two levels, calculate with the default clock recovery reports these levels to within e, deviations of at most e, the amplitude to within 2 e, an eye height between amplitude - 8 e and amplitude + 2 e and a signal-to-noise ratio of at least (amplitude - 2 e) / 2 e, all up to the rounding errors of a mean. A level is reported if a symbol of it is more than a symbol from the ends of its record and the configured width is at least a sample. The relative height, the relative crossing, the signal-to-noise ratio and the extinction ratio are the quotients of the reported values up to four roundings, and nan or inf only if the divisor is zero.", "quantifier": "all numbers and lengths of records, all symbols, all levels and noise in the band, all orders in which numpy and BLAS add, all noise floors", "why_tests_cant": "the tests compare the measures of one simulated record with loose tolerances; that a large offset or a long record does not spoil the deviations is a statement about all of them", "anchors": ["hardware_tools/measurement/eyediagram/pam2.py:PAM2._step4_measure", "hardware_tools/measurement/eyediagram/_pam2_fb.py:sample_vertical", "hardware_tools/math/stats.py:UncertainValue.samples"]}
{"id": "C111", "title": "Measured times, eye width and jitter, in doubles", "statement": "In rounded arithmetic sample_horizontal does not fail for symbols inside the record, and collects the times of the samples at the crossing level and on the edges, each to within 20 u (1 + window) and missing or adding a sample only within rounding errors of the limits; the compiled version finds the same crossings. The reported times are the averages of the collected ones, the durations their differences, the ratios quotients and the deviations follow the propagation law, all up to a few roundings; nan exactly if there are no samples. If the signal is near the crossing level only within x of the symbol boundaries, the reported symbol duration is the recovered period, the frequency its inverse, the eye width the period less at most nine times and the jitter at most 2.2 times x plus half a sample, the errors of the clock and roundings; they are reported if a boundary is crossed.", "quantifier": "all records, symbols, directions, levels and window heights; all orders in which numpy and BLAS add", "why_tests_cant": "the tests compare measures of one simulated record; which samples fall out of the windows by rounding and how averages of times that nearly cancel behave is a statement about all of them", "anchors": ["hardware_tools/measurement/eyediagram/_pam2_fb.py:sample_horizontal", "hardware_tools/measurement/eyediagram/_pam2.pyx:sample_horizontal", "hardware_tools/measurement/eyediagram/pam2.py:PAM2._step4_measure"]}
{"id": "C112", "title": "Masks, margin and offenders, in doubles", "statement": "In rounded arithmetic convert_mixed_units of hexagon and decagon masks fails exactly when it does in exact arithmetic and otherwise gives every parameter to within three roundings of the largest one; adjust succeeds at every margin from -1 to 1 and every corner is off by no more than 50 u M^3 / g^2, for parameters of at most M and a first corner at least g away from the middle. At margin 0 the mask is unchanged, at margin 1 it spans the unit interval with limits at 0 and 1, at margin -1 it is a point, all without rounding error. _sample_mask over all waveforms then reports a margin that is one of those tested, below every margin at which some symbol goes through the exact mask and all larger ones, and not below a margin at which all symbols stay clear of it, by an area of a few hundred roundings; symbols through the mask are offenders, clear ones are not, the number of offenders is their count, and each of them has at least one reported hit, all of which are points of the symbol where it crosses or nearly touches the exact mask.", "quantifier": "all masks, units, waveforms and sampled symbols", "why_tests_cant": "the tests compare paths to a few decimals for one mask and count the hits of one simulated record; that rounding of the corners cannot turn a pass into a failure unless the signal touches the mask is a statement about all of them", "anchors": ["hardware_tools/measurement/mask.py:MaskHexagon", "hardware_tools/measurement/mask.py:MaskDecagon", "hardware_tools/measurement/eyediagram/eyediagram.py:EyeDiagram._sample_mask"]}
{"id": "C113", "title": "From the bytes of the oscilloscope to the bits, with the default clock recovery", "statement": "If waveform replies or the frames of a wfm file (under the provisos of C103) describe 21 to 2398 symbols of a keyed signal, with changes in any four symbols, finely sampled (sample distance and width of the changes together at most a 40th of a symbol), then reading them and decoding what was read with the default settings of the clock recovery, that is with a configured symbol rate up to 0.9 % off and the period searched and fitted, all in doubles, gives the symbols that were sent: the bytes are parsed without error, calculate raises nothing, and get_bit_stream returns the symbols (NRZL) or their changes (NRZM), without a gap, and all that are seven or more symbols from the ends of the record.", "quantifier": "all replies and files, headers, byte orders, codes, scales, symbols, symbol periods and configured ones within the bounds, thresholds, numbers of records or frames, all orders in which numpy adds, all sort functions, the compiled and the fallback clock recovery, all roundings that are monotone, odd and fine enough", "why_tests_cant": "no test covers the path from the instrument to the bits, and none the search for the period on what was read from an instrument; the errors of the bytes, of the interpolated edges and of the fitted period add up over the record", "anchors": ["hardware_tools/equipment/tektronix/common.py:parse_waveform_query", "hardware_tools/equipment/tektronix/common.py:parse_wfm_file", "hardware_tools/measurement/eyediagram/cdr.py:CDR.run", "hardware_tools/measurement/eyediagram/pam2.py:PAM2.calculate", "hardware_tools/measurement/eyediagram/pam2.py:PAM2.get_bit_stream"]}
{"id": "C114", "title": "Points, segments and lines in double precision", "statement": "In doubles, for points away from the origin, Point2D.orientation never raises, never reports the wrong turn when the turn exceeds the rounding errors, reports collinear when turn and rounding errors are below the tolerance of ten machine precisions and the turn when it exceeds both; Line2D.intersecting is true iff the two segments share a point; Line2D.intersection returns None iff the lines are parallel and otherwise a point that is off the common point of the lines by at most 60 roundings of coordinates up to M, magnified by M^2 over the area spanned by the directions of the lines.", "quantifier": "all coordinates, all roundings at least as fine as doubles, all roundings of the powers by the C library within 2 and 600 units", "why_tests_cant": "the tests use a few small integers, for which nothing is rounded; the tolerance is relative to a norm that depends on the distance from the origin, so whether it covers the rounding errors depends on all six coordinates", "anchors": ["hardware_tools/math/lines.py:Point2D.orientation", "hardware_tools/math/lines.py:Line2D.intersecting_points", "hardware_tools/math/lines.py:Line2D.intersection_points"]}
{"id": "C115", "title": "Sinc interpolation in double precision", "statement": "In doubles, with sample times within eta of a regular grid of distance T (eta at most a hundredth of T) and requested times within eta of z, sinc returns for each requested time the Whittaker-Shannon interpolation of the samples at z, up to 21 eta/T + 36 u + 1e-19 times the added magnitudes of the samples, plus the error of adding them; requested at the sample times it returns the samples up to that error. It raises ValueError exactly for input of the wrong shape.", "quantifier": "all samples, sample times, requested times, numbers of samples, all roundings, all orders in which numpy adds, all sines of the C library within two units of rounding", "why_tests_cant": "the tests compare a few resampled sine waves with a tolerance; at the sample times the sinc of a rounded multiple of pi is not 0, and every sample contributes such an error to every result", "anchors": ["hardware_tools/math/interpolation.py:sinc"]}
{"id": "C116", "title": "Gaussian functions and mixtures in double precision", "statement": "In doubles, Gaussian.compute is everywhere within 21 units of rounding times the largest value of the exact function, is never negative, is nowhere above its value at the mean, and has exactly the same value at equal distances on both sides of the mean. GaussianMix.compute is within that times the added largest values, plus the error of adding them. GaussianMix.center of one component is its mean; of several it is the best point, up to twice that error in the exact mixture, of 1000 points around the best of 1000 points over the range of the means, each point being in place up to 13 units of rounding of the largest mean.", "quantifier": "all amplitudes of at least 0, means, positive deviations, positions, numbers of components, all roundings (monotone and odd ones for the peak, the symmetry and the centre), all orders in which numpy adds, all library functions within two units of rounding", "why_tests_cant": "the tests compare a few values of one Gaussian and the centre of one mixture with a tolerance; far from the mean the exponent multiplies a relative error without bound, and only a proof shows that the result stays as accurate as near the mean", "anchors": ["hardware_tools/math/gaussian.py:f", "hardware_tools/math/gaussian.py:GaussianMix.compute", "hardware_tools/math/gaussian.py:GaussianMix.center"]}
{"id": "C117", "title": "The centre of a mixture is near its highest point", "statement": "GaussianMix.center returns a position at which the mixture is almost as high as anywhere: for components with means at most S apart, nowhere is it higher by more than S^2/1995000 times the sum of the components' largest values over their variances; in doubles also by no more than that plus the effect of rounding. The documented 'where peak occurs' does not hold in general: for components that are narrow compared with a thousandth of the range of the means the mixture can be 50 times as high elsewhere.", "quantifier": "all numbers of components (two or more), amplitudes of at least 0, means, deviations other than 0, and all positions on the real line", "why_tests_cant": "the test compares the centre of one mixture with a tolerance; the position of the highest point depends on all components and the grid can miss it", "anchors": ["hardware_tools/math/gaussian.py:GaussianMix.center"]}
{"id": "C118", "title": "Logarithms, percentiles and the vertical eye closure penalty are accurate in doubles", "statement": "In doubles UncertainValue.log and log10 are within a few units of rounding of the logarithm and its propagated deviation, and nan exactly for values of at most 0. The percentiles that the vertical eye closure penalty uses lie between the smallest and the largest sample up to rounding, are the value of the method median_unbiased at a position that is off by rounding only, and for up to 1332 samples are exactly the smallest and the largest one. The penalty is ten times the decimal logarithm of the optical modulation amplitude over the distance of the percentiles within 32 units of rounding times one plus that logarithm, with the propagated deviation within 9 units; for samples within e of two levels that distance is the one of the levels within 2 e plus rounding. Without a positive ratio the penalty is not a finite number. For clean records whose symbols are within e of two levels the penalty that PAM2.calculate reports is 0 dB up to 21 (2 e + rounding) / distance of the levels, and nan if one of the levels is not measured.", "quantifier": "all values and deviations, all numbers and orders of samples, all optical modulation amplitudes, all roundings that are accurate to one part in a thousand (one in 10^8 for the extremes), doubles among them", "why_tests_cant": "the tests compare a handful of values with tolerances; which sample a percentile selects depends on rounded arithmetic with the number of samples", "anchors": ["hardware_tools/math/stats.py:UncertainValue.log", "hardware_tools/math/stats.py:UncertainValue.log10", "hardware_tools/measurement/eyediagram/pam2.py:PAM2._step4_measure"]}
{"id": "C119", "title": "The vertical eye closure penalty in doubles is the one of exact arithmetic", "statement": "For n samples of absolute value at most Y and at most G apart each percentile that PAM2.calculate computes in doubles differs from the exact percentile of the method median_unbiased by at most u (14 Y + (7 n + 20) G), u being half a unit in the last place. If the exact percentiles of the two levels are more than 200 times that bound E apart, the penalty in doubles differs from the exact one V by at most 20 E over that distance plus 33 u (1 + |V| / 10) decibels, and its deviation by at most 9 u of the exact one.", "quantifier": "all lists of samples of both levels, any number, order and size, all positive optical modulation amplitudes, all percentages from 0 to 100, all roundings that are accurate to one part in a thousand, doubles among them", "why_tests_cant": "the position of a percentile is rounded and may select another pair of samples than the exact one; whether that matters depends on the samples", "anchors": ["hardware_tools/measurement/eyediagram/pam2.py:PAM2._step4_measure", "hardware_tools/math/stats.py:UncertainValue.log10"]}
{"id": "C120", "title": "A more open eye has no larger closure penalty", "statement": "Raising some samples lowers no percentile that is taken of them. So if, at the same optical modulation amplitude, samples of the ones are raised and samples of the zeros are lowered, the vertical eye closure penalty remains a number and does not grow.", "quantifier": "all lists of samples of both levels, all changes of single samples in these directions, all positive optical modulation amplitudes", "why_tests_cant": "a percentile depends on the order of all samples; changing one sample can change which samples it interpolates", "anchors": ["hardware_tools/measurement/eyediagram/pam2.py:PAM2._step4_measure"]}
