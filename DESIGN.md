# Formal model of hardware-tools: design

Source: `/repo` (WattsUp/hardware-tools, python and cython, read only, never executed).
Model and proofs: `/verif/lean` (Lean 4.33.0 and single Mathlib modules).

## 1. Approach

* Each python function is modelled by a small total Lean function that mirrors it branch by branch.  Exceptions
  are values (`Except PyErr`), mutable state is threaded explicitly; the instrument, random draws, uninitialised
  memory and the order in which equal keys are sorted are parameters.  Each definition cites the file and lines
  that it models and says what it simplifies.
* Numbers: integers are `ℤ`/`ℕ`; floats are exact rationals `ℚ` (or `ℝ` where the code takes `sqrt`, `exp`,
  `sin`, `log`), `nan` is an explicit `Option.none`.  Overflow, infinities and signed zeros are **not** modelled.
  Rounding is modelled only where it decides what is found: in `Float`, `FloatStats`, `FloatEye`, `FloatWait`, `FloatCdr`, `FloatPam2`, `FloatAutoscale`, `FloatWave`, `FloatFormat`, `FloatUncertain`, `FloatClock`, `FloatSearch`, `FloatBathtub`, `FloatMeasures`, `FloatHorizontal`, `FloatMask`, `FloatLine2D`, `FloatInterpolation`, `FloatGaussian`, `FloatVecp` (C80-C82, C90, C98-C119) every operation is followed by a rounding with
  a relative error `u`; IEEE doubles without exponent limits are an instance that the kernel can evaluate.
* `Verif/Model/*.lean` is the model, `Verif/Props/*.lean` holds the properties.  Each property is stated next to
  a small independent specification (quantified statements over lists, half-planes, counts, ...).  Beside each
  theorem is an `example` that meets its hypotheses with a concrete non-trivial case.
* Theorems are named after the property, `C<NN>_...`.  Where the code does not have the property, the negation is
  proved with a concrete witness (`_fails`), and the strongest true restriction found has the suffix `_partial`.
  All properties marked `partial` in the manifest are partial for this reason: section 4 lists what the code does
  instead.  There is no property whose proof is unfinished.
* Theorems are tested against seeded bugs in a scratch copy of the model: `tools/mutate.py`, results in
  `seeded/LOG.jsonl` (field `failed`: theorems whose proof broke; `lost`: properties depending on them;
  `tightened`: theorems added or changed because an edit survived).
* `tools/mkmanifest.py` regenerates `MANIFEST.json` from the theorem names and `tools/notes.json`.

## 2. Trusted base

* Lean's kernel (the gate replays all constants).
* Axioms: `propext`, `Classical.choice`, `Quot.sound` at most; no own axioms, no `sorry`, no `native_decide`, no
  `bv_decide`.  `axioms.txt` lists the axioms of every theorem of the manifest (`tools/axioms.py`, from
  `#print axioms`).
* The faithfulness of the hand written model to the source (comments cite lines).
* Exact arithmetic in place of IEEE-754 doubles (except for C80-C82, C86, C87, C90, C98-C119).
* Assumed library behaviour (modelled, not verified): numpy `linspace`, `arange`, `histogram`, `percentile`
  (median_unbiased), `diff`, `divmod`, elementwise arithmetic, `astype(int32)` truncation, `rfft`/`irfft` (as the
  discrete Fourier transform), `log10`; scipy `interp1d(kind="next")`; python `str.split/strip/startswith`,
  `%.6E` formatting, `re.match` for the patterns used, dict insertion order; pyvisa
  `open_resource/close/write/query`.

## 3. What is modelled

| Source | Model | Properties |
| --- | --- | --- |
| `math/_lines_fb.py` | Lines, Float | C01-C09, C80, C92, C93 |
| `math/_lines.pyx` (thresholds in single precision) | LinesC | C12 |
| `math/lines.py` (`Point2D`, `Line2D`) | Line2D, FloatLine2D | C10, C11, C114 |
| `math/stats.py` | Stats, StatsExp, FloatStats, FloatUncertain, FloatVecp | C13-C16, C68, C81, C105, C118 |
| `strformat.py` | Strformat, FloatFormat | C17, C18, C104 |
| `math/image.py` | Image, Png | C19, C87 |
| `math/interpolation.py` | Interpolation, FloatInterpolation | C20, C115 |
| `math/gaussian.py` | Gaussian, GaussianFit, FloatGaussian | C57, C83, C116, C117 |
| `equipment/equipment.py`, `equipment/utility.py` (`connect`) | Equipment, FloatWait | C21-C23, C90 |
| `equipment/utility.py` (`parse_scpi`) | Scpi, Decimal | C24, C25, C89 |
| `equipment/scope.py` (`autoscale`, constructor, `ch`, `d`) | Autoscale, ScopeInit, FloatAutoscale | C26, C27, C73, C100 |
| `equipment/tektronix/family_mso4000.py`, `family_mso456.py` | Tek, Acquire, ScopeInit | C28-C34, C66, C67, C73, C88 |
| `equipment/tektronix/common.py` | Tek, Wave, Wfm, FloatWave | C34-C38, C58, C89, C101, C103, C113 |
| `measurement/mask.py` | Mask, MaskDict, FloatMask | C39-C41, C84, C112 |
| `measurement/eyediagram/_eyediagram_fb.py`, `eyediagram.py` | Eye, Pipeline, Draw, Report, FloatEye, FloatBathtub, Again, Heatmap, Png | C42, C43, C47, C51, C52, C55, C59, C69, C77, C79, C82, C85, C86, C87, C95, C109 |
| `measurement/eyediagram/_eyediagram.pyx`, `_pam2.pyx` | EyeC | C12, C45 |
| `measurement/eyediagram/_pam2_fb.py`, `pam2.py` | Pam2, Pam2Measures, Pipeline, AutoLevels, FloatPam2, FloatMeasures, FloatHorizontal, FloatVecp | C44-C46, C54, C56, C60-C63, C69-C72, C74-C76, C78, C91, C92, C94, C96, C97, C99, C102, C103, C108, C110, C111, C113, C118-C120 |
| `measurement/eyediagram/cdr.py`, `_cdr_fb.py`, `_cdr.pyx` | Cdr, CdrFft, FloatCdr, FloatSearch | C48-C50, C64, C65, C98, C106, C107, C12 |
| `clock.py` | Clock, FloatClock | C53, C106 |

Notes on single models:

* Lines: one loop iteration of the rasteriser as a function on `(x, y, err)`, the loop with fuel that is proved to
  suffice.  `edges` is a state machine over samples.
* LinesC, EyeC: second models, of the compiled versions, with C integer and array semantics where they matter
  (reads outside of an array give an arbitrary value); the properties compare them with the fallback.
* Line2D: the normalisation and the 10 eps tolerance of `orientation` are an exact sign of the cross product with an
  explicit tolerance; the division by zero at the origin is kept.
* Equipment: the resource is an abstract handle with open and close events; regular expressions of drivers are
  abstract predicates in `connect`, the built-in ones are explicit recognisers.
* Autoscale, Acquire, ScopeInit: an arbitrary instrument whose replies depend on everything it received.
* Tek: the instrument is an arbitrary key/value store that accepts abbreviations and reformats numbers.
* Wave, Wfm: byte lists.
* Cdr: the sort of the scores is any sort, the list of finer searches a parameter (the two versions differ in it).
* CdrFft: the filter for any pair of transforms, and numpy's.
* Pam2, Pipeline: the levels
  measured in step 1 are a parameter, the clock recovery and the mask are parameters and are instantiated in C69-C71.
* AutoLevels: the measurement of the levels in step 1.  The Gaussian mixture fit and the standard deviation of samples
  that are not all equal are parameters.  GaussianFit models both over the reals, with the optimiser as a parameter.

### Not modelled

Float rounding other than in C80-C82, C86, C87, C90, C98-C119; the optimisers of scipy and sklearn (parameters of GaussianFit); the drawing functions of
skimage and the colour map of matplotlib (parameters of Draw), PIL (encoding and writing of images), base64; the text of JSON files and of formatted numbers (parameters of Report); logging;
pyvisa; `setup.py`.

## 4. What the code does instead of the stated property

Each line is a theorem `_fails` (or the reason for a `_partial`).

* C06 (C07, C69) `edges`: a waveform that starts between the falling threshold and the half level and then drops has a
  first falling edge at nan; `PAM2.calculate` then raises ValueError.
* C11 `Line2D.intersecting`: ZeroDivisionError with a point at the origin; relative tolerance.
* C12 compiled versions: `sample_horizontal` gives other edge times, `hits_np` another shape without hits; `crossing` and `edges` round their
  thresholds to single precision (no edges of a square wave of amplitude 2 on an offset of 2^24); `minimize_tie_disjoints` raises ZeroDivisionError if
  all edges are in one period;
  `minimize_tie_disjoints` uses another step width for 100000 edges.
* C18 `time_str` prints 60.00 seconds from 59.995 s on.
* C22 a resource that is not message based is opened and never closed.
* C23 the table of drivers selects `MSO456Family` for models that it then rejects (MSO45).
* C26 `autoscale` raises TimeoutError although the tenth attempt settles; the record length is not restored if an
  acquisition raises.
* C28 pulse triggers `<=` read back as `<`; the level of an edge trigger on the mains line is not sent (4/5/6).
* C29 the trigger type is switched before the source is checked.
* C31 labels with an apostrophe are sent as a malformed string.
* C33 `inverted` always reads True.  Likewise `_aux` of the 4000 family: `bool` of a text that is never empty.
* C34 LESSEQUAL and MOREEQUAL are parsed as LESS and MORE; texts that begin like an abbreviation are changed.
* C35 samples that contain the bytes of the curve marker are rejected; unsigned samples are compared with signed limits.
* C36 a smaller length field can go unnoticed; a bad fraction of the trigger time raises OverflowError.
* C37 wfm files with unequal pre- and postcharge are rejected; samples are taken from the wrong place if the curve buffer
  has other content.
* C38 an all-zero waveform, clipped samples with an LSB above 1, and codes beyond the limits are dithered wrongly.
* C39, C40 converting a mask twice with `zero_ref=False` turns it around; adjusting before converting forgets the units.
* C41 with mask limits beyond 0.5 UA the hits are not monotone in the margin.
* C43 windows are shifted by up to half a sample unless the first sample's time is a multiple of the sample period
  (`b % t_delta`).
* C46 (C70, C71) a record of ones is decoded as zeros (NRZL); wide decision windows; TypeError when measures were skipped.
* C48 `CDR.run` raises IndexError without edges (documented: ValueError).
* C51 `PAM2Config(consume=1)` is accepted, the documented `time_hight` is not.
* C54 inverted manual levels are not reported as low SNR.
* C55 (C69) `_uia_to_image` maps 1.5 outside of the image: IndexError for edge levels there.
* C61 with only the level of a 0 given, zero + amplitude is not the level of a 1.
* C62 `y_0_cross`, `y_1_cross` are sampled at the centre of the symbol.
* C63 levels from narrow windows can be on the wrong side of the threshold; the extinction ratio is above 1.
* C67 the last wait of `single` ignores the timeout.
* C73 a 4/5/6 series construction that fails on DISPLAY? leaves HEADER ON.
* C69 equal levels with a mask: ZeroDivisionError in `convert`.
* C74 constant signals, signals with a rare level and periodic signals whose period divides the decimation step (ones and
  zeros in turn, 5 samples per symbol, 200000 samples) have no levels: ValueError;
  `levels_n_max = 0` divides by zero.
* C76 an origin of time that moves by part of a sample changes the evaluated symbols; the order of the scores of the period
  search depends on the unit of time.
* C78 the sampling interval of the first waveform is used for all waveforms, so for different intervals the order changes the symbols; automatic
  levels from more than ten times the configured number of points decimate all waveforms in a row, so the order changes which samples are used.
* C80 in doubles, segments that meet in an end point (a waveform sample on the corner of a mask) may be reported not to meet, and
  segments that do not meet to meet.
* C81 in doubles, `downsample` may lose one sample per bin: of 49 equal samples reduced to one, none is left.
* C98 in doubles, `CDR.run` may return a clock edge after the last data edge: `ceil` of a rounded quotient (edges at 1, 2 and 4 times a period of
  0.05 give four clock edges for three symbols).
* C79 without a mask, `save_json` writes `NaN` for the margin and the number of bad symbols, which standard JSON does not allow.
* C19, C77 `layer_rgba` leaves uninitialised memory in transparent pixels; if it holds nan or inf, the next layer shows nan there.
* C84 the dictionary of a mask that is not converted tells neither `zero_ref` nor which parameters are in real units.
* C85 calculating again: clock edges are kept, so settings that change the clock (`fallback_period`, `cdr`, `clock_polarity`, levels) have no effect;
  if the clock could not be found, `_clock_edges` stays too short and every later calculation raises; skipping the measures after a mask was used
  raises TypeError (`adjust(None)`), otherwise the old bits can still be read; `config.cdr` is set to a recovery with the period of the first
  calculation and shared by all eye diagrams with that configuration.
* C86 the heat map in single precision loses counts above 2^24 in a cell.
* C92 upside down, a symbol whose average is exactly at the threshold is a zero again, a signal without edges has the bits 0 again, and a signal that
  only touches the threshold of rising edges has one edge more or less.
* C94 the NRZ-L bits of a record without transitions are zeros even at the high level; a longer record with a falling edge turns them into ones.
* C95 a mask inside another one can have the smaller margin: adjusting a mask keeps the length of its top in proportion to its width, so a rectangle
  grows into corners that a hexagon around it does not reach.
* C93 with wider thresholds, a signal that starts between them has one falling edge more.
* C87 with nan in uninitialised memory, the stacked picture has undefined colours below the mask; values above 1 have no byte.
* C101 in doubles, a random number within rounding of 1 moves a sample by exactly half the least significant bit: the code below
  the upper limit then reads as clipped, the lower limit as not clipped.
* C109 in doubles, a crossing just before the unit interval is a hit at -2^-55: the times of the bathtub curve, which starts at 0, are not in order.
* C114 in doubles, `Line2D.intersecting` misses a point in which two segments touch if another of the points is much nearer to the origin: the tolerance is
  relative to the cube root of the product of the squared distances and then smaller than the rounding errors.  `Line2D.intersection` returns a far away
  point for parallel lines if a difference of coordinates is rounded.
* C117 the centre of a mixture is not where the peak occurs if the highest component is narrow and lies between two points of the grid: three components of
  deviation 1/100 with means 0, 500.5 and 999 have a centre near 0 or 999, the mixture is 50 times as high at 500.5.
* C104 in doubles, `time_str(-1e-17, sub=False)` is `-1:59:60`: the remainder of a small negative duration is rounded to 60 s.
