import Verif.Model.Eye

/-!
Model of the PAM2 (NRZ) eye diagram, `hardware_tools/measurement/eyediagram/pam2.py`, `_pam2_fb.py` and `_pam2.pyx`.

Floats are exact rationals; nan is `none`.  The sample period, the symbol period and the normalised amplitude are taken to be non-zero: python
would give inf or nan where the model divides by 0.  Printing and debug plots are not modelled.
-/

namespace Verif.Pam2

open Verif Verif.Lines Verif.Eye

/-! ### Step 1: levels -/

/-- The settings used by step 1: `y_0`, `y_1`, `y_th`, `hysteresis` and `hysteresis_ua`, pam2.py:144-146, eyediagram.py:311-313. -/
structure LevelConfig (K : Type) where
  y0 : Option K
  y1 : Option K
  yTh : Option K
  hys : Option K
  hysUa : K

/-- A measured level, `UncertainValue`. -/
structure Level (K : Type) where
  value : K
  stddev : K

/-- `_y_zero`, `_y_ua`, `_y_half`, `_y_rising`, `_y_falling` and `_low_snr`. -/
structure Levels (K : Type) where
  zero : K
  ua : K
  half : K
  rising : K
  falling : K
  lowSnr : Bool

section
variable {K : Type} [Field K] [LinearOrder K]

/-- The levels before they are overridden, pam2.py:219-229: measured unless both are given (no debug plots).  `m` is the result of
`_runner_levels`, pam2.py:805-853, whose fit is not modelled. -/
def startLevels (c : LevelConfig K) (m : Level K × Level K) : Level K × Level K :=
  if c.y0 = none ∨ c.y1 = none then m else (⟨0, 0⟩, ⟨0, 0⟩)

/-- `_step1_levels`, pam2.py:212-256.  Only the values of the uncertain results are used; the standard deviations are those of the
measurement. -/
def levels (c : LevelConfig K) (m : Level K × Level K) : Levels K :=
  let y0 : Level K := ⟨c.y0.getD (startLevels c m).1.value, (startLevels c m).1.stddev⟩
  let y1 : Level K := ⟨c.y1.getD (startLevels c m).2.value, (startLevels c m).2.stddev⟩
  let hys := match c.hys with
    | some h => h
    | none => c.hysUa * (y1.value - y0.value)
  let half := match c.yTh with
    | some h => h
    | none => (y1.value + y0.value) / 2
  ⟨y0.value, y1.value - y0.value, half, half + hys / 2, half - hys / 2,
    if y1.stddev + y0.stddev = 0 then false else decide ((y1.value - y0.value) / (y1.stddev + y0.stddev) < 2)⟩

/-- The update of the levels in step 4, pam2.py:451-459: `m0`, `m1` are the measured values; `amp = y_1 - y_0`, pam2.py:427. -/
def updateLevels (c : LevelConfig K) (m0 m1 : K) (l : Levels K) : Levels K :=
  let zero := match c.y0 with
    | none => m0
    | some _ => l.zero
  let ua := match c.y1 with
    | none => m1 - m0
    | some y => y - zero
  let half := match c.yTh with
    | none => ua / 2 + zero
    | some _ => l.half
  { l with zero := zero, ua := ua, half := half }

end

/-! ### Step 2: clock -/

/-- `EdgePolarity`, `math/lines.py`. -/
inductive Polarity where
  | rising
  | falling
  | both
  deriving DecidableEq

/-- `np.sort`: nan last. -/
def sortNan (l : List (Option ℚ)) : List (Option ℚ) :=
  l.mergeSort fun a b => match a, b with
    | some x, some y => decide (x ≤ y)
    | some _, none => true
    | none, some _ => false
    | none, none => true

/-- `_filter_edge_polarity`, pam2.py:785-802. -/
def filterPolarity (e : List (Option ℚ) × List (Option ℚ)) : Polarity → List (Option ℚ)
  | .rising => e.1
  | .falling => e.2
  | .both => sortNan (e.1 ++ e.2)

/-- A waveform: times and values. -/
abbrev Wave := List ℚ × List ℚ

/-- The selected edges of one waveform, pam2.py:310-312, 874-875. -/
def selectedEdges (w : Wave) (l : Levels ℚ) (p : Polarity) : Except PyErr (List (Option ℚ)) := do
  return filterPolarity (← edgesNp w.1 w.2 l.rising l.half l.falling) p

/-- `PAM2._step2_clock` up to `_clock_edges`, pam2.py:300-330 followed by eyediagram.py:547-554.  `cdr` is `CDR.run` of the configured
recovery (clock edges only), `period` the configured fallback period (`None * 1` etc. raise TypeError). -/
def clockEdges (given : Option (List (List (Option ℚ)))) (clocks : Option (List Wave)) (wfs : List Wave) (l : Levels ℚ) (p : Polarity)
    (cdr : List (Option ℚ) → Except PyErr (List (Option ℚ))) (period : Option ℚ) : Except PyErr (List (List (Option ℚ))) :=
  match given with
  | some e => .ok e
  | none =>
    match clocks with
    | some c => c.mapM fun w => selectedEdges w l p
    | none =>
      if l.lowSnr then
        wfs.mapM fun w => do
          match period with
          | none => .error .typeError
          | some t => return (← fallbackEdges w.1 t).map some
      else wfs.mapM fun w => do cdr (← selectedEdges w l p)

/-! ### Step 4: vertical measurement -/

/-- python indexing `l[i]` with an index of either sign. -/
def pyGetZ {α : Type} (l : List α) (i : ℤ) : Except PyErr α :=
  if 0 ≤ i then pyGet l i.toNat
  else if 0 ≤ i + l.length then pyGet l (i + l.length).toNat
  else .error .indexError

/-- The loop over the samples of one symbol, _pam2_fb.py:92-94, 214-216: times (UI) and values. -/
def points (ys : List ℚ) (tSym tDelta : ℚ) (c : Center) : Except PyErr (List Pt) :=
  (gridT tSym tDelta).zipIdx.mapM fun p => do
    let y ← pyGetZ ys (c.i - iWidth tSym tDelta + p.2)
    return (p.1 + c.t / tSym, y)

/-- `lo <= t <= hi`. -/
def within (lo hi t : ℚ) : Bool := decide (lo ≤ t) && decide (t ≤ hi)

/-- The sample lists of one symbol, _pam2_fb.py:85-113. -/
structure Samples where
  a : List ℚ
  b : List ℚ
  c : List ℚ
  sym : List ℚ
  cross : List ℚ
  symCross : List ℚ
  avg : List ℚ

/-- `abc_width`, _pam2_fb.py:44, _pam2.pyx:55. -/
def abcWidth (levelWidth tDelta tSym : ℚ) : ℚ := max levelWidth (101 / 100 * tDelta / tSym)

/-- The body of the loop over the samples, _pam2_fb.py:96-113.  The windows `a`, `b`, `c` are an `if`/`elif` chain. -/
def samples (levelWidth crossWidth abc : ℚ) (ps : List Pt) : Samples :=
  let inA := fun p : Pt => within (-1 / 2 - abc / 2) (-1 / 2 + abc / 2) p.1
  let inB := fun p : Pt => within (1 / 2 - abc / 2) (1 / 2 + abc / 2) p.1
  let inC := fun p : Pt => within (3 / 2 - abc / 2) (3 / 2 + abc / 2) p.1
  ⟨(ps.filter inA).map Prod.snd,
   (ps.filter fun p => !inA p && inB p).map Prod.snd,
   (ps.filter fun p => !inA p && !inB p && inC p).map Prod.snd,
   (ps.filter fun p => within (1 / 2 - levelWidth / 2) (1 / 2 + levelWidth / 2) p.1).map Prod.snd,
   (ps.filter fun p => within (0 - crossWidth / 2) (0 + crossWidth / 2) p.1).map Prod.snd,
   (ps.filter fun p => within (1 / 2 - levelWidth / 2) (1 / 2 + levelWidth / 2) p.1).map Prod.snd,
   (ps.filter fun p => within 0 1 p.1).map Prod.snd⟩

/-- `np.mean(samples) > y_half`, _pam2_fb.py:115-117: false for nan. -/
def above (yHalf : ℚ) (l : List ℚ) : Bool :=
  match mean l with
  | none => false
  | some m => decide (m > yHalf)

/-- `sym > (y_half * n)`, _pam2.pyx:139-141: sum and count instead of the list. -/
def aboveC (yHalf : ℚ) (l : List ℚ) : Bool := decide (l.sum > yHalf * l.length)

/-- The result of `sample_vertical`: the dictionary, with the transition counters by previous, current and next symbol. -/
structure VOut where
  y0 : List ℚ
  y1 : List ℚ
  cross : List ℚ
  y0Cross : List ℚ
  y1Cross : List ℚ
  avg : List ℚ
  trans : Bool → Bool → Bool → ℕ
  edgeDir : List ℤ

/-- `values` before the loop, _pam2_fb.py:61-79. -/
def VOut.empty : VOut := ⟨[], [], [], [], [], [], fun _ _ _ => 0, []⟩

/-- `transitions[seq] += 1`, _pam2_fb.py:140. -/
def bump (f : Bool → Bool → Bool → ℕ) (a b c : Bool) : Bool → Bool → Bool → ℕ := fun x y z =>
  if x = a ∧ y = b ∧ z = c then f x y z + 1 else f x y z

/-- What one symbol adds to the results, _pam2_fb.py:115-140, _pam2.pyx:139-164; `dec` is the decision. -/
def vStep (dec : List ℚ → Bool) (s : Samples) (v : VOut) : VOut :=
  let a := dec s.a
  let b := dec s.b
  let c := dec s.c
  { y0 := if b then v.y0 else v.y0 ++ s.sym
    y1 := if b then v.y1 ++ s.sym else v.y1
    cross := if a != b then v.cross ++ s.cross else v.cross
    y0Cross := if a != b then v.y0Cross else if b then v.y0Cross else v.y0Cross ++ s.symCross
    y1Cross := if a != b then v.y1Cross else if b then v.y1Cross ++ s.symCross else v.y1Cross
    avg := v.avg ++ s.avg
    trans := bump v.trans a b c
    edgeDir := v.edgeDir ++ [if a != b then (if b then 1 else -1) else 0] }

/-- `sample_vertical`, _pam2_fb.py:10-142. -/
def sampleVertical (ys : List ℚ) (centers : List Center) (tDelta tSym yHalf levelWidth crossWidth : ℚ) : Except PyErr VOut :=
  centers.foldlM (fun v c => do
    let ps ← points ys tSym tDelta c
    return vStep (above yHalf) (samples levelWidth crossWidth (abcWidth levelWidth tDelta tSym) ps) v) VOut.empty

/-- Reading an array without bounds check or wrap around (`boundscheck(False)`, `wraparound(False)`): outside of the array it is what is in memory. -/
def rawGet (mem : ℤ → ℚ) (ys : List ℚ) (i : ℤ) : ℚ := if 0 ≤ i ∧ i < ys.length then ys.getD i.toNat 0 else mem i

/-- The loop over the samples of one symbol, _pam2.pyx:113-115, 259-261. -/
def pointsC (mem : ℤ → ℚ) (ys : List ℚ) (tSym tDelta : ℚ) (c : Center) : List Pt :=
  (gridT tSym tDelta).zipIdx.map fun p => (p.1 + c.t / tSym, rawGet mem ys (c.i - iWidth tSym tDelta + p.2))

/-- `sample_vertical_c`, _pam2.pyx:15-166. -/
def sampleVerticalC (mem : ℤ → ℚ) (ys : List ℚ) (centers : List Center) (tDelta tSym yHalf levelWidth crossWidth : ℚ) : VOut :=
  centers.foldl (fun v c =>
    vStep (aboveC yHalf) (samples levelWidth crossWidth (abcWidth levelWidth tDelta tSym) (pointsC mem ys tSym tDelta c)) v) VOut.empty

/-! ### Step 4: horizontal measurement -/

/-- The result of `sample_horizontal`. -/
structure HOut where
  riseLower : List ℚ
  riseUpper : List ℚ
  riseHalf : List ℚ
  fallLower : List ℚ
  fallUpper : List ℚ
  fallHalf : List ℚ
  crossLeft : List ℚ
  crossRight : List ℚ
  deriving DecidableEq

/-- `values` before the loop, _pam2_fb.py:199-208. -/
def HOut.empty : HOut := ⟨[], [], [], [], [], [], [], []⟩

/-- The windows of `sample_horizontal`, _pam2_fb.py:186-197: `cross` is the normalised crossing level, nan without crossings. -/
structure HWin where
  lower : ℚ
  upper : ℚ
  cross : Option ℚ
  height : ℚ

/-- `y_cross_min <= y <= y_cross_max`, _pam2_fb.py:218. -/
def atCross (h : HWin) (y : ℚ) : Bool :=
  match h.cross with
  | none => false
  | some c => within (c - h.height / 2) (c + h.height / 2) y

/-- The crossing times, _pam2_fb.py:214-224, _pam2.pyx:263-269. -/
def crossStep (h : HWin) (v : HOut) (p : Pt) : HOut :=
  if atCross h p.2 then
    if within (-1 / 2) (1 / 2) p.1 then { v with crossLeft := v.crossLeft ++ [p.1] }
    else if 1 / 2 < p.1 ∧ p.1 ≤ 3 / 2 then { v with crossRight := v.crossRight ++ [p.1] }
    else v
  else v

/-- One sample of an edge, _pam2_fb.py:245-261, _pam2.pyx:274-290. -/
def edgeStep (h : HWin) (dir : ℤ) (v : HOut) (p : Pt) : HOut :=
  let v := if within (h.lower - h.height / 2) (h.lower + h.height / 2) p.2 then
      (if dir = 1 then { v with riseLower := v.riseLower ++ [p.1] } else { v with fallLower := v.fallLower ++ [p.1] }) else v
  let v := if within (h.upper - h.height / 2) (h.upper + h.height / 2) p.2 then
      (if dir = 1 then { v with riseUpper := v.riseUpper ++ [p.1] } else { v with fallUpper := v.fallUpper ++ [p.1] }) else v
  if within (1 / 2 - h.height / 2) (1 / 2 + h.height / 2) p.2 then
    (if dir = 1 then { v with riseHalf := v.riseHalf ++ [p.1] } else { v with fallHalf := v.fallHalf ++ [p.1] }) else v

/-- `np.argmin`: index of the first minimum. -/
def argmin : List ℚ → Except PyErr ℕ
  | [] => .error .valueError
  | a :: l => .ok ((l.zipIdx 1).foldl (fun m p => if p.1 < m.1 then p else m) (a, 0)).2

/-- `np.argmax`: index of the first maximum. -/
def argmax (l : List ℚ) : Except PyErr ℕ := argmin (l.map fun x => -x)

/-- Start and stop of an edge, _pam2_fb.py:228-240. -/
def edgeRange (ys : List ℚ) (w off : ℤ) (c : Center) (dir : ℤ) : Except PyErr (ℕ × ℕ) := do
  let front := pySlice ys (c.i - w) (c.i + 1)
  let center := pySlice ys (c.i - w + off) (c.i + off + 1)
  if dir = 1 then return (← argmin front, off.toNat + (← argmax center))
  else return (← argmax front, off.toNat + (← argmin center))

/-- One symbol, _pam2_fb.py:210-263; `ys` is normalised. -/
def hStep (ys : List ℚ) (tSym tDelta : ℚ) (h : HWin) (v : HOut) (ci : Center × ℤ) : Except PyErr HOut := do
  let ps ← points ys tSym tDelta ci.1
  let v := ps.foldl (crossStep h) v
  if ci.2 = 0 then return v
  let w := iWidth tSym tDelta
  let (start, stop) ← edgeRange ys w ((2 * w + 1) / 4) ci.1 ci.2
  let es ← (List.range' start (stop + 1 - start)).mapM fun ii => do
    let t ← pyGet (gridT tSym tDelta) ii
    let y ← pyGetZ ys (ci.1.i - w + ii)
    return ((t + ci.1.t / tSym, y) : Pt)
  return es.foldl (edgeStep h ci.2) v

/-- The windows, _pam2_fb.py:186-197. -/
def hWin (yZero yUa : ℚ) (yCross : Option ℚ) (height lower upper : ℚ) : HWin := ⟨lower, upper, yCross.map fun y => (y - yZero) / yUa, height⟩

/-- `sample_horizontal`, _pam2_fb.py:145-265.  Simplification: a direction for every symbol, as `sample_vertical` gives. -/
def sampleHorizontal (ys : List ℚ) (centers : List Center) (dirs : List ℤ) (tDelta tSym yZero yUa : ℚ) (yCross : Option ℚ)
    (height lower upper : ℚ) : Except PyErr HOut :=
  (centers.zip dirs).foldlM (hStep (normalise ys yZero yUa) tSym tDelta (hWin yZero yUa yCross height lower upper)) HOut.empty

/-- One symbol, _pam2.pyx:254-290. -/
def hStepC (mem : ℤ → ℚ) (ys : List ℚ) (tSym tDelta : ℚ) (h : HWin) (v : HOut) (ci : Center × ℤ) : HOut :=
  (pointsC mem ys tSym tDelta ci.1).foldl (fun v p =>
    let v := crossStep h v p
    if ci.2 = 0 ∨ p.1 > 1 / 2 then v else edgeStep h ci.2 v p) v

/-- `sample_horizontal_c`, _pam2.pyx:177-292. -/
def sampleHorizontalC (mem : ℤ → ℚ) (ys : List ℚ) (centers : List Center) (dirs : List ℤ) (tDelta tSym yZero yUa : ℚ) (yCross : Option ℚ)
    (height lower upper : ℚ) : HOut :=
  (centers.zip dirs).foldl (hStepC mem (normalise ys yZero yUa) tSym tDelta (hWin yZero yUa yCross height lower upper)) HOut.empty

/-! ### Bit stream -/

/-- The bits of one waveform, NRZM, pam2.py:768. -/
def bitsM (dirs : List ℤ) : List ℤ := dirs.map fun b => |b|

/-- The loop over the symbols, pam2.py:775-780. -/
def bitsFrom : ℤ → List ℤ → List ℤ
  | _, [] => []
  | s, d :: rest =>
    let s := if d = 1 then 1 else if d = -1 then 0 else s
    s :: bitsFrom s rest

/-- The bits of one waveform, NRZL, pam2.py:770-781. -/
def bitsL (dirs : List ℤ) : List ℤ :=
  let edges := dirs.filter (· ≠ 0)
  bitsFrom (if edges.length = 0 ∨ edges.head? = some 1 then 0 else 1) dirs

/-- `get_bit_stream`, pam2.py:750-782: the directions of the waveforms, `None` if step 4 skipped the measures. -/
def bitStream (calculated : Bool) (dirs : Option (List (List ℤ))) (nrzm : Bool) : Except PyErr (List (List ℤ)) :=
  if !calculated then .error .runtimeError
  else match dirs with
    | none => .error .typeError
    | some d => .ok (d.map fun l => if nrzm then bitsM l else bitsL l)

end Verif.Pam2
