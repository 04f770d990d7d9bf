import Verif.Model.LinesC
import Verif.Model.Eye

/-!
Model of `hardware_tools/measurement/eyediagram/_eyediagram.pyx`, the compiled version of `_eyediagram_fb.py`.
-/

namespace Verif.EyeC

open Verif Verif.Lines Verif.LinesC Verif.Eye

/-- `t` and `y` of one symbol, `_eyediagram.pyx:74-79,162-167`: copied one by one, without bounds check. -/
def windowC (mem : ℤ → ℚ) (ys : List ℚ) (tSym tDelta : ℚ) (c : Center) : List Pt :=
  let w := iWidth tSym tDelta
  let t0 := gridT tSym tDelta
  (List.range (2 * w + 1).toNat).map fun ii : ℕ => (t0.getD ii 0 + c.t / tSym, peek mem ys (c.i - w + ii))

/-- The `while` loop, `_eyediagram.pyx:87-90`, with `mask_margin` loaded ahead. -/
def advanceC (junk : Pt) (w : List Pt) : List (List (List Pt)) → ℕ → ℕ
  | [], k => k
  | p :: rest, k => if isHittingC junk w p then advanceC junk w rest (k + 1) else k

/-- The body of the loop over the symbols, `_eyediagram.pyx:73-98`. -/
def maskStepC (junk : Pt) (paths : List (List (List Pt))) (zero : List (List Pt)) (iZero : ℕ) (s : MaskState) (iw : ℕ × List Pt) :
    Except PyErr MaskState := do
  let m := advanceC junk iw.2 (paths.drop s.iMargin) s.iMargin
  if m < iZero then return { s with iMargin := m }
  let h ← hitsNpC junk iw.2 zero
  if h.length > 0 then return ⟨m, s.offenders ++ [iw.1], s.hits ++ h⟩
  return { s with iMargin := m }

/-- `sample_mask_c`, `_eyediagram.pyx:17-101`. -/
def sampleMaskC (mem : ℤ → ℚ) (junk : Pt) (y : List ℚ) (centers : List Center) (tDelta tSym yZero yUa : ℚ) (paths : List (List (List Pt)))
    (margins : List ℚ) : Except PyErr MaskOut := do
  let iZero := margins.length / 2
  let ws := centers.map (windowC mem (normalise y yZero yUa) tSym tDelta)
  let s ← ((List.range ws.length).zip ws).foldlM (maskStepC junk paths (paths.getD iZero []) iZero) ⟨0, [], []⟩
  return ⟨s.offenders, s.hits, ← marginAt margins s.iMargin⟩

/-- `y_slice_c`, `_eyediagram.pyx:112-180`, for one level. -/
def ySliceC (mem : ℤ → ℚ) (junk : Pt) (w : Wf) (tDelta tSym yZero yUa level : ℚ) : Except PyErr (List ℚ) :=
  w.centers.foldlM (fun acc c => do
    let h ← hitsNpC junk (windowC mem (normalise w.y yZero yUa) tSym tDelta c) [[(0, level), (1, level)]]
    return if h.length > 0 then acc ++ h.map Prod.fst else acc) []

/-- `l[i]` of an `int32` array without bounds check. -/
def peekInt (mem : ℤ → ℤ) (l : List ℤ) (i : ℤ) : ℤ := if 0 ≤ i ∧ i < l.length then l.getD i.toNat 0 else mem i

/-- The pixels of one symbol, `_eyediagram.pyx:226-245`: the values are scaled and truncated before the loop, the times are scaled first and
shifted then. -/
def pixelsC (mem : ℤ → ℤ) (y : List ℚ) (tDelta tSym minY maxY : ℚ) (resolution : ℕ) (c : Center) : List (ℤ × ℤ) :=
  let w := iWidth tSym tDelta
  let t0 := (gridT tSym tDelta).map fun x : ℚ => (x + 1 / 2) / 2 * resolution
  let yd := (y.map fun v => (v - minY) / (maxY - minY)).map fun v => pyInt (v * resolution)
  let ct := c.t / tSym / 2 * resolution
  (List.range (2 * w + 1).toNat).map fun ii : ℕ => (pyInt (t0.getD ii 0 + ct), peekInt mem yd (c.i - w + ii))

/-- `stack_c`, `_eyediagram.pyx:192-250`. -/
def stackC (mem : ℤ → ℤ) (junk : ℤ × ℤ) (y : List ℚ) (centers : List Center) (tDelta tSym minY maxY : ℚ) (resolution : ℕ)
    (pointCloud : Bool) (g : Grid) : Except PyErr Grid :=
  centers.foldlM (fun g c =>
    let px := pixelsC mem y tDelta tSym minY maxY resolution c
    if pointCloud then .ok (drawPointsC px g) else drawC junk px g) g

end Verif.EyeC
