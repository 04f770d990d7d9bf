import Verif.Model.Lines
import Verif.Model.Mask
import Verif.Model.Stats

/-!
Model of the eye diagram's encoding independent part, `hardware_tools/measurement/eyediagram/eyediagram.py` and
`_eyediagram_fb.py`.

Floats are exact rationals; nan is `none`.  Printing, debug plots and the coloured images are not modelled.  The sample and the symbol
period are taken to be positive: python would divide by zero (inf, nan, OverflowError) where the model divides by 0.
-/

namespace Verif.Eye

open Verif Verif.Lines Verif.Mask

/-! ### Symbol windows -/

/-- `int(x)`: towards zero. -/
def pyInt (x : ℚ) : ℤ := if 0 ≤ x then ⌊x⌋ else ⌈x⌉

/-- `b % d` for floats with `d > 0`. -/
def pyMod (b d : ℚ) : ℚ := b - d * ⌊b / d⌋

/-- `i_width`, eyediagram.py:622, _eyediagram_fb.py:33,84,133. -/
def iWidth (tSym tDelta : ℚ) : ℤ := pyInt (tSym / tDelta + 1 / 2) + 2

/-- One sampled symbol: an entry of `_centers_i` and of `_centers_t`. -/
structure Center where
  i : ℤ
  t : ℚ
  deriving DecidableEq

/-- The body of the loop over the clock edges, eyediagram.py:631-638. -/
def sampleEdge (tSym tDelta tZero : ℚ) (maxI : ℕ) (b : ℚ) : Option Center :=
  let centerT := pyMod b tDelta
  let centerI := pyInt ((b - tZero - centerT) / tDelta + 1 / 2)
  if centerI - iWidth tSym tDelta < 0 ∨ centerI + iWidth tSym tDelta ≥ maxI then none else some ⟨centerI, -centerT⟩

/-- `_step3_sample` for one waveform, eyediagram.py:627-641. -/
def sampleEdges (tSym tDelta tZero : ℚ) (maxI : ℕ) (edges : List ℚ) : List Center := edges.filterMap (sampleEdge tSym tDelta tZero maxI)

/-- `l[a:b]`: negative bounds count from the end, bounds are clipped. -/
def pySlice {α : Type} (l : List α) (a b : ℤ) : List α :=
  let fix := fun x : ℤ => if x < 0 then (x + l.length).toNat else min x.toNat l.length
  (l.take (fix b)).drop (fix a)

/-- `t0`, _eyediagram_fb.py:33-37, 84-87, 133-137: `np.linspace` with `2 * i_width + 1` points. -/
def gridT (tSym tDelta : ℚ) : List ℚ :=
  let w := iWidth tSym tDelta
  let tw := w * tDelta / tSym
  Stats.linspace (1 / 2 - tw) (1 / 2 + tw) (2 * w).toNat

/-- `t` and `y` of one symbol, _eyediagram_fb.py:49-53, 92-96, 147-151: the times in UI and the values.  Simplification: a list of points,
shortened if one of the lists is shorter (numpy raises). -/
def window (ys : List ℚ) (tSym tDelta : ℚ) (c : Center) : List Pt :=
  let w := iWidth tSym tDelta
  ((gridT tSym tDelta).map (· + c.t / tSym)).zip (pySlice ys (c.i - w) (c.i + w + 1))

/-- `(waveform_y - y_zero) / y_ua`, _eyediagram_fb.py:39,139. -/
def normalise (y : List ℚ) (yZero yUa : ℚ) : List ℚ := y.map fun v => (v - yZero) / yUa

/-! ### Mask -/

/-- The variables of `sample_mask`. -/
structure MaskState where
  iMargin : ℕ
  offenders : List ℕ
  hits : List Pt

/-- The `while` loop, _eyediagram_fb.py:153-155: the first index from which the symbol does not hit. -/
def advance (w : List Pt) : List (List (List Pt)) → ℕ → Except PyErr ℕ
  | [], k => .ok k
  | p :: rest, k => do
    if ← isHitting w p then advance w rest (k + 1) else return k

/-- The body of the loop over the symbols, _eyediagram_fb.py:146-163. -/
def maskStep (paths : List (List (List Pt))) (zero : List (List Pt)) (iZero : ℕ) (s : MaskState) (iw : ℕ × List Pt) :
    Except PyErr MaskState := do
  let m ← advance iw.2 (paths.drop s.iMargin) s.iMargin
  if m < iZero then return { s with iMargin := m }
  let h ← hits iw.2 zero
  if h = [] then return { s with iMargin := m }
  return ⟨m, s.offenders ++ [iw.1], s.hits ++ h⟩

/-- The result of `sample_mask`. -/
structure MaskOut where
  offenders : List ℕ
  hits : List Pt
  margin : ℚ
  deriving DecidableEq

/-- `mask_margins[min(n_masks - 1, i_margin)]`, _eyediagram_fb.py:161: with no mask the index is -1. -/
def marginAt (margins : List ℚ) (k : ℕ) : Except PyErr ℚ :=
  match margins with
  | [] => .error .indexError
  | _ => pyGet margins (min (margins.length - 1) k)

/-- `sample_mask`, _eyediagram_fb.py:103-162.  `mask_paths` has an entry for every margin. -/
def sampleMask (y : List ℚ) (centers : List Center) (tDelta tSym yZero yUa : ℚ) (paths : List (List (List Pt))) (margins : List ℚ) :
    Except PyErr MaskOut := do
  let iZero := margins.length / 2
  let ws := centers.map (window (normalise y yZero yUa) tSym tDelta)
  let s ← ((List.range ws.length).zip ws).foldlM (maskStep paths (paths.getD iZero []) iZero) ⟨0, [], []⟩
  return ⟨s.offenders, s.hits, ← marginAt margins s.iMargin⟩

/-- The margins 1.000, 0.999, ... -1.000, eyediagram.py:775-777. -/
def margins : List ℚ := (List.range 2001).map fun i : ℕ => (1000 - (i : ℚ)) / 1000

/-- One waveform as the eye diagram holds it: values and sampled symbols. -/
structure Wf where
  y : List ℚ
  centers : List Center

/-- The result of `_sample_mask`: the offenders per waveform, all hits, the margin and the number of offenders. -/
structure MaskAll where
  offenders : List (List ℕ)
  hits : List Pt
  margin : ℚ
  count : ℕ
  deriving DecidableEq

/-- The loop over the waveforms, eyediagram.py:783-791. -/
def maskLoop (tDelta tSym yZero yUa : ℚ) (paths : List (List (List Pt))) : List Wf → MaskAll → Except PyErr MaskAll
  | [], a => .ok a
  | w :: rest, a => do
    let o ← sampleMask w.y w.centers tDelta tSym yZero yUa paths margins
    maskLoop tDelta tSym yZero yUa paths rest
      ⟨a.offenders ++ [o.offenders], a.hits ++ o.hits, min a.margin o.margin, a.count + o.offenders.length⟩

/-- The mask's paths for all margins, eyediagram.py:773-777. -/
def hexMaskPaths (m : Hexagon) : Except PyErr (List (List (List Pt))) := margins.mapM fun f => do (← m.adjust f).paths

/-- `_sample_mask` with a hexagon mask, eyediagram.py:758-793. -/
def sampleHexMask (m : Hexagon) (tDelta tSym yZero yUa : ℚ) (wfs : List Wf) : Except PyErr MaskAll := do
  let c ← m.convert yUa tSym
  maskLoop tDelta tSym yZero yUa (← hexMaskPaths c) wfs ⟨[], [], 1, 0⟩

/-- The mask's paths for all margins, eyediagram.py:773-777. -/
def decMaskPaths (m : Decagon) : Except PyErr (List (List (List Pt))) := margins.mapM fun f => do (← m.adjust f).paths

/-- `_sample_mask` with a decagon mask, eyediagram.py:758-793. -/
def sampleDecMask (m : Decagon) (tDelta tSym yZero yUa : ℚ) (wfs : List Wf) : Except PyErr MaskAll := do
  let c ← m.convert yUa tSym
  maskLoop tDelta tSym yZero yUa (← decMaskPaths c) wfs ⟨[], [], 1, 0⟩

/-! ### Bathtub curves -/

/-- The intersections of one waveform's symbols with one level, `y_slice`, _eyediagram_fb.py:12-59. -/
def ySlice (w : Wf) (tDelta tSym yZero yUa level : ℚ) : Except PyErr (List ℚ) :=
  w.centers.foldlM (fun acc c => do
    let h ← hits (window (normalise w.y yZero yUa) tSym tDelta c) [[(0, level), (1, level)]]
    return acc ++ h.map Prod.fst) []

/-- `np.sort`. -/
def sort (l : List ℚ) : List ℚ := l.mergeSort (· ≤ ·)

/-- The curve from the times of all hits, eyediagram.py:733-755: points of time and bit error rate. -/
def bathtub (hits : List ℚ) : List (ℚ × ℚ) :=
  let h := sort hits
  let left := h.filter (· ≤ 1 / 2)
  let right := h.filter (· > 1 / 2)
  let berL := (List.range left.length).map fun i : ℕ => 1 - (i : ℚ) / left.length
  let berR := (List.range right.length).reverse.map fun i : ℕ => 1 - (i : ℚ) / right.length
  (0, 1) :: (left.zip berL ++ right.zip berR ++ [(1, 1)])

/-- `_generate_bathtub_curves` for one level, eyediagram.py:713-756. -/
def bathtubCurve (wfs : List Wf) (tDelta tSym yZero yUa level : ℚ) : Except PyErr (List (ℚ × ℚ)) := do
  let h ← wfs.mapM fun w => ySlice w tDelta tSym yZero yUa level
  return bathtub h.flatten

/-! ### Image -/

/-- `_uia_to_image` with `return_list=False`, eyediagram.py:828-830. -/
def uiaPos (resolution : ℕ) (u : ℚ) : ℤ := pyInt ((u + 1 / 2) / 2 * resolution)

/-- `_uia_to_image`, eyediagram.py:814-833. -/
def uiaToImage (resolution : ℕ) (u : ℚ) : List ℤ :=
  if 0 ≤ uiaPos resolution u ∧ uiaPos resolution u ≤ resolution then [uiaPos resolution u] else []

/-- The pixels of one symbol, _eyediagram_fb.py:89-99. -/
def pixels (y : List ℚ) (tDelta tSym minY maxY : ℚ) (resolution : ℕ) (c : Center) : List (ℤ × ℤ) :=
  (window (y.map fun v => (v - minY) / (maxY - minY)) tSym tDelta c).map fun p =>
    (pyInt ((p.1 + 1 / 2) / 2 * resolution), pyInt (p.2 * resolution))

/-- `stack`, _eyediagram_fb.py:62-100. -/
def stack (y : List ℚ) (centers : List Center) (tDelta tSym minY maxY : ℚ) (resolution : ℕ) (pointCloud : Bool) (g : Grid) :
    Except PyErr Grid :=
  centers.foldlM (fun g c =>
    let px := pixels y tDelta tSym minY maxY resolution c
    if pointCloud then .ok (drawPoints px g) else draw px g) g

/-- The counts, eyediagram.py:847-863. -/
def stackAll (wfs : List Wf) (tDelta tSym yZero yUa : ℚ) (resolution : ℕ) (pointCloud : Bool) : Except PyErr Grid :=
  wfs.foldlM (fun g w => stack w.y w.centers tDelta tSym (-1 / 2 * yUa + yZero) (3 / 2 * yUa + yZero) resolution pointCloud g)
    ⟨resolution, resolution, fun _ _ => 0⟩

/-- The sum of one line of the count array, eyediagram.py:870. -/
def lineSum (g : Grid) (x : ℕ) : ℕ := ((List.range g.ny).map fun y : ℕ => g.cell x y).sum

/-- The scaling of a line in point cloud mode, eyediagram.py:866-870; without it the counts are only converted. -/
def scaled (g : Grid) (n : ℕ) (pointCloud : Bool) (x y : ℕ) : ℚ :=
  if pointCloud then g.cell x y * ((n : ℚ) / max 1 (lineSum g x)) else g.cell x y

/-- `np.rot90`, eyediagram.py:873: the element in row `r` and column `c` of the turned array. -/
def rot90 (ny : ℕ) (a : ℕ → ℕ → ℚ) (r c : ℕ) : ℚ := a c (ny - 1 - r)

/-- `_raw_heatmap`, eyediagram.py:857-873.  Simplification: exact; `Heatmap.heatmap32` has the roundings of `np.float32`. -/
def heatmap (g : Grid) (n : ℕ) (pointCloud : Bool) : ℕ → ℕ → ℚ := rot90 g.ny (scaled g n pointCloud)

/-! ### Clock -/

/-- `np.arange(start, stop, step)` for a positive step. -/
def arange (start stop step : ℚ) : List ℚ := (List.range (⌈(stop - start) / step⌉).toNat).map fun i : ℕ => start + i * step

/-- The clock of one waveform with a fixed period, eyediagram.py:550-554. -/
def fallbackEdges (t : List ℚ) (period : ℚ) : Except PyErr (List ℚ) :=
  match t.head?, t.getLast? with
  | some first, some last => if period = 0 then .error .zeroDivision else .ok (arange (first + period) last period)
  | _, _ => .error .indexError

/-- `np.diff`. -/
def diffs : List ℚ → List ℚ
  | a :: b :: rest => (b - a) :: diffs (b :: rest)
  | _ => []

/-- `np.mean`; nan for no values. -/
def mean (l : List ℚ) : Option ℚ := if l = [] then none else some (l.sum / l.length)

/-- The symbol period, eyediagram.py:559-567; nan without a period.  ValueError if there is no waveform. -/
def symbolPeriod (edges : List (List ℚ)) : Except PyErr (Option ℚ) :=
  if edges = [] then .error .valueError
  else
    let periods := (edges.map diffs).flatten
    match mean periods with
    | none => .ok none
    | some m => .ok (mean (periods.filter (· < 10 * m)))

/-! ### Configuration -/

/-- The attributes of a configuration object: the instance's, by name, in order of definition.  `α` is the type of python values. -/
structure Config (α : Type) where
  attrs : List (String × α)

/-- The attributes of the class, eyediagram.py:284-355.  Simplification: those that every python object has (`__init__` ...) are left out. -/
def classAttrs : List String := ["consume"]

/-- `hasattr(self, k)`. -/
def Config.has {α : Type} (c : Config α) (k : String) : Bool := (c.attrs.map Prod.fst).contains k || classAttrs.contains k

/-- The value of an attribute of the instance. -/
def Config.get? {α : Type} (c : Config α) (k : String) : Option α := c.attrs.lookup k

/-- `setattr(self, k, v)`. -/
def Config.set {α : Type} (c : Config α) (k : String) (v : α) : Config α :=
  if (c.attrs.map Prod.fst).contains k then ⟨c.attrs.map fun a => if a.1 = k then (k, v) else a⟩ else ⟨c.attrs ++ [(k, v)]⟩

/-- `Config.consume`, eyediagram.py:343-355: the object afterwards, and the exception. -/
def Config.consume {α : Type} (c : Config α) : List (String × α) → Config α × Option PyErr
  | [] => (c, none)
  | (k, v) :: rest => if c.has k then (c.set k v).consume rest else (c, some .keyError)

/-- The names in `Config.__init__`, eyediagram.py:311-341. -/
def baseNames : List String :=
  ["hysteresis", "hysteresis_ua", "levels_n_max", "clock_polarity", "cdr", "fallback_period", "skip_measures", "level_width",
   "cross_width", "time_height", "edge_lower", "edge_upper", "noise_floor", "point_cloud"]

/-- The names in `PAM2Config.__init__`, pam2.py:139-155. -/
def pam2Names : List String := baseNames ++ ["y_0", "y_1", "y_th"]

/-- `Config(**kwargs)`, `PAM2Config(**kwargs)`: an exception in the constructor leaves no object. -/
def Config.new {α : Type} (names : List String) (defaults : String → α) (kwargs : List (String × α)) : Except PyErr (Config α) :=
  match Config.consume ⟨names.map fun n => (n, defaults n)⟩ kwargs with
  | (c, none) => .ok c
  | (_, some e) => .error e

/-! ### Life cycle -/

/-- What is passed as `clock_edges`: something that is not a list, or a list whose elements are lists of times or something else. -/
inductive EdgesArg where
  | notList
  | list (l : List (Option (List ℚ)))

/-- An eye diagram object.  `ρ` is everything that is not modelled here (levels, centres, measures, images). -/
structure Obj (ρ : Type) where
  shape : List ℕ
  clockEdges : Option (List (List ℚ))
  calculated : Bool
  rest : ρ

/-- The shape as 3D, eyediagram.py:396-399. -/
def shape3 : List ℕ → Except PyErr (List ℕ)
  | [a, b] => .ok [1, a, b]
  | [a, b, c] => .ok [a, b, c]
  | _ => .error .valueError

/-- eyediagram.py:401-402. -/
def checkShape : List ℕ → Except PyErr Unit
  | [a, b, c] => if b ≠ 2 ∨ a > c then .error .valueError else .ok ()
  | _ => .error .valueError

/-- eyediagram.py:404-411. -/
def checkClocks (s : List ℕ) : Option (List ℕ) → Except PyErr Unit
  | none => .ok ()
  | some c => do
    let c ← shape3 c
    if c ≠ s then .error .valueError else .ok ()

/-- eyediagram.py:413-420.  Simplification: only the first element is checked, the others are taken to be lists if the first one is. -/
def checkEdges (s : List ℕ) : Option EdgesArg → Except PyErr (Option (List (List ℚ)))
  | none => .ok none
  | some .notList => .error .valueError
  | some (.list l) =>
    if l.length ≠ s.headD 0 then .error .valueError
    else match l with
      | [] => .error .indexError
      | none :: _ => .error .valueError
      | some e :: rest => .ok (some (e :: rest.map fun x => x.getD []))

/-- `EyeDiagram.__init__`, eyediagram.py:364-449: shapes instead of the arrays.  `self._waveforms[0, 0, -1]` needs a waveform. -/
def Obj.new {ρ : Type} (waveforms : List ℕ) (clocks : Option (List ℕ)) (edges : Option EdgesArg) (r : ρ) : Except PyErr (Obj ρ) := do
  let s ← shape3 waveforms
  checkShape s
  checkClocks s clocks
  let e ← checkEdges s edges
  if s.headD 0 = 0 then .error .indexError else return ⟨s, e, false, r⟩

/-- A calculation step: it changes the object and may raise. -/
abbrev Step (ρ : Type) := Obj ρ → Obj ρ × Option PyErr

/-- A step that neither touches the clock edges nor the flag (steps 1, 3, 4 and 5). -/
def plainStep {ρ : Type} (f : Obj ρ → ρ × Option PyErr) : Step ρ := fun o => let (r, e) := f o; ({ o with rest := r }, e)

/-- `_step2_clock`, eyediagram.py:531-567, pam2.py:300-333: the clock edges are found only if there are none yet.  `find` is the search (clock
waveforms, recovery, fixed period); an exception leaves the edges of the waveforms before. -/
def clockStep {ρ : Type} (find : Obj ρ → List (List ℚ) × Option PyErr) (f : Obj ρ → ρ × Option PyErr) : Step ρ := fun o =>
  match o.clockEdges with
  | some _ => plainStep f o
  | none =>
    match find o with
    | (l, some e) => ({ o with clockEdges := some l }, some e)
    | (l, none) => plainStep f { o with clockEdges := some l }

/-- Run steps until one raises. -/
def runSteps {ρ : Type} : List (Step ρ) → Step ρ
  | [], o => (o, none)
  | s :: rest, o =>
    match s o with
    | (o', some e) => (o', some e)
    | (o', none) => runSteps rest o'

/-- `calculate`, eyediagram.py:451-510. -/
def calculate {ρ : Type} (steps : List (Step ρ)) : Step ρ := fun o =>
  match runSteps steps o with
  | (o', some e) => (o', some e)
  | (o', none) => ({ o' with calculated := true }, none)

/-- `get_raw_heatmap`, `get_measures`, `get_clock_edges`, eyediagram.py:954-1021, and `get_bit_stream`, pam2.py:764-765. -/
def get {ρ α : Type} (f : Obj ρ → Except PyErr α) (o : Obj ρ) : Except PyErr α := if o.calculated then f o else .error .runtimeError

end Verif.Eye
