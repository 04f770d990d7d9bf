import Verif.Model.Eye
import Verif.Model.Image
import Mathlib.Data.List.MinMax

/-!
Model of the images of `hardware_tools/measurement/eyediagram/eyediagram.py` (`_step5_stack`, `_draw_grid`, `_runner_draw_symbols`,
`Measures.save_images`) and of `pam2.py` (`_draw_grid`).  The drawing functions of skimage and the colour map of matplotlib are parameters.
Saving the images is modelled in Verif.Model.Png; their encoding is not modelled.
-/

namespace Verif.Draw

open Verif Verif.Lines Verif.Eye Verif.Image

/-- What is used of `skimage.draw` and `matplotlib.cm`: cells and coverage of an antialiased line between two points, the cells of a circle and of
a polygon inside an image of a resolution, and the colour of a value. -/
structure Library where
  lineAA : ℤ × ℤ → ℤ × ℤ → List ((ℤ × ℤ) × ℚ)
  circle : ℕ → ℤ → ℤ → ℤ → List (ℕ × ℕ)
  polygon : ℕ → List (ℤ × ℤ) → List (ℕ × ℕ)
  jet : Option ℚ → ℕ → ℚ

/-- An RGBA image of finite values, `np.zeros((resolution, resolution, 4))` and what is written to it, eyediagram.py:890-893, 1053. -/
def square (res : ℕ) (f : ℕ → ℕ → ℕ → ℚ) : Img := ⟨[res, res, 4], fun x y k => some (f x y k)⟩

/-- `np.rot90` of an image, eyediagram.py:938-941. -/
def turn (res : ℕ) (m : Img) : Img := ⟨m.shape, fun r c k => m.px c (res - 1 - r) k⟩

/-! ### The heat map -/

/-- `np.nanmax` of the heat map without zeros, eyediagram.py:880-883; `none` if there is no count (nan). -/
def heatMax (res : ℕ) (heat : ℕ → ℕ → ℚ) : Option ℚ :=
  (((List.range res).flatMap fun r : ℕ => (List.range res).map fun c : ℕ => heat r c).filter (· ≠ 0)).max?

/-- One value of the normalised heat map, eyediagram.py:877-884: nan where there is no count. -/
def fraction (res : ℕ) (heat : ℕ → ℕ → ℚ) (r c : ℕ) : Option ℚ :=
  if heat r c = 0 then none else (heatMax res heat).map fun m => heat r c / m

/-- `image_clean`, eyediagram.py:877-888. -/
def cleanImage (lib : Library) (res : ℕ) (heat : ℕ → ℕ → ℚ) : Img := square res fun r c k => lib.jet (fraction res heat r c) k

/-! ### The reference lines -/

/-- Whether `_uia_to_image(u)` contains the line `x`, eyediagram.py:804-812. -/
def onLine (res : ℕ) (u : ℚ) (x : ℕ) : Bool := decide ((x : ℤ) ∈ uiaToImage res u)

/-- Where `_draw_grid` writes an alpha of one, eyediagram.py:804-812, pam2.py:342-343.  `::3` are the multiples of three. -/
def gridOn (res : ℕ) (lower upper : ℚ) (x y : ℕ) : Bool :=
  onLine res 0 x || (onLine res (1 / 2) x && y % 3 == 0) || onLine res 1 x ||
  onLine res 0 y || (x % 3 == 0 && onLine res (1 / 2) y) || onLine res 1 y ||
  ([-1 / 4, 1 / 4, 3 / 4, 5 / 4] : List ℚ).any (fun u => (x % 10 == 0 && onLine res u y) || (onLine res u x && y % 10 == 0)) ||
  (x % 5 == 0 && onLine res lower y) || (x % 5 == 0 && onLine res upper y)

/-- `image_grid` before it is turned, eyediagram.py:803-812, pam2.py:335-343: yellow.  IndexError is modelled in `Pipeline.drawGrid`. -/
def gridImage (res : ℕ) (lower upper : ℚ) : Img :=
  square res fun x y k => if k < 2 then 1 else if k = 3 then (if gridOn res lower upper x y then 1 else 0) else 0

/-! ### The mask -/

/-- The cells of the polygons of a mask, eyediagram.py:899-902, 905-908. -/
def maskCells (lib : Library) (res : ℕ) (paths : List (List Pt)) : List (ℕ × ℕ) :=
  paths.flatMap fun path => lib.polygon res (path.map fun p => (uiaPos res p.1, uiaPos res p.2))

/-- `image_mask`, `image_margin` before they are turned, eyediagram.py:899-909: magenta, half transparent. -/
def maskImage (lib : Library) (res : ℕ) (paths : List (List Pt)) : Img :=
  square res fun x y k => if (x, y) ∈ maskCells lib res paths then (if k = 0 ∨ k = 2 then 1 else if k = 3 then 1 / 2 else 0) else 0

/-! ### The hits -/

/-- `radius`, eyediagram.py:913. -/
def radius (res : ℕ) : ℤ := pyInt (max 3 ((res : ℚ) / 500))

/-- The body of the loop over the hits, eyediagram.py:915-927: the positions already drawn and the cells that are opaque. -/
def hitStep (lib : Library) (res : ℕ) (s : List (ℤ × ℤ) × List (ℕ × ℕ)) (h : Pt) : List (ℤ × ℤ) × List (ℕ × ℕ) :=
  let x := uiaPos res h.1
  let y := uiaPos res h.2
  if 0 ≤ x ∧ x < res ∧ 0 ≤ y ∧ y < res ∧ (x, y) ∉ s.1 then ((x, y) :: s.1, s.2 ++ lib.circle res x y (radius res)) else s

/-- The cells of all circles, eyediagram.py:913-927. -/
def circles (lib : Library) (res : ℕ) (hits : List Pt) : List (ℕ × ℕ) := (hits.foldl (hitStep lib res) ([], [])).2

/-- A red image with some alpha, eyediagram.py:912, 1053-1054. -/
def red (res : ℕ) (a : ℕ → ℕ → ℚ) : Img := square res fun x y k => if k = 0 then 1 else if k = 3 then a x y else 0

/-- `img[rr, cc, 3] = val + (1 - val) * img[rr, cc, 3]` for the cells inside the image, eyediagram.py:1071-1077: all alphas are read before any is
written; a cell that occurs again gets the last value. -/
def blend (res : ℕ) (a : ℕ → ℕ → ℚ) (cells : List ((ℤ × ℤ) × ℚ)) : ℕ → ℕ → ℚ :=
  (cells.filter fun e : (ℤ × ℤ) × ℚ => decide (0 ≤ e.1.1 ∧ e.1.1 < (res : ℤ) ∧ 0 ≤ e.1.2 ∧ e.1.2 < (res : ℤ))).foldl
    (fun b (e : (ℤ × ℤ) × ℚ) (x y : ℕ) => if (x : ℤ) = e.1.1 ∧ (y : ℤ) = e.1.2 then e.2 + (1 - e.2) * a x y else b x y) a

/-- One segment, eyediagram.py:1066-1077: from `p` (index `ii - 1`) to `q` (index `ii`). -/
def strokeAA (lib : Library) (res : ℕ) (a : ℕ → ℕ → ℚ) (p q : ℤ × ℤ) : ℕ → ℕ → ℚ :=
  if q.1 < 0 ∨ (res : ℤ) < p.1 then a else blend res a (lib.lineAA q p)

/-- The alphas of `_runner_draw_symbols`, eyediagram.py:1024-1079.  The pixels are computed as in `stack`. -/
def drawSymbols (lib : Library) (y : List ℚ) (centers : List Center) (tDelta tSym minY maxY : ℚ) (res : ℕ) (indices : List ℕ) :
    Except PyErr (ℕ → ℕ → ℚ) :=
  indices.foldlM (fun a i => do
    let c ← pyGet centers i
    let px := pixels y tDelta tSym minY maxY res c
    return (px.zip px.tail).foldl (fun a s => strokeAA lib res a s.1 s.2) a) fun _ _ => 0

/-- The loop over the waveforms, eyediagram.py:930-935: the first two offenders of every waveform are drawn over the image.  `junk n` is the
uninitialised memory of the n-th call of `layer_rgba`. -/
def hitsLoop (lib : Library) (junk : ℕ → ℕ → ℕ → ℕ → Option ℚ) (res : ℕ) (tDelta tSym yZero yUa : ℚ) :
    List (Wf × List ℕ) → ℕ → Img → Except PyErr Img
  | [], _, m => .ok m
  | p :: rest, n, m => do
    let a ← drawSymbols lib p.1.y p.1.centers tDelta tSym (-1 / 2 * yUa + yZero) (3 / 2 * yUa + yZero) res (p.2.take 2)
    let m ← layer (junk n) m (red res a)
    hitsLoop lib junk res tDelta tSym yZero yUa rest (n + 1) m

/-- `image_hits` before it is turned, eyediagram.py:911-935.  `_sample_mask` gives a list of offenders for every waveform. -/
def hitsImage (lib : Library) (junk : ℕ → ℕ → ℕ → ℕ → Option ℚ) (res : ℕ) (tDelta tSym yZero yUa : ℚ) (wfs : List Wf) (all : MaskAll) :
    Except PyErr Img :=
  hitsLoop lib junk res tDelta tSym yZero yUa (wfs.zip all.offenders) 0
    (red res fun x y => if (x, y) ∈ circles lib res all.hits then 1 else 0)

/-! ### All images -/

/-- The images as `set_images` gets them, eyediagram.py:943-944. -/
structure Images where
  clean : Img
  grid : Img
  mask : Img
  hits : Img
  margin : Img

/-- What a mask gives for the images: the paths of the converted mask, the paths of the mask adjusted by the margin, the result of the sampling. -/
structure Shown where
  paths : List (List Pt)
  adjusted : List (List Pt)
  all : MaskAll

/-- The hexagon mask as shown, eyediagram.py:898-910: `m` is the converted mask. -/
def hexShown (m : Mask.Hexagon) (all : MaskAll) : Except PyErr Shown := do return ⟨← m.paths, ← (← m.adjust all.margin).paths, all⟩

/-- The decagon mask as shown, eyediagram.py:898-910: `m` is the converted mask. -/
def decShown (m : Mask.Decagon) (all : MaskAll) : Except PyErr Shown := do return ⟨← m.paths, ← (← m.adjust all.margin).paths, all⟩

/-- `_step5_stack` from the heat map on, eyediagram.py:875-944. -/
def images (lib : Library) (junk : ℕ → ℕ → ℕ → ℕ → Option ℚ) (res : ℕ) (lower upper tDelta tSym yZero yUa : ℚ) (wfs : List Wf)
    (heat : ℕ → ℕ → ℚ) (shown : Option Shown) : Except PyErr Images :=
  let clean := cleanImage lib res heat
  let grid := turn res (gridImage res lower upper)
  match shown with
  | none => .ok ⟨clean, grid, square res fun _ _ _ => 0, square res fun _ _ _ => 0, square res fun _ _ _ => 0⟩
  | some m => do
    let hits ← hitsImage lib junk res tDelta tSym yZero yUa wfs m.all
    return ⟨clean, grid, turn res (maskImage lib res m.paths), turn res hits, turn res (maskImage lib res m.adjusted)⟩

/-- The two stacked pictures of `save_images`, eyediagram.py:144-152. -/
def stacked (junk : ℕ → ℕ → ℕ → ℕ → Option ℚ) (m : Images) : Except PyErr (Img × Img) := do
  let a ← layer (junk 0) m.grid m.clean
  let a ← layer (junk 1) a m.mask
  let a ← layer (junk 2) a m.hits
  let b ← layer (junk 3) m.grid m.clean
  let b ← layer (junk 4) b m.margin
  return (a, b)

end Verif.Draw
