import Verif.Model.Draw
import Verif.Model.FloatStats

/-!
`layer_rgba`, `np_to_file` and `np_to_base64` of `hardware_tools/math/image.py` in rounded arithmetic, and `Measures.save_images` of
`hardware_tools/measurement/eyediagram/eyediagram.py`.  What PIL does with the array of bytes (PNG encoding, writing the file) is not modelled:
a file is the array that it was given.
-/

namespace Verif.Png

open Verif Verif.Float Verif.Image Verif.Draw

/-- `alpha_out` of one pixel in floats, image.py:36. -/
def alphaOutF (R : Rounding) (aa ab : Option ℚ) : Option ℚ :=
  Option.map₂ (fun a b => R.fl (a + R.fl (b * R.fl (1 - a)))) aa ab

/-- The numerator of one channel in floats, image.py:39-40. -/
def mixF (R : Rounding) (ca aa cb ab : Option ℚ) : Option ℚ :=
  Option.map₂ (fun x y => R.fl (x + y)) (Option.map₂ (fun c a => R.fl (c * a)) ca aa)
    (Option.map₂ (fun x a => R.fl (x * R.fl (1 - a))) (Option.map₂ (fun c b => R.fl (c * b)) cb ab) aa)

/-- One colour channel of one pixel in floats, image.py:38-52; `junk` is uninitialised memory. -/
def colourF (R : Rounding) (junk ca aa cb ab : Option ℚ) : Option ℚ :=
  if alphaOutF R aa ab ≠ some 0 then Option.map₂ (fun x a => R.fl (x / a)) (mixF R ca aa cb ab) (alphaOutF R aa ab) else junk

/-- `layer_rgba` in floats, image.py:11-53. -/
def layerF (R : Rounding) (junk : ℕ → ℕ → ℕ → Option ℚ) (below above : Img) : Except PyErr Img :=
  if below.shape ≠ above.shape then .error .valueError
  else
    match below.shape[2]? with
    | none => .error .indexError
    | some c =>
      if c ≠ 4 then .error .valueError
      else .ok
        { shape := below.shape
          px := fun i j k =>
            if k < 3 then colourF R (junk i j k) (above.px i j k) (above.px i j 3) (below.px i j k) (below.px i j 3)
            else alphaOutF R (above.px i j 3) (below.px i j 3) }

/-- `(255 * image).astype("uint8")` of one value, image.py:65, 78: the product is rounded, then its fraction is cut off.  `none`: the result of
the conversion is undefined (the value does not fit or is not finite). -/
def byteOf (R : Rounding) : Option ℚ → Option ℕ
  | none => none
  | some v => if -1 < R.fl (255 * v) ∧ R.fl (255 * v) < 256 then some ⌊R.fl (255 * v)⌋.toNat else none

/-- The array that is given to `PIL.Image.fromarray`, image.py:65, 78. -/
structure Picture where
  shape : List ℕ
  px : ℕ → ℕ → ℕ → Option ℕ

/-- `np_to_file`, `np_to_base64`, image.py:56-79, up to the encoding.  Simplification: that PIL refuses arrays without rows or columns and arrays that
are not images is not modelled. -/
def picture (R : Rounding) (m : Img) : Picture := ⟨m.shape, fun i j k => byteOf R (m.px i j k)⟩

/-- The picture with the mask and the hits, eyediagram.py:145-147. -/
def stackHits (R : Rounding) (junk : ℕ → ℕ → ℕ → ℕ → Option ℚ) (m : Images) : Except PyErr Img := do
  let a ← layerF R (junk 0) m.grid m.clean
  let a ← layerF R (junk 1) a m.mask
  layerF R (junk 2) a m.hits

/-- The picture with the mask adjusted by the margin, eyediagram.py:150-151. -/
def stackMargin (R : Rounding) (junk : ℕ → ℕ → ℕ → ℕ → Option ℚ) (m : Images) : Except PyErr Img := do
  let a ← layerF R (junk 3) m.grid m.clean
  layerF R (junk 4) a m.margin

/-- `save_images`, eyediagram.py:123-152: the files written and how it ended.  `none`: there are no images (`255 * None` is a TypeError).  Writing a
file does not fail. -/
def saveImages (R : Rounding) (junk : ℕ → ℕ → ℕ → ℕ → Option ℚ) (images : Option Images) (base : String) (stack : Bool) :
    List (String × Picture) × Except PyErr Unit :=
  match images with
  | none => ([], .error .typeError)
  | some m =>
    let single : List (String × Picture) :=
      [(base ++ ".clean.png", picture R m.clean), (base ++ ".grid.png", picture R m.grid), (base ++ ".mask.png", picture R m.mask),
       (base ++ ".hits.png", picture R m.hits), (base ++ ".mask_margin.png", picture R m.margin)]
    if stack then
      match stackHits R junk m with
      | .error e => (single, .error e)
      | .ok a =>
        match stackMargin R junk m with
        | .error e => (single ++ [(base ++ ".png", picture R a)], .error e)
        | .ok b => (single ++ [(base ++ ".png", picture R a), (base ++ ".margin.png", picture R b)], .ok ())
    else (single, .ok ())

/-- The properties `image_clean`, `image_grid`, …, eyediagram.py:171-199, for one stored image: None or the encoded picture. -/
def imageProperty (R : Rounding) (m : Option Img) : Option Picture := m.map (picture R)

end Verif.Png
