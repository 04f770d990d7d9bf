import Verif.Model.Base

/-!
Model of `hardware_tools/math/image.py` (`layer_rgba`; the PNG writers are in Verif.Model.Png).
-/

namespace Verif.Image

open Verif

/-- An array of floats with its shape (`shape[2]` is the channel count of a proper image).  `none` is a value that is not finite: nan or an
infinity; simplification: the two are not distinguished, `inf * 0` and `nan * 0` are both nan. -/
structure Img where
  shape : List ℕ
  px : ℕ → ℕ → ℕ → Option ℚ

/-- `alpha_out` of one pixel, `image.py:34-36`; `aa`, `ab` are the alphas above and below. -/
def alphaOut (aa ab : Option ℚ) : Option ℚ := Option.map₂ (fun a b => a + b * (1 - a)) aa ab

/-- `above * alpha_a + below * alpha_b * (1 - alpha_a)`, `image.py:39-40`. -/
def mix (ca aa cb ab : Option ℚ) : Option ℚ :=
  Option.map₂ (fun x y => x + y) (Option.map₂ (fun c a => c * a) ca aa)
    (Option.map₂ (fun x a => x * (1 - a)) (Option.map₂ (fun c b => c * b) cb ab) aa)

/-- One colour channel of one pixel, `image.py:38-52`.  Where `alpha_out` is zero `np.divide(..., where=...)` leaves
uninitialised memory: `junk`. -/
def colour (junk ca aa cb ab : Option ℚ) : Option ℚ :=
  if alphaOut aa ab ≠ some 0 then Option.map₂ (fun x a => x / a) (mix ca aa cb ab) (alphaOut aa ab) else junk

/-- `layer_rgba`, `image.py:11-54`, for float images. -/
def layer (junk : ℕ → ℕ → ℕ → Option ℚ) (below above : Img) : Except PyErr Img :=
  if below.shape ≠ above.shape then .error .valueError
  else
    match below.shape[2]? with
    | none => .error .indexError
    | some c =>
      if c ≠ 4 then .error .valueError
      else .ok
        { shape := below.shape
          px := fun i j k =>
            if k < 3 then colour (junk i j k) (above.px i j k) (above.px i j 3) (below.px i j k) (below.px i j 3)
            else alphaOut (above.px i j 3) (below.px i j 3) }

end Verif.Image
