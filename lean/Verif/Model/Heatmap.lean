import Verif.Model.Eye
import Verif.Model.LinesC

/-!
The heat map of `hardware_tools/measurement/eyediagram/eyediagram.py` as it is stored: in single precision.
-/

namespace Verif.Heatmap

open Verif Verif.Eye Verif.Lines Verif.LinesC Verif.Float

/-- `np.sum` of a line in single precision, eyediagram.py:870.  Simplification: from left to right; numpy adds in pairs, which gives the same if all
partial sums are exact. -/
def sum32 (l : List ℚ) : ℚ := l.foldl (fun a c => single (a + c)) 0

/-- One value before the turn, eyediagram.py:865-870: `astype(np.float32)` and, in point cloud mode, the scaling.  `D` and `M` are the roundings of
the division and of the multiplication: single precision, or double precision with a conversion to single precision at the end, depending on
numpy's rules for scalars. -/
def scaled32 (D M : Rounding) (g : Grid) (n : ℕ) (pointCloud : Bool) (x y : ℕ) : ℚ :=
  if pointCloud then
    M.fl (single (g.cell x y) * D.fl (n / max 1 (sum32 ((List.range g.ny).map fun y : ℕ => single (g.cell x y)))))
  else single (g.cell x y)

/-- `_raw_heatmap`, eyediagram.py:857-873. -/
def heatmap32 (D M : Rounding) (g : Grid) (n : ℕ) (pointCloud : Bool) : ℕ → ℕ → ℚ := rot90 g.ny (scaled32 D M g n pointCloud)

/-- One value of the normalised heat map, eyediagram.py:877-884, with a division in single precision: nan where there is no count. -/
def fraction32 (res : ℕ) (heat : ℕ → ℕ → ℚ) (r c : ℕ) : Option ℚ :=
  if heat r c = 0 then none
  else ((((List.range res).flatMap fun r : ℕ => (List.range res).map fun c : ℕ => heat r c).filter (· ≠ 0)).max?).map fun m => single (heat r c / m)

end Verif.Heatmap
