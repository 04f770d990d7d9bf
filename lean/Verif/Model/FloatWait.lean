import Verif.Model.Equipment
import Verif.Model.Float

/-!
`Equipment.ask_and_wait` of `hardware_tools/equipment/equipment.py` with IEEE doubles: `Verif.Equip.askAndWait`, but the number of polls is
computed from rounded numbers.
-/

namespace Verif.Equip

open Verif Verif.Float

/-- `interval = 0.05` as a double, equipment.py:112. -/
def intervalF : ℚ := nearest (1 / 20)

/-- `int(timeout / interval)` in doubles, equipment.py:113.  Infinities and nan are not modelled. -/
def countF (timeout : ℚ) : ℤ := pyTrunc (nearest (timeout / intervalF))

/-- `Equipment.ask_and_wait` in doubles, equipment.py:93-130. -/
def askAndWaitF (cmd : String) (states : List String) (timeout : ℚ) (extra : Option String) (reply : ℕ → String) :
    Except PyErr String × List Ev :=
  let r := waitLoop cmd extra states reply (countF timeout) 0 (poll cmd extra)
  if r.1 < 0 then (.error .timeout, r.2.2) else (.ok r.2.1, r.2.2)

end Verif.Equip
