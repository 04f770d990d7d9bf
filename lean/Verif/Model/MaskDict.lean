import Verif.Model.Mask

/-!
Model of the dictionaries of the masks, `to_dict` of `hardware_tools/measurement/mask.py`, and of writing them to a json file.

Floats are exact rationals (json writes enough digits to read back the same float).
-/

namespace Verif.Mask

open Verif Verif.Lines

/-- A value of the dictionary of a mask: the name of its shape or a parameter. -/
inductive Entry where
  | text (s : String)
  | number (q : Qty)
  deriving DecidableEq

/-- A dictionary, in the order of insertion. -/
abbrev Dict := List (String × Entry)

/-- `MaskHexagon.to_dict`, mask.py:254-262. -/
def Hexagon.toDict (m : Hexagon) : Dict :=
  [("type", .text "hexagon"), ("x1", .number m.x1), ("x2", .number m.x2), ("y1", .number m.y1), ("yl", .number m.yl), ("yu", .number m.yu)]

/-- `MaskDecagon.to_dict`, mask.py:419-429. -/
def Decagon.toDict (m : Decagon) : Dict :=
  [("type", .text "decagon"), ("x1", .number m.x1), ("x2", .number m.x2), ("x3", .number m.x3), ("y1", .number m.y1), ("y2", .number m.y2),
    ("yl", .number m.yl), ("yu", .number m.yu)]

/-- `Mask.to_dict`, mask.py:106-115, inherited by subclasses that do not define their own; `Mask.paths` is mask.py:42-47. -/
def baseDict (converted : Bool) (paths : List (List Pt)) : Except PyErr (List (String × List (List Pt))) := do
  let p ← if converted then pure paths else .error .valueError
  return [("paths", p)]

/-- `json.loads(json.dumps(d))` of the dictionary of a mask, mask.py:109: a `RealUnits` (mask.py:10-13) is written as any other float. -/
def viaJson (d : Dict) : Dict := d.map fun e => (e.1, match e.2 with
  | .text s => .text s
  | .number q => .number (plain q.v))

end Verif.Mask
