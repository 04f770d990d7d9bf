import Verif.Model.Equipment
import Verif.Model.Scpi
import Verif.Model.Tek

/-!
Model of the construction of the oscilloscope drivers: `Scope.__init__`, `ch`, `d` (scope.py:417-460) and `_init_channels` (4000 is
family_mso4000.py, 456 is family_mso456.py).  The connection itself is in Model/Equipment.
-/

namespace Verif.ScopeInit

open Verif Verif.Scpi Verif.Decimal Verif.Tek

/-- What the driver does to the instrument. -/
inductive Ev where
  | send (m : Str)
  | ask (m : Str)
  deriving DecidableEq

/-- The instrument: the reply to a query depends on everything it received, the query being the last. -/
abbrev Instrument := List Ev → Str

/-- Programs that talk to the instrument and may raise. -/
abbrev M := ExceptT PyErr (StateM (List Ev))

/-- `self.send`, equipment.py:68-74. -/
def send (m : Str) : M Unit := modify fun h => h ++ [.send m]

/-- `self.ask`, equipment.py:82-91. -/
def ask (r : Instrument) (m : Str) : M Str := do
  modify fun h => h ++ [.ask m]
  return strip (r (← get))

/-- An exception as a value. -/
def lift {α : Type} : Except PyErr α → M α
  | .ok a => pure a
  | .error e => throw e

/-- The constructed object: `_channels`, `_digitals` (index and alias), `_aux`, `_name`, `max_bandwidth`. -/
structure Built where
  family : Family
  channels : List (ℕ × Str)
  digitals : List (ℕ × Str)
  aux : Bool
  name : Str
  maxBandwidth : ℚ
  deriving DecidableEq

/-- A dictionary entry, scope.py:443, 457: KeyError if there is none. -/
def lookup (l : List (ℕ × Str)) (i : ℤ) : Except PyErr Str :=
  match l.find? fun p => (p.1 : ℤ) == i with
  | some p => .ok p.2
  | none => .error .keyError

/-- `Scope.ch`, scope.py:431-443; the channel is represented by its alias. -/
def Built.ch (b : Built) (i : ℤ) : Except PyErr Str := lookup b.channels i

/-- `Scope.d`, scope.py:445-457. -/
def Built.d (b : Built) (i : ℤ) : Except PyErr Str := lookup b.digitals i

/-- The object as the trigger settings see it (Model/Tek). -/
def Built.scope (b : Built) : Tek.Scope := ⟨b.family, b.channels.map Prod.fst, b.digitals.map Prod.fst, b.aux⟩

/-- `"-".join(id_str.split(",")[:2])`, 4000:178, 456:179. -/
def nameOf (id : Str) : Str := List.intercalate ['-'] ((splitOn ',' id).take 2)

/-- The identity check, 4000:169-182, 456:169-183; the result is the name. -/
def identify (b : Equip.Builtin) (r : Instrument) (name : Str) : M Str := do
  let id ← ask r (lit "*IDN?")
  lift (Equip.driverAccepts (Equip.builtinModels b) id)
  return if name = [] then nameOf id else name

/-- `_MSO4000AnalogChannel(f"CH{i}", self)`, 4000:187-188. -/
def analog (i : ℕ) : ℕ × Str := (i, lit "CH" ++ digitsText 1 i)

/-- `_MSO4000DigitalChannel(f"D{i}", self)`, 4000:190-191. -/
def digital (i : ℕ) : ℕ × Str := (i, lit "D" ++ digitsText 1 i)

/-- `MSO4000Family._init_channels`, 4000:168-198. -/
def init4000 (r : Instrument) (name : Str) : M Built := do
  let name ← identify .mso4000 r name
  send (lit "HEADER OFF")
  send (lit "VERBOSE ON")
  let n ← lift (pyInt (← ask r (lit "CONFIGURATION:ANALOG:NUMCHANNELS?")))
  let k ← lift (pyInt (← ask r (lit "CONFIGURATION:DIGITAL:NUMCHANNELS?")))
  let aux ← ask r (lit "CONFIGURATION:AUXIN?")
  let bw ← lift (pyFloat (← ask r (lit "CONFIGURATION:ANALOG:BANDWIDTH?")))
  return ⟨.mso4000, (List.range' 1 n.toNat).map analog, (List.range k.toNat).map digital, !aux.isEmpty, name, bw⟩

/-- `[i for name in buf["DISPLAY"]["GLOBAL"] if name is CH<digit>]`, 456:189-195.  `buf["DISPLAY"]` missing is a KeyError; if it is a text,
indexing it raises TypeError; if `buf["DISPLAY"]["GLOBAL"]` is a text, its characters are no channels.  The order of the channels is not
modelled (only membership is ever used), nor digits other than ASCII. -/
def displayed {V : Type} (t : DTree V) : Except PyErr (List ℕ) :=
  match t [lit "DISPLAY"] with
  | none => .error .keyError
  | some (.file _) => .error .typeError
  | some .dir =>
    match t [lit "DISPLAY", lit "GLOBAL"] with
    | none => .error .keyError
    | some (.file _) => .ok []
    | some .dir => .ok ((List.range 10).filter fun i => (t [lit "DISPLAY", lit "GLOBAL", lit "CH" ++ digitsText 1 i]).isSome)

/-- `parse_scpi(text, flat=False)`, 456:189. -/
def parseTree (text : Str) : Except PyErr (DTree Unit) :=
  match parse (V := Unit) text false none with
  | .ok s => .ok s.tree
  | .error e => .error e

/-- `MSO456Family._init_channels`, 456:168-199.  This family has no digital channels and no `_aux`. -/
def init456 (r : Instrument) (name : Str) : M Built := do
  let name ← identify .mso456 r name
  send (lit "HEADER ON")
  send (lit "VERBOSE ON")
  let t ← lift (parseTree (← ask r (lit "DISPLAY?")))
  let is ← lift (displayed t)
  send (lit "HEADER OFF")
  let bw ← lift (pyFloat (← ask r (lit "CONFIGURATION:ANALOG:BANDWIDTH?")))
  return ⟨.mso456, is.map analog, [], false, name, bw⟩

/-- The outcome and what the instrument received. -/
def exec {α : Type} (m : M α) : Except PyErr α × List Ev := m.run.run []

end Verif.ScopeInit
