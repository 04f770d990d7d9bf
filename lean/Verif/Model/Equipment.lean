import Verif.Model.Base

/-!
Model of `hardware_tools/equipment/equipment.py` (connection life cycle, polling) and of the driver dispatch in
`hardware_tools/equipment/utility.py` (`install_driver`, `connect`).

The VISA library is a world that records what is done to it.  Whatever the library answers (whether a resource
opens, whether it is message based, what the instrument replies) is a parameter.
-/

namespace Verif.Equip

open Verif

/-! ### `ask_and_wait` -/

/-- What `ask_and_wait` does to the outside: `self.send` (equipment.py:68-74), `self.ask` (equipment.py:82-91) and
`time.sleep(interval)` (equipment.py:121). -/
inductive Ev where
  | send (s : String)
  | query (s : String)
  | sleep
  deriving DecidableEq, Repr

/-- python `int(x)`: truncation toward zero, as used in equipment.py:113. -/
def pyTrunc (q : ℚ) : ℤ := if 0 ≤ q then ⌊q⌋ else ⌈q⌉

/-- `interval = 0.05` equipment.py:112.  The double 0.05 is taken as the exact rational. -/
def interval : ℚ := 1 / 20

/-- One poll: equipment.py:116-118 and again equipment.py:122-124, the optional additional command followed by the
query. -/
def poll (cmd : String) (extra : Option String) : List Ev :=
  (match extra with
   | some a => [.send a]
   | none => []) ++ [.query cmd]

/-- The `while` loop of equipment.py:120-126.  `reply i` is the (already stripped, equipment.py:91) reply to the
`i`-th query; `i` counts the queries made so far minus one; the log collects the outside effects.  `seen` is only
used in the error text and is left out. -/
def waitLoop (cmd : String) (extra : Option String) (states : List String) (reply : ℕ → String) (t : ℤ) (i : ℕ)
    (log : List Ev) : ℤ × String × List Ev :=
  if reply i ∉ states ∧ 0 ≤ t then
    waitLoop cmd extra states reply (t - 1) (i + 1) (log ++ [.sleep] ++ poll cmd extra)
  else (t, reply i, log)
termination_by (t + 1).toNat
decreasing_by omega

/-- `Equipment.ask_and_wait`, equipment.py:93-130. -/
def askAndWait (cmd : String) (states : List String) (timeout : ℚ) (extra : Option String) (reply : ℕ → String) :
    Except PyErr String × List Ev :=
  let t := pyTrunc (timeout / interval)
  let r := waitLoop cmd extra states reply t 0 (poll cmd extra)
  if r.1 < 0 then (.error .timeout, r.2.2) else (.ok r.2.1, r.2.2)

/-! ### Connections -/

/-- The VISA library as seen by the code: handles handed out so far, the calls to `close()` and the messages
written, all in order. -/
structure World where
  /-- number of resources opened; handles are `0 … opened-1` -/
  opened : ℕ
  /-- handles on which `close()` was called, in order -/
  closes : List ℕ
  /-- (handle, message) written, in order -/
  io : List (ℕ × String)
  deriving DecidableEq, Repr

/-- The state of an `Equipment` object that matters here: `_instrument`, equipment.py:38,48,57. -/
structure Conn where
  inst : Option ℕ
  deriving DecidableEq, Repr

/-- What `rm.open_resource(address)` does: raises, or returns a resource that is message based or not. -/
inductive OpenResult where
  | raises (e : PyErr)
  | resource (messageBased : Bool)
  deriving DecidableEq, Repr

/-- `rm.open_resource(address)` (equipment.py:44, utility.py:64). -/
def openResource (r : OpenResult) (w : World) : Except PyErr (ℕ × Bool) × World :=
  match r with
  | .raises e => (.error e, w)
  | .resource mb => (.ok (w.opened, mb), { w with opened := w.opened + 1 })

/-- `Equipment.__init__`, equipment.py:27-49.  The object exists (with `_instrument = None`) even when the body
raises, because python runs `__del__` on it; so it is returned together with the outcome.  The encoding assignment
is not modelled. -/
def init (r : OpenResult) (w : World) : Except PyErr Unit × Conn × World :=
  match openResource r w with
  | (.error e, w') => (.error e, ⟨none⟩, w')
  | (.ok (h, mb), w') => if mb then (.ok (), ⟨some h⟩, w') else (.error .notImplemented, ⟨none⟩, w')

/-- `Equipment.close`, equipment.py:54-57. -/
def close (s : Conn × World) : Conn × World :=
  match s.1.inst with
  | some h => (⟨none⟩, { s.2 with closes := s.2.closes ++ [h] })
  | none => s

/-- `Equipment.send`, equipment.py:68-74, and the write half of `Equipment.ask`, equipment.py:82-91:
`None.write` is an `AttributeError`. -/
def send (m : String) (s : Conn × World) : Except PyErr Unit × (Conn × World) :=
  match s.1.inst with
  | some h => (.ok (), s.1, { s.2 with io := s.2.io ++ [(h, m)] })
  | none => (.error .attributeError, s)

/-- What a program can do with an equipment object: talk to it, call `close()`, leave a `with` block
(`__exit__`, equipment.py:62-63) or drop it (`__del__`, equipment.py:51-52). -/
inductive Act where
  | send (m : String)
  | close
  | exit
  | del
  deriving DecidableEq, Repr

/-- The effect of one action; an exception of `send` is returned as a value, the program may catch it. -/
def step (a : Act) (s : Conn × World) : Except PyErr Unit × (Conn × World) :=
  match a with
  | .send m => send m s
  | .close | .exit | .del => (.ok (), close s)

/-- A program that goes on after caught exceptions. -/
def runAll : List Act → Conn × World → Conn × World
  | [], s => s
  | a :: as, s => runAll as (step a s).2

/-- A block of statements that is left at the first exception. -/
def runUntil : List Act → Conn × World → Except PyErr Unit × (Conn × World)
  | [], s => (.ok (), s)
  | a :: as, s =>
    match step a s with
    | (.ok (), s') => runUntil as s'
    | (.error e, s') => (.error e, s')

/-- `with Equipment(...) as e: body`, equipment.py:59-63.  `raised` is an exception raised by the caller's own code
at the end of the body; `__exit__` returns `None`, so exceptions are passed on. -/
def withBlock (body : List Act) (raised : Option PyErr) (s : Conn × World) : Except PyErr Unit × (Conn × World) :=
  match runUntil body s with
  | (.error e, s') => (.error e, close s')
  | (.ok (), s') =>
    match raised with
    | some e => (.error e, close s')
    | none => (.ok (), close s')

/-- Construction of a driver, `Scope.__init__` (scope.py:417-424) on top of `Equipment.__init__`: open, then the
driver's own initialisation (`_init_channels`) which sends `msgs` and may raise.  When it raises, the half-built
object is dropped by the caller and python runs `__del__` (equipment.py:51-52). -/
def construct (r : OpenResult) (msgs : List Act) (fails : Option PyErr) (w : World) :
    Except PyErr Unit × Conn × World :=
  match init r w with
  | (.error e, q, w') => (.error e, close (q, w'))
  | (.ok (), q, w') =>
    match runUntil msgs (q, w') with
    | (.error e, s) => (.error e, close s)
    | (.ok (), s) =>
      match fails with
      | some e => (.error e, close s)
      | none => (.ok (), s)

/-! ### Driver dispatch -/

/-- Assignment `d[k] = v` to a python dict: keeps the position of an existing key, otherwise appends.  Used for
`_CLASSES[regex] = driver`, utility.py:30. -/
def dictSet {κ ν : Type} [DecidableEq κ] (d : List (κ × ν)) (k : κ) (v : ν) : List (κ × ν) :=
  match d with
  | [] => [(k, v)]
  | (k', v') :: t => if k' = k then (k, v) :: t else (k', v') :: dictSet t k v

/-- `install_driver`, utility.py:21-30.  `isEquipment` is the answer of `issubclass(driver, Equipment)`. -/
def installDriver {D : Type} (isEquipment : D → Bool) (regex : String) (driver : D) (classes : List (String × D)) :
    Except PyErr Unit × List (String × D) :=
  if isEquipment driver then (.ok (), dictSet classes regex driver) else (.error .typeError, classes)

/-- A history of `install_driver` calls, each exception caught by the caller. -/
def installAll {D : Type} (isEquipment : D → Bool) : List (String × D) → List (String × D) → List (String × D)
  | [], classes => classes
  | (r, d) :: t, classes => installAll isEquipment t (installDriver isEquipment r d classes).2

/-- `utility.connect`, utility.py:47-74.  `mtch regex identity` is `re.match`; `ident` is the stripped reply to
`*IDN?` or the exception raised by the library during the write or the query; `construct d` is the construction
`c(address, rm=rm)` of the selected driver. -/
def connect {D E : Type} (mtch : String → String → Bool) (classes : List (String × D)) (r : OpenResult)
    (ident : Except PyErr String) (construct : D → World → Except PyErr E × World) (w : World) :
    Except PyErr E × World :=
  match openResource r w with
  | (.error e, w1) => (.error e, w1)
  | (.ok (h, mb), w1) =>
    if mb then
      let w2 := { w1 with io := w1.io ++ [(h, "*IDN?"), (h, "*IDN?")] }
      let w3 := { w2 with closes := w2.closes ++ [h] }
      match ident with
      | .error e => (.error e, w3)
      | .ok identity =>
        match classes.find? (fun p => mtch p.1 identity) with
        | some p => construct p.2 w3
        | none => (.error .lookupError, w3)
    else (.error .notImplemented, { w1 with closes := w1.closes ++ [h] })

/-! ### The built-in patterns

Both built-in regular expressions and the two model checks of the drivers describe finite unions of fixed-length
sequences of character classes.  They are written out as such; `\d` is taken as the ASCII digits. -/

/-- a character class -/
abbrev Cls := List Char

/-- A literal. -/
def lit (s : String) : List Cls := s.toList.map fun c => [c]

/-- `\d` -/
def dig : Cls := "0123456789".toList

/-- Does the sequence of classes match a prefix of the text (`re.match` without `$`)? -/
def pre : List Cls → List Char → Bool
  | [], _ => true
  | _ :: _, [] => false
  | c :: cs, x :: xs => c.contains x && pre cs xs

/-- Does the sequence match the whole text (`re.match` with `^…$`)?  A trailing newline, which `$` tolerates, is
not modelled. -/
def full : List Cls → List Char → Bool
  | [], [] => true
  | [], _ :: _ => false
  | _ :: _, [] => false
  | c :: cs, x :: xs => c.contains x && full cs xs

/-- `(MDO(3|4)\d\d\d|MSO4\d\d\d|DPO4\d\d\d)B?` of utility.py:14. -/
def table4000 : List (List Cls) :=
  let a : List (List Cls) :=
    [lit "MDO" ++ [['3', '4'], dig, dig, dig], lit "MSO4" ++ [dig, dig, dig], lit "DPO4" ++ [dig, dig, dig]]
  a.map (· ++ lit "B") ++ a

/-- `(MSO(4|5|6)\d(B|LP)?|LPD64)` of utility.py:16. -/
def table456 : List (List Cls) :=
  let a : List Cls := lit "MSO" ++ [['4', '5', '6'], dig]
  [a ++ lit "B", a ++ lit "LP", a, lit "LPD64"]

/-- `^TEKTRONIX,<model>,.*` for the models of a table, utility.py:14 and utility.py:16. -/
def tableMatch (tbl : List (List Cls)) (identity : List Char) : Bool :=
  tbl.any fun s => pre (lit "TEKTRONIX," ++ s ++ lit ",") identity

/-- `^(MDO(3|4)\d\d\dB?|MSO4\d\d\dB?|DPO4\d\d\dB?)$`, family_mso4000.py:172. -/
def driver4000 : List (List Cls) :=
  [lit "MDO" ++ [['3', '4'], dig, dig, dig] ++ lit "B", lit "MDO" ++ [['3', '4'], dig, dig, dig],
   lit "MSO4" ++ [dig, dig, dig] ++ lit "B", lit "MSO4" ++ [dig, dig, dig],
   lit "DPO4" ++ [dig, dig, dig] ++ lit "B", lit "DPO4" ++ [dig, dig, dig]]

/-- `^(MSO(44|46|54B?|56B?|58(B|LP)?|64B?|66B|68B)|LPD64)$`, family_mso456.py:172. -/
def driver456 : List (List Cls) :=
  ["MSO44", "MSO46", "MSO54B", "MSO54", "MSO56B", "MSO56", "MSO58B", "MSO58LP", "MSO58", "MSO64B", "MSO64",
   "MSO66B", "MSO68B", "LPD64"].map lit

/-- `id_str.split(",")[1]`: the text between the first and the second comma; `none` is the IndexError.
family_mso4000.py:171, family_mso456.py:171. -/
def modelField (identity : List Char) : Option (List Char) :=
  match identity.dropWhile (· ≠ ',') with
  | [] => none
  | _ :: t => some (t.takeWhile (· ≠ ','))

/-- The identity check at the start of both `_init_channels` (family_mso4000.py:169-182, family_mso456.py:169-183):
the identity must start with `TEKTRONIX,` and the model must be listed. -/
def driverAccepts (drv : List (List Cls)) (identity : List Char) : Except PyErr Unit :=
  if "TEKTRONIX,".toList.isPrefixOf identity then
    match modelField identity with
    | none => .error .indexError
    | some m => if drv.any (full · m) then .ok () else .error .valueError
  else .error .valueError

/-- The two built-in drivers. -/
inductive Builtin where
  | mso4000
  | mso456
  deriving DecidableEq, Repr

/-- `_CLASSES` as shipped, utility.py:13-18, with the loop of utility.py:70-74: the driver selected for an
identity. -/
def builtinSelect (identity : List Char) : Option Builtin :=
  if tableMatch table4000 identity then some .mso4000
  else if tableMatch table456 identity then some .mso456
  else none

/-- The model check of each built-in driver. -/
def builtinModels : Builtin → List (List Cls)
  | .mso4000 => driver4000
  | .mso456 => driver456

end Verif.Equip
