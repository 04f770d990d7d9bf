import Verif.Model.Equipment

/-!
Model of the acquisition control of both driver families, `stop`, `run`, `single` and `force`:
`hardware_tools/equipment/tektronix/family_mso4000.py:422-461` and `family_mso456.py:406-445` (the same text).

The instrument is an arbitrary function from everything that happened so far to the reply of a query.
-/

namespace Verif.Acquire

open Verif Verif.Equip

/-- What happens outside: messages and pauses, and the call of `trigger_cmd` (family_mso4000.py:453, family_mso456.py:437). -/
inductive Event where
  | io (e : Ev)
  | trigger
  deriving DecidableEq, Repr

/-- Everything that happened, oldest first. -/
abbrev Log := List Event

/-- The instrument: the (stripped) reply to a query, given everything up to and including the query. -/
abbrev Instr := Log → String

/-- How a method ended, and the log. -/
abbrev Out := Except PyErr Unit × Log

/-- The next statement, unless there was an exception. -/
def andThen (r : Out) (f : Log → Out) : Out :=
  match r.1 with
  | .ok _ => f r.2
  | .error e => (.error e, r.2)

/-- `self.send`, equipment.py:68-74. -/
def sendTo (m : String) (l : Log) : Out := (.ok (), l ++ [.io (.send m)])

/-- What `ask_and_wait` did when it receives its reply number `i`, equipment.py:116-125. -/
def upTo (cmd : String) (extra : Option String) : ℕ → List Ev
  | 0 => poll cmd extra
  | i + 1 => upTo cmd extra i ++ .sleep :: poll cmd extra

/-- `self.ask_and_wait(...)` with the result dropped, equipment.py:93-130. -/
def waitFor (I : Instr) (cmd : String) (states : List String) (timeout : ℚ) (extra : Option String) (l : Log) : Out :=
  let r := askAndWait cmd states timeout extra fun i => I (l ++ (upTo cmd extra i).map .io)
  (r.1.map fun _ => (), l ++ r.2.map .io)

/-- `stop`, family_mso4000.py:422-424, family_mso456.py:406-408. -/
def stop (I : Instr) (timeout : ℚ) (l : Log) : Out :=
  andThen (sendTo "ACQUIRE:STATE STOP" l) (waitFor I "TRIGGER:STATE?" ["SAVE"] timeout none)

/-- `run`, family_mso4000.py:426-436, family_mso456.py:410-420. -/
def run (I : Instr) (normal : Bool) (timeout : ℚ) (l : Log) : Out :=
  andThen (sendTo "ACQUIRE:STATE STOP" l) fun l =>
  andThen (sendTo "ACQUIRE:STOPAFTER RUNSTOP" l) fun l =>
  andThen (if normal then sendTo "TRIGGER:A:MODE NORMAL" l else sendTo "TRIGGER:A:MODE AUTO" l) fun l =>
  andThen (sendTo "ACQUIRE:STATE RUN" l) fun l =>
  waitFor I "TRIGGER:STATE?" ["ARMED", "AUTO", "TRIGGER", "READY"] timeout none l

/-- A `trigger_cmd`: what it does outside, given what happened before, and how it ends.  `None` stands for a function
that waits (family_mso4000.py:443-447, family_mso456.py:427-431), one more instance. -/
abbrev Callback := Log → Except PyErr Unit × List Event

/-- `trigger_cmd()`. -/
def call (cb : Callback) (l : Log) : Out := ((cb l).1, l ++ .trigger :: (cb l).2)

/-- The additional command of family_mso4000.py:456, family_mso456.py:440. -/
def forceCmd (force : Bool) : Option String := if force then some "TRIGGER FORCE" else none

/-- `single`, family_mso4000.py:438-458, family_mso456.py:422-442.  The last wait has the default timeout of 1 s
(equipment.py:96). -/
def single (I : Instr) (cb : Callback) (force : Bool) (timeout : ℚ) (l : Log) : Out :=
  andThen (sendTo "ACQUIRE:STATE STOP" l) fun l =>
  andThen (waitFor I "TRIGGER:STATE?" ["SAVE"] timeout none l) fun l =>
  andThen (sendTo "ACQUIRE:STOPAFTER SEQUENCE" l) fun l =>
  andThen (sendTo "ACQUIRE:STATE RUN" l) fun l =>
  andThen (call cb l) fun l =>
  andThen (waitFor I "ACQUIRE:STATE?" ["0"] timeout (forceCmd force) l) fun l =>
  andThen (waitFor I "TRIGGER:STATE?" ["SAVE"] timeout none l) fun l =>
  waitFor I "ACQUIRE:NUMACQ?" ["1"] 1 none l

/-- `force`, family_mso4000.py:460-461, family_mso456.py:444-445. -/
def force (l : Log) : Out := sendTo "TRIGGER FORCE" l

end Verif.Acquire
