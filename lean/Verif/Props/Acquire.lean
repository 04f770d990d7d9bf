import Verif.Model.Acquire
import Verif.Props.Equipment

/-!
# C66: acquisition control
-/

namespace Verif.Props.Acquire

open Verif Verif.Equip Verif.Acquire Verif.Props.Equipment

/-! ## Specification

`pollsLog` (C21) is the outside view of a number of polls. -/

/-- The last poll that counts for a timeout in seconds: 20 per second. -/
def lastPoll (timeout : ℚ) : ℤ := pyTrunc (timeout * 20)

/-- Between `l` and `l'` the instrument was polled until it replied one of the states, in time. -/
def Confirmed (I : Instr) (cmd : String) (states : List String) (timeout : ℚ) (extra : Option String) (l l' : Log) : Prop :=
  ∃ i : ℕ, (i : ℤ) ≤ lastPoll timeout ∧ l' = l ++ (pollsLog cmd extra i).map .io ∧ I l' ∈ states ∧
    ∀ j, j < i → I (l ++ (pollsLog cmd extra j).map .io) ∉ states

/-- Between `l` and `l'` the instrument was polled until the timeout, and it did not reply any of the states in time. -/
def Missed (I : Instr) (cmd : String) (states : List String) (timeout : ℚ) (extra : Option String) (l l' : Log) : Prop :=
  l' = l ++ (pollsLog cmd extra (lastPoll timeout + 1).toNat).map .io ∧
    ∀ i : ℕ, (i : ℤ) ≤ lastPoll timeout → I (l ++ (pollsLog cmd extra i).map .io) ∉ states

/-- A message. -/
def msg (m : String) : Event := .io (.send m)

theorem upTo_eq (cmd : String) (extra : Option String) (i : ℕ) : upTo cmd extra i = pollsLog cmd extra i := by
  induction i with
  | zero => rfl
  | succ i ih => simp [upTo, pollsLog, ih]

theorem waitFor_cases (I : Instr) (cmd : String) (states : List String) (timeout : ℚ) (extra : Option String) (l : Log) :
    (∃ l', waitFor I cmd states timeout extra l = (.ok (), l') ∧ Confirmed I cmd states timeout extra l l') ∨
    (∃ l', waitFor I cmd states timeout extra l = (.error .timeout, l') ∧ Missed I cmd states timeout extra l l') := by
  unfold waitFor
  simp only [upTo_eq]
  by_cases h : ∃ i : ℕ, (i : ℤ) ≤ lastPoll timeout ∧ I (l ++ (pollsLog cmd extra i).map .io) ∈ states
  · classical
    obtain ⟨hi, hm⟩ := Nat.find_spec h
    have hf : ∀ j, j < Nat.find h → I (l ++ (pollsLog cmd extra j).map .io) ∉ states :=
      fun j hj hjm => Nat.find_min h hj ⟨by omega, hjm⟩
    left
    rw [C21_returns cmd states timeout extra _ (Nat.find h) hi hm hf]
    exact ⟨_, rfl, Nat.find h, hi, rfl, hm, hf⟩
  · right
    rw [C21_timeout cmd states timeout extra _ (fun i hi hm => h ⟨i, hi, hm⟩)]
    exact ⟨_, rfl, rfl, fun i hi hm => h ⟨i, hi, hm⟩⟩

theorem not_both (I : Instr) (cmd : String) (states : List String) (timeout : ℚ) (extra : Option String) (l a b : Log)
    (h1 : Confirmed I cmd states timeout extra l a) (h2 : Missed I cmd states timeout extra l b) : False := by
  obtain ⟨i, hi, e, hm, -⟩ := h1
  exact h2.2 i hi (e ▸ hm)

theorem confirmed_unique (I : Instr) (cmd : String) (states : List String) (timeout : ℚ) (extra : Option String) (l a b : Log)
    (h1 : Confirmed I cmd states timeout extra l a) (h2 : Confirmed I cmd states timeout extra l b) : a = b := by
  obtain ⟨i, -, rfl, hm, hf⟩ := h1
  obtain ⟨k, -, rfl, hm', hf'⟩ := h2
  rcases Nat.lt_trichotomy i k with h | h | h
  · exact absurd hm (hf' i h)
  · rw [h]
  · exact absurd hm' (hf k h)

theorem waitFor_ok (I : Instr) (cmd : String) (states : List String) (timeout : ℚ) (extra : Option String) (l l' : Log) :
    waitFor I cmd states timeout extra l = (.ok (), l') ↔ Confirmed I cmd states timeout extra l l' := by
  rcases waitFor_cases I cmd states timeout extra l with ⟨a, e, h⟩ | ⟨a, e, h⟩
  · rw [e]
    refine ⟨fun h' => ?_, fun h' => ?_⟩
    · rw [Prod.mk.injEq] at h'; exact h'.2 ▸ h
    · rw [confirmed_unique I cmd states timeout extra l a l' h h']
  · rw [e]
    refine ⟨fun h' => ?_, fun h' => (not_both I cmd states timeout extra l l' a h' h).elim⟩
    rw [Prod.mk.injEq] at h'; exact absurd h'.1 (by simp)

theorem waitFor_error (I : Instr) (cmd : String) (states : List String) (timeout : ℚ) (extra : Option String) (l l' : Log)
    (e : PyErr) : waitFor I cmd states timeout extra l = (.error e, l') ↔
      e = .timeout ∧ Missed I cmd states timeout extra l l' := by
  rcases waitFor_cases I cmd states timeout extra l with ⟨a, he, h⟩ | ⟨a, he, h⟩
  · rw [he]
    refine ⟨fun h' => ?_, fun h' => (not_both I cmd states timeout extra l a l' h h'.2).elim⟩
    rw [Prod.mk.injEq] at h'; exact absurd h'.1 (by simp)
  · rw [he]
    constructor
    · intro h'
      simp only [Prod.mk.injEq, Except.error.injEq] at h'
      exact ⟨h'.1.symm, h'.2 ▸ h⟩
    · rintro ⟨rfl, h'⟩
      rw [h.1, h'.1]

theorem andThen_ok (r : Out) (f : Log → Out) (l' : Log) :
    andThen r f = (.ok (), l') ↔ ∃ a, r = (.ok (), a) ∧ f a = (.ok (), l') := by
  obtain ⟨x, a⟩ := r
  cases x with
  | ok u => simp [andThen]
  | error e => simp [andThen]

theorem andThen_error (r : Out) (f : Log → Out) (l' : Log) (e : PyErr) :
    andThen r f = (.error e, l') ↔ r = (.error e, l') ∨ ∃ a, r = (.ok (), a) ∧ f a = (.error e, l') := by
  obtain ⟨x, a⟩ := r
  cases x with
  | ok u => simp [andThen]
  | error e => simp [andThen]

theorem andThen_send (m : String) (l : Log) (f : Log → Out) : andThen (sendTo m l) f = f (l ++ [msg m]) := rfl

/-! ## stop, run, force -/

/-- C66: `stop` returns exactly if the instrument confirms `SAVE` in time after the stop command, the only one sent. -/
theorem C66_stop (I : Instr) (timeout : ℚ) (l l' : Log) :
    (stop I timeout l = (.ok (), l') ↔
      Confirmed I "TRIGGER:STATE?" ["SAVE"] timeout none (l ++ [msg "ACQUIRE:STATE STOP"]) l') ∧
    (∀ e, stop I timeout l = (.error e, l') ↔ e = .timeout ∧
      Missed I "TRIGGER:STATE?" ["SAVE"] timeout none (l ++ [msg "ACQUIRE:STATE STOP"]) l') := by
  unfold stop
  simp only [andThen_send]
  exact ⟨waitFor_ok _ _ _ _ _ _ _, fun e => waitFor_error _ _ _ _ _ _ _ e⟩

/-- The commands of `run`. -/
def runMsgs (normal : Bool) : Log :=
  [msg "ACQUIRE:STATE STOP", msg "ACQUIRE:STOPAFTER RUNSTOP",
   msg (if normal then "TRIGGER:A:MODE NORMAL" else "TRIGGER:A:MODE AUTO"), msg "ACQUIRE:STATE RUN"]

/-- C66: `run` sends its four commands in order, with the selected trigger mode, then returns exactly if the instrument
confirms one of the running states in time. -/
theorem C66_run (I : Instr) (normal : Bool) (timeout : ℚ) (l l' : Log) :
    (run I normal timeout l = (.ok (), l') ↔
      Confirmed I "TRIGGER:STATE?" ["ARMED", "AUTO", "TRIGGER", "READY"] timeout none (l ++ runMsgs normal) l') ∧
    (∀ e, run I normal timeout l = (.error e, l') ↔ e = .timeout ∧
      Missed I "TRIGGER:STATE?" ["ARMED", "AUTO", "TRIGGER", "READY"] timeout none (l ++ runMsgs normal) l') := by
  have h : run I normal timeout l =
      waitFor I "TRIGGER:STATE?" ["ARMED", "AUTO", "TRIGGER", "READY"] timeout none (l ++ runMsgs normal) := by
    unfold run runMsgs
    cases normal <;> simp [andThen_send]
  rw [h]
  exact ⟨waitFor_ok _ _ _ _ _ _ _, fun e => waitFor_error _ _ _ _ _ _ _ e⟩

/-- C66: `force` sends one command and always returns. -/
theorem C66_force (l : Log) : force l = (.ok (), l ++ [msg "TRIGGER FORCE"]) := rfl

/-! ## single -/

/-- The commands that arm the scope, once it is stopped. -/
def armMsgs : Log := [msg "ACQUIRE:STOPAFTER SEQUENCE", msg "ACQUIRE:STATE RUN"]

/-- What is sent before each poll of the acquisition state. -/
def forced (force : Bool) : Option String := if force then some "TRIGGER FORCE" else none

/-- C66, success: `single` returns exactly if the stop is confirmed, the trigger command, called once after arming,
returns, and the instrument then confirms in this order: acquisition over, `SAVE`, one acquisition. -/
theorem C66_single_returns (I : Instr) (cb : Callback) (force : Bool) (timeout : ℚ) (l l' : Log) :
    single I cb force timeout l = (.ok (), l') ↔ ∃ l1 l2 l3,
      Confirmed I "TRIGGER:STATE?" ["SAVE"] timeout none (l ++ [msg "ACQUIRE:STATE STOP"]) l1 ∧
      (cb (l1 ++ armMsgs)).1 = .ok () ∧
      Confirmed I "ACQUIRE:STATE?" ["0"] timeout (forced force)
        (l1 ++ armMsgs ++ .trigger :: (cb (l1 ++ armMsgs)).2) l2 ∧
      Confirmed I "TRIGGER:STATE?" ["SAVE"] timeout none l2 l3 ∧
      Confirmed I "ACQUIRE:NUMACQ?" ["1"] 1 none l3 l' := by
  unfold single
  simp only [andThen_send, andThen_ok, waitFor_ok, call, Prod.mk.injEq]
  have e : ∀ l1 : Log, l1 ++ [msg "ACQUIRE:STOPAFTER SEQUENCE"] ++ [msg "ACQUIRE:STATE RUN"] = l1 ++ armMsgs := by
    intro l1; simp [armMsgs]
  simp only [e]
  constructor
  · rintro ⟨l1, h1, a, ⟨h2, rfl⟩, l2, h3, l3, h4, h5⟩
    exact ⟨l1, l2, l3, h1, h2, h3, h4, h5⟩
  · rintro ⟨l1, l2, l3, h1, h2, h3, h4, h5⟩
    exact ⟨l1, h1, _, ⟨h2, rfl⟩, l2, h3, l3, h4, h5⟩

/-- C66, failure: `single` raises in five cases, each of which sends nothing more. -/
theorem C66_single_raises (I : Instr) (cb : Callback) (force : Bool) (timeout : ℚ) (l l' : Log) (e : PyErr) :
    single I cb force timeout l = (.error e, l') ↔
      (e = .timeout ∧ Missed I "TRIGGER:STATE?" ["SAVE"] timeout none (l ++ [msg "ACQUIRE:STATE STOP"]) l') ∨
      ∃ l1, Confirmed I "TRIGGER:STATE?" ["SAVE"] timeout none (l ++ [msg "ACQUIRE:STATE STOP"]) l1 ∧
        (((cb (l1 ++ armMsgs)).1 = .error e ∧ l' = l1 ++ armMsgs ++ .trigger :: (cb (l1 ++ armMsgs)).2) ∨
        ((cb (l1 ++ armMsgs)).1 = .ok () ∧
          ((e = .timeout ∧ Missed I "ACQUIRE:STATE?" ["0"] timeout (forced force)
              (l1 ++ armMsgs ++ .trigger :: (cb (l1 ++ armMsgs)).2) l') ∨
          ∃ l2, Confirmed I "ACQUIRE:STATE?" ["0"] timeout (forced force)
              (l1 ++ armMsgs ++ .trigger :: (cb (l1 ++ armMsgs)).2) l2 ∧
            ((e = .timeout ∧ Missed I "TRIGGER:STATE?" ["SAVE"] timeout none l2 l') ∨
            ∃ l3, Confirmed I "TRIGGER:STATE?" ["SAVE"] timeout none l2 l3 ∧
              e = .timeout ∧ Missed I "ACQUIRE:NUMACQ?" ["1"] 1 none l3 l')))) := by
  unfold single
  simp only [andThen_send, andThen_error, waitFor_ok, waitFor_error, call, Prod.mk.injEq]
  have ee : ∀ l1 : Log, l1 ++ [msg "ACQUIRE:STOPAFTER SEQUENCE"] ++ [msg "ACQUIRE:STATE RUN"] = l1 ++ armMsgs := by
    intro l1; simp [armMsgs]
  simp only [ee]
  constructor
  · rintro (h | ⟨l1, h1, h | ⟨a, ⟨h2, rfl⟩, h⟩⟩)
    · exact .inl h
    · exact .inr ⟨l1, h1, .inl ⟨h.1, h.2.symm⟩⟩
    · refine .inr ⟨l1, h1, .inr ⟨h2, ?_⟩⟩
      rcases h with h | ⟨l2, h3, h | ⟨l3, h4, h5⟩⟩
      · exact .inl h
      · exact .inr ⟨l2, h3, .inl h⟩
      · exact .inr ⟨l2, h3, .inr ⟨l3, h4, h5⟩⟩
  · rintro (h | ⟨l1, h1, h | ⟨h2, h⟩⟩)
    · exact .inl h
    · exact .inr ⟨l1, h1, .inl ⟨h.1, h.2.symm⟩⟩
    · refine .inr ⟨l1, h1, .inr ⟨_, ⟨h2, rfl⟩, ?_⟩⟩
      rcases h with h | ⟨l2, h3, h | ⟨l3, h4, h5⟩⟩
      · exact .inl h
      · exact .inr ⟨l2, h3, .inl h⟩
      · exact .inr ⟨l2, h3, .inr ⟨l3, h4, h5⟩⟩

/-! ### What follows for the user -/

theorem mem_pollsLog (cmd : String) (extra : Option String) (i : ℕ) :
    ∀ e ∈ pollsLog cmd extra i, e = .sleep ∨ e = .query cmd ∨ ∃ a, extra = some a ∧ e = Ev.send a := by
  have hp : ∀ e ∈ poll cmd extra, e = .query cmd ∨ ∃ a, extra = some a ∧ e = Ev.send a := by
    intro e he
    cases extra with
    | none => simp [poll] at he; exact .inl he
    | some a =>
      simp [poll] at he
      rcases he with rfl | rfl
      · exact .inr ⟨a, rfl, rfl⟩
      · exact .inl rfl
  induction i with
  | zero => exact fun e he => .inr (hp e he)
  | succ i ih =>
    intro e he
    simp only [pollsLog, List.mem_append, List.mem_cons] at he
    rcases he with he | rfl | he
    · exact ih e he
    · exact .inl rfl
    · exact .inr (hp e he)

/-- The number of queries in a log. -/
def queries (l : Log) : ℕ := l.countP fun e => match e with | .io (.query _) => true | _ => false

theorem queries_io (l : List Ev) : queries (l.map .io) = nQueries l := by
  unfold queries nQueries
  rw [List.countP_map]
  congr 1
  funext e
  cases e <;> rfl

theorem queries_append (a b : Log) : queries (a ++ b) = queries a + queries b := by
  unfold queries; exact List.countP_append

/-- A log of waiting only: pauses, queries and the command that forces a trigger. -/
def Waiting (force : Bool) (w : Log) : Prop :=
  ∀ x ∈ w, x = .io .sleep ∨ (∃ c, x = .io (.query c)) ∨ (force = true ∧ x = msg "TRIGGER FORCE")

theorem waiting_polls (cmd : String) (force : Bool) (i : ℕ) :
    Waiting force ((pollsLog cmd (forced force) i).map .io) ∧ Waiting force ((pollsLog cmd none i).map .io) := by
  constructor
  · intro x hx
    obtain ⟨e, he, rfl⟩ := List.mem_map.1 hx
    rcases mem_pollsLog _ _ _ e he with rfl | rfl | ⟨a, ha, rfl⟩
    · exact .inl rfl
    · exact .inr (.inl ⟨_, rfl⟩)
    · cases force with
      | false => simp [forced] at ha
      | true =>
        simp only [forced, if_true, Option.some.injEq] at ha
        exact .inr (.inr ⟨rfl, by rw [← ha]; rfl⟩)
  · intro x hx
    obtain ⟨e, he, rfl⟩ := List.mem_map.1 hx
    rcases mem_pollsLog _ _ _ e he with rfl | rfl | ⟨a, ha, rfl⟩
    · exact .inl rfl
    · exact .inr (.inl ⟨_, rfl⟩)
    · cases ha

theorem waiting_append {force : Bool} {a b : Log} (ha : Waiting force a) (hb : Waiting force b) : Waiting force (a ++ b) := by
  intro x hx
  rcases List.mem_append.1 hx with h | h
  · exact ha x h
  · exact hb x h

/-- The most queries that a wait makes. -/
def most (timeout : ℚ) : ℕ := (lastPoll timeout + 1).toNat + 1

theorem confirmed_form {I : Instr} {cmd : String} {states : List String} {timeout : ℚ} {force : Bool}
    {extra : Option String} (hx : extra = none ∨ extra = forced force) {l l' : Log}
    (h : Confirmed I cmd states timeout extra l l') :
    ∃ w, l' = l ++ w ∧ Waiting force w ∧ queries w ≤ most timeout := by
  obtain ⟨i, hi, rfl, -, -⟩ := h
  refine ⟨_, rfl, ?_, ?_⟩
  · rcases hx with rfl | rfl
    · exact (waiting_polls cmd force i).2
    · exact (waiting_polls cmd force i).1
  · rw [queries_io, nQueries_pollsLog]; unfold most; omega

theorem missed_form {I : Instr} {cmd : String} {states : List String} {timeout : ℚ} {force : Bool}
    {extra : Option String} (hx : extra = none ∨ extra = forced force) {l l' : Log}
    (h : Missed I cmd states timeout extra l l') :
    ∃ w, l' = l ++ w ∧ Waiting force w ∧ queries w ≤ most timeout := by
  refine ⟨_, h.1, ?_, ?_⟩
  · rcases hx with rfl | rfl
    · exact (waiting_polls cmd force _).2
    · exact (waiting_polls cmd force _).1
  · rw [queries_io, nQueries_pollsLog]; unfold most; omega

/-- C66: however it ends, `single` does one of two things.  Without confirmation of the stop: nothing but polling, then
TimeoutError; the scope is not armed and the trigger command is not called.  Otherwise: it arms the scope, calls the
trigger command once and then only polls, forcing triggers only if asked to; at most `3 * most timeout + 22` queries
besides those of the trigger command. -/
theorem C66_single_shape (I : Instr) (cb : Callback) (force : Bool) (timeout : ℚ) (l : Log) :
    (∃ w, single I cb force timeout l = (.error .timeout, l ++ msg "ACQUIRE:STATE STOP" :: w) ∧
      Waiting false w ∧ queries w ≤ most timeout) ∨
    (∃ w w' r l1, l1 = l ++ msg "ACQUIRE:STATE STOP" :: w ++ armMsgs ∧
      single I cb force timeout l = (r, l1 ++ .trigger :: (cb l1).2 ++ w') ∧
      Waiting false w ∧ Waiting force w' ∧ queries w + queries w' ≤ 3 * most timeout + 22 ∧
      I (l ++ msg "ACQUIRE:STATE STOP" :: w) = "SAVE" ∧
      (w' ≠ [] → (cb l1).1 = .ok ()) ∧ (r = .ok () ∨ r = .error .timeout ∨ r = (cb l1).1)) := by
  obtain ⟨r, L, hs⟩ : ∃ r L, single I cb force timeout l = (r, L) := ⟨_, _, rfl⟩
  have h22 : most 1 = 22 := by decide +kernel
  cases r with
  | ok u =>
    obtain ⟨l1, l2, l3, h1, h2, h3, h4, h5⟩ := (C66_single_returns I cb force timeout l L).1 hs
    have hS : I l1 = "SAVE" := by obtain ⟨i, _, _, h, _⟩ := h1; simpa using h
    obtain ⟨w1, rfl, hw1, q1⟩ := confirmed_form (force := false) (.inl rfl) h1
    obtain ⟨w2, rfl, hw2, q2⟩ := confirmed_form (force := force) (.inr rfl) h3
    obtain ⟨w3, rfl, hw3, q3⟩ := confirmed_form (force := force) (.inl rfl) h4
    obtain ⟨w4, rfl, hw4, q4⟩ := confirmed_form (force := force) (.inl rfl) h5
    right
    refine ⟨w1, w2 ++ w3 ++ w4, .ok (), _, rfl, ?_, hw1, waiting_append (waiting_append hw2 hw3) hw4, ?_, ?_, ?_, .inl rfl⟩
    · rw [hs]; simp
    · simp only [queries_append]; omega
    · simpa using hS
    · intro _; simpa using h2
  | error e =>
    rcases (C66_single_raises I cb force timeout l L e).1 hs with ⟨rfl, h⟩ | ⟨l1, h1, h⟩
    · obtain ⟨w, rfl, hw, q⟩ := missed_form (force := false) (.inl rfl) h
      left
      exact ⟨w, by rw [hs]; simp, hw, q⟩
    · right
      have hS : I l1 = "SAVE" := by obtain ⟨i, _, _, h, _⟩ := h1; simpa using h
      obtain ⟨w1, rfl, hw1, q1⟩ := confirmed_form (force := false) (.inl rfl) h1
      rcases h with ⟨h2, rfl⟩ | ⟨h2, ⟨rfl, h3⟩ | ⟨l2, h3, ⟨rfl, h4⟩ | ⟨l3, h4, rfl, h5⟩⟩⟩
      · refine ⟨w1, [], .error e, _, rfl, ?_, hw1, fun x hx => by simp at hx, ?_, by simpa using hS, fun h => absurd rfl h,
          .inr (.inr ?_)⟩
        · rw [hs]; simp
        · have : queries ([] : Log) = 0 := rfl
          omega
        · simpa using h2.symm
      · obtain ⟨w2, rfl, hw2, q2⟩ := missed_form (force := force) (.inr rfl) h3
        refine ⟨w1, w2, .error .timeout, _, rfl, ?_, hw1, hw2, ?_, by simpa using hS, fun _ => by simpa using h2,
          .inr (.inl rfl)⟩
        · rw [hs]; simp
        · omega
      · obtain ⟨w2, rfl, hw2, q2⟩ := confirmed_form (force := force) (.inr rfl) h3
        obtain ⟨w3, rfl, hw3, q3⟩ := missed_form (force := force) (.inl rfl) h4
        refine ⟨w1, w2 ++ w3, .error .timeout, _, rfl, ?_, hw1, waiting_append hw2 hw3, ?_, by simpa using hS,
          fun _ => by simpa using h2, .inr (.inl rfl)⟩
        · rw [hs]; simp
        · simp only [queries_append]; omega
      · obtain ⟨w2, rfl, hw2, q2⟩ := confirmed_form (force := force) (.inr rfl) h3
        obtain ⟨w3, rfl, hw3, q3⟩ := confirmed_form (force := force) (.inl rfl) h4
        obtain ⟨w4, rfl, hw4, q4⟩ := missed_form (force := force) (.inl rfl) h5
        refine ⟨w1, w2 ++ w3 ++ w4, .error .timeout, _, rfl, ?_, hw1, waiting_append (waiting_append hw2 hw3) hw4, ?_,
          by simpa using hS, fun _ => by simpa using h2, .inr (.inl rfl)⟩
        · rw [hs]; simp
        · simp only [queries_append]; omega

/-! ### Examples

A scope that confirms everything at the second poll. -/

/-- The number of times that something happened. -/
def occurs (x : Event) (l : Log) : ℕ := l.count x

/-- A scope: `SAVE` unless armed, the acquisition is over at the third query of the acquisition state, the number of
acquisitions is correct at query number `n + 1` of it. -/
def scope (n : ℕ) : Instr := fun l =>
  match l.getLast? with
  | some (.io (.query "TRIGGER:STATE?")) => "SAVE"
  | some (.io (.query "ACQUIRE:STATE?")) => if 3 ≤ occurs (.io (.query "ACQUIRE:STATE?")) l then "0" else "1"
  | some (.io (.query "ACQUIRE:NUMACQ?")) => if n < occurs (.io (.query "ACQUIRE:NUMACQ?")) l then "1" else "0"
  | _ => ""

/-- A trigger command that does nothing with the scope. -/
def idle : Callback := fun _ => (.ok (), [])

/-- The scope above is acquired, triggers are forced three times. -/
example : (single (scope 2) idle true 1 []).1.isOk = true ∧
    occurs (msg "TRIGGER FORCE") (single (scope 2) idle true 1 []).2 = 3 ∧
    occurs .trigger (single (scope 2) idle true 1 []).2 = 1 := by decide +kernel

/-- A scope that never stops is not armed. -/
example : (single (fun _ => "RUN") idle true 1 []).1.isOk = false ∧
    occurs (msg "ACQUIRE:STATE RUN") (single (fun _ => "RUN") idle true 1 []).2 = 0 ∧
    occurs .trigger (single (fun _ => "RUN") idle true 1 []).2 = 0 := by decide +kernel

example : (stop (scope 0) 1 []).1.isOk = true ∧ (stop (fun _ => "ARMED") 1 []).1.isOk = false ∧
    (run (fun _ => "ARMED") true 1 []).1.isOk = true ∧ (run (scope 0) true 1 []).1.isOk = false := by decide +kernel

theorem lastPoll_mono {a b : ℚ} (h : a ≤ b) : lastPoll a ≤ lastPoll b := by
  have h' : a * 20 ≤ b * 20 := by linarith
  unfold lastPoll pyTrunc
  split_ifs with h1 h2 h2
  · exact Int.floor_le_floor h'
  · exfalso; linarith
  · push Not at h1
    have := Int.ceil_le_ceil h1.le
    simp only [Int.ceil_zero] at this
    exact this.trans (Int.floor_nonneg.2 h2)
  · exact Int.ceil_le_ceil h'

/-- Between `l` and `l'` there were only polls, and none of those that count for the timeout replied one of the states. -/
def NotInTime (I : Instr) (cmd : String) (states : List String) (timeout : ℚ) (extra : Option String) (l l' : Log) : Prop :=
  (∃ n, l' = l ++ (pollsLog cmd extra n).map .io) ∧
  ∀ i : ℕ, (i : ℤ) ≤ lastPoll timeout → I (l ++ (pollsLog cmd extra i).map .io) ∉ states

/-- C67 for timeouts of at most one second: if `single` raises, then the trigger command raised, or the last of the
confirmations asked for did not come in time. -/
theorem C67_timeout_partial (I : Instr) (cb : Callback) (force : Bool) (timeout : ℚ) (ht : timeout ≤ 1) (l l' : Log)
    (e : PyErr) (h : single I cb force timeout l = (.error e, l')) :
    (∃ l1, (cb l1).1 = .error e ∧ l' = l1 ++ .trigger :: (cb l1).2) ∨ (e = .timeout ∧ ∃ l1, l <+: l1 ∧
      (NotInTime I "TRIGGER:STATE?" ["SAVE"] timeout none l1 l' ∨
      NotInTime I "ACQUIRE:STATE?" ["0"] timeout (forced force) l1 l' ∨
      NotInTime I "ACQUIRE:NUMACQ?" ["1"] timeout none l1 l')) := by
  rcases (C66_single_raises I cb force timeout l l' e).1 h with
    ⟨he, h1⟩ | ⟨l1, c1, ⟨h2, h2'⟩ | ⟨-, ⟨he, h3⟩ | ⟨l2, c2, ⟨he, h4⟩ | ⟨l3, c3, he, h5⟩⟩⟩⟩
  · exact .inr ⟨he, _, List.prefix_append _ _, .inl ⟨⟨_, h1.1⟩, h1.2⟩⟩
  · exact .inl ⟨_, h2, h2'⟩
  all_goals
    obtain ⟨w1, rfl, -, -⟩ := confirmed_form (force := false) (.inl rfl) c1
  · exact .inr ⟨he, _, by simp only [List.append_assoc]; exact List.prefix_append _ _, .inr (.inl ⟨⟨_, h3.1⟩, h3.2⟩)⟩
  all_goals
    obtain ⟨w2, rfl, -, -⟩ := confirmed_form (force := force) (.inr rfl) c2
  · exact .inr ⟨he, _, by simp only [List.append_assoc]; exact List.prefix_append _ _, .inl ⟨⟨_, h4.1⟩, h4.2⟩⟩
  · obtain ⟨w3, rfl, -, -⟩ := confirmed_form (force := force) (.inl rfl) c3
    exact .inr ⟨he, _, by simp only [List.append_assoc]; exact List.prefix_append _ _,
      .inr (.inr ⟨⟨_, h5.1⟩, fun i hi => h5.2 i (hi.trans (lastPoll_mono ht))⟩)⟩

/-- The hypotheses are met: a scope that does not stop, half a second. -/
example : ((1 / 2 : ℚ) ≤ 1) ∧ (single (fun _ => "RUN") idle false (1 / 2) []).1 = .error .timeout := by decide +kernel

/-- C67 is false for longer ones because of the last confirmation: it does not get the timeout that was asked for but one second.  A scope
that reports its one acquisition after 1.5 s fails, with a timeout of 10 s. -/
theorem C67_timeout_fails : (single (scope 30) idle false 10 []).1 = .error .timeout ∧
    queries (single (scope 30) idle false 10 []).2 < 200 := by decide +kernel

end Verif.Props.Acquire
