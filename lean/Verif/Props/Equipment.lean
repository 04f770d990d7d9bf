import Verif.Model.Equipment
import Mathlib.Tactic.Linarith
import Mathlib.Data.List.Count

/-!
# C21–C23: polling, connection life cycle, driver dispatch
-/

namespace Verif.Props.Equipment

open Verif Verif.Equip

/-! ## C21 -/

/-- Specification of the outside effects of `n+1` polls: a poll, then `n` times (sleep, poll). -/
def pollsLog (cmd : String) (extra : Option String) : ℕ → List Ev
  | 0 => poll cmd extra
  | n + 1 => pollsLog cmd extra n ++ .sleep :: poll cmd extra

/-- Specification of one poll: the additional command, if any, once, then the query. -/
theorem poll_spec (cmd : String) :
    poll cmd none = [.query cmd] ∧ ∀ a, poll cmd (some a) = [.send a, .query cmd] := by
  simp [poll]

theorem waitLoop_hit (cmd : String) (extra : Option String) (states : List String) (reply : ℕ → String) (k : ℕ) :
    ∀ (i : ℕ) (t : ℤ), (k : ℤ) ≤ t → reply (i + k) ∈ states → (∀ j, j < k → reply (i + j) ∉ states) →
      waitLoop cmd extra states reply t i (pollsLog cmd extra i)
        = (t - k, reply (i + k), pollsLog cmd extra (i + k)) := by
  induction k with
  | zero =>
    intro i t ht hm hn
    rw [waitLoop]
    simp at hm
    simp [hm]
  | succ k ih =>
    intro i t ht hm hn
    have h0 := hn 0 (by omega)
    rw [waitLoop, if_pos ⟨by simpa using h0, by omega⟩]
    have e : pollsLog cmd extra i ++ [.sleep] ++ poll cmd extra = pollsLog cmd extra (i + 1) := by
      simp [pollsLog]
    rw [e, ih (i + 1) (t - 1) (by omega) (by convert hm using 2; omega)
      (fun j hj => by have := hn (j + 1) (by omega); convert this using 3; omega)]
    refine Prod.ext ?_ (Prod.ext ?_ ?_)
    · push_cast; ring
    · simp only []; congr 1; omega
    · simp only []; congr 1; omega

theorem waitLoop_miss (cmd : String) (extra : Option String) (states : List String) (reply : ℕ → String) (k : ℕ) :
    ∀ (i : ℕ), (∀ j, j < k → reply (i + j) ∉ states) →
      waitLoop cmd extra states reply ((k : ℤ) - 1) i (pollsLog cmd extra i)
        = (-1, reply (i + k), pollsLog cmd extra (i + k)) := by
  induction k with
  | zero =>
    intro i _
    rw [waitLoop, if_neg (by simp)]
    simp
  | succ k ih =>
    intro i hn
    have h0 := hn 0 (by omega)
    rw [waitLoop, if_pos ⟨by simpa using h0, by push_cast; omega⟩]
    have e : pollsLog cmd extra i ++ [.sleep] ++ poll cmd extra = pollsLog cmd extra (i + 1) := by
      simp [pollsLog]
    have e2 : ((k + 1 : ℕ) : ℤ) - 1 - 1 = (k : ℤ) - 1 := by push_cast; ring
    rw [e, e2, ih (i + 1) (fun j hj => by have := hn (j + 1) (by omega); convert this using 3; omega)]
    refine Prod.ext rfl (Prod.ext ?_ ?_)
    · simp only []; congr 1; omega
    · simp only []; congr 1; omega

/-- C21, a desired state is replied in time: the first poll `i ≤ int(timeout/0.05)` that answers one of the desired
states ends the wait, its reply is returned, and exactly `i+1` polls separated by single sleeps were made. -/
theorem C21_returns (cmd : String) (states : List String) (timeout : ℚ) (extra : Option String) (reply : ℕ → String)
    (i : ℕ) (hi : (i : ℤ) ≤ pyTrunc (timeout * 20)) (hm : reply i ∈ states)
    (hfirst : ∀ j, j < i → reply j ∉ states) :
    askAndWait cmd states timeout extra reply = (.ok (reply i), pollsLog cmd extra i) := by
  have ht : timeout / interval = timeout * 20 := by unfold interval; ring
  have h := waitLoop_hit cmd extra states reply i 0 (pyTrunc (timeout * 20)) hi (by simpa using hm)
    (by simpa using hfirst)
  simp only [Nat.zero_add] at h
  unfold askAndWait
  simp only [ht]
  change (if (waitLoop cmd extra states reply (pyTrunc (timeout * 20)) 0 (pollsLog cmd extra 0)).1 < 0 then _ else _) = _
  rw [show poll cmd extra = pollsLog cmd extra 0 from rfl, h]
  simp only []
  rw [if_neg (by omega)]

/-- C21, otherwise: when none of the polls `0 … int(timeout/0.05)` answers a desired state the result is a
`TimeoutError`, after exactly `int(timeout/0.05) + 2` polls (one poll when that number is negative). -/
theorem C21_timeout (cmd : String) (states : List String) (timeout : ℚ) (extra : Option String) (reply : ℕ → String)
    (hn : ∀ i : ℕ, (i : ℤ) ≤ pyTrunc (timeout * 20) → reply i ∉ states) :
    askAndWait cmd states timeout extra reply
      = (.error .timeout, pollsLog cmd extra (pyTrunc (timeout * 20) + 1).toNat) := by
  have ht : timeout / interval = timeout * 20 := by unfold interval; ring
  unfold askAndWait
  simp only [ht]
  rw [show poll cmd extra = pollsLog cmd extra 0 from rfl]
  by_cases hneg : pyTrunc (timeout * 20) < 0
  · have hw : waitLoop cmd extra states reply (pyTrunc (timeout * 20)) 0 (pollsLog cmd extra 0)
        = (pyTrunc (timeout * 20), reply 0, pollsLog cmd extra 0) := by
      rw [waitLoop, if_neg (fun h => absurd h.2 (by omega))]
    rw [hw]
    simp only []
    rw [if_pos hneg, show (pyTrunc (timeout * 20) + 1).toNat = 0 by omega]
  · have h := waitLoop_miss cmd extra states reply (pyTrunc (timeout * 20) + 1).toNat 0
      (fun j hj => by simpa using hn j (by omega))
    rw [show (((pyTrunc (timeout * 20) + 1).toNat : ℕ) : ℤ) - 1 = pyTrunc (timeout * 20) by omega] at h
    rw [h]
    simp

/-- The number of polls in a log. -/
def nQueries (l : List Ev) : ℕ := l.countP fun e => match e with | .query _ => true | _ => false

theorem nQueries_pollsLog (cmd : String) (extra : Option String) (n : ℕ) :
    nQueries (pollsLog cmd extra n) = n + 1 := by
  have hp : nQueries (poll cmd extra) = 1 := by cases extra <;> simp [nQueries, poll]
  induction n with
  | zero => exact hp
  | succ n ih =>
    unfold nQueries at *
    simp only [pollsLog, List.countP_append, List.countP_cons, ih, hp]
    simp

/-- C21: whatever the instrument replies, the call makes at most `int(timeout/0.05) + 2` polls (one when the timeout
is negative), with the shape of `pollsLog`, and the result is a desired state or `TimeoutError`. -/
theorem C21_bounded (cmd : String) (states : List String) (timeout : ℚ) (extra : Option String) (reply : ℕ → String) :
    (∃ n, (askAndWait cmd states timeout extra reply).2 = pollsLog cmd extra n) ∧
    nQueries (askAndWait cmd states timeout extra reply).2 ≤ (pyTrunc (timeout * 20) + 1).toNat + 1 ∧
    ((askAndWait cmd states timeout extra reply).1 = .error .timeout ∨
      ∃ s ∈ states, (askAndWait cmd states timeout extra reply).1 = .ok s) := by
  by_cases h : ∃ i : ℕ, (i : ℤ) ≤ pyTrunc (timeout * 20) ∧ reply i ∈ states
  · classical
    obtain ⟨hi, hm⟩ := Nat.find_spec h
    have hf : ∀ j, j < Nat.find h → reply j ∉ states := by
      intro j hj hjm
      exact Nat.find_min h hj ⟨by omega, hjm⟩
    rw [C21_returns cmd states timeout extra reply (Nat.find h) hi hm hf]
    refine ⟨⟨_, rfl⟩, ?_, Or.inr ⟨_, hm, rfl⟩⟩
    rw [nQueries_pollsLog]; omega
  · rw [C21_timeout cmd states timeout extra reply (fun i hi hm => h ⟨i, hi, hm⟩)]
    refine ⟨⟨_, rfl⟩, ?_, Or.inl rfl⟩
    rw [nQueries_pollsLog]

/-- A timeout of one second allows 22 polls. -/
example : (pyTrunc ((1 : ℚ) * 20) + 1).toNat + 1 = 22 := by decide +kernel
/-- Hypotheses of `C21_returns`: the third poll answers `READY`. -/
example : ((2 : ℕ) : ℤ) ≤ pyTrunc ((1 : ℚ) * 20) ∧
    (fun i : ℕ => if i < 2 then "BUSY" else "READY") 2 ∈ ["READY", "SAVE"] ∧
    ∀ j, j < 2 → (fun i : ℕ => if i < 2 then "BUSY" else "READY") j ∉ ["READY", "SAVE"] := by
  refine ⟨by decide +kernel, by decide, ?_⟩
  intro j hj; simp [hj]

/-! ## C22 -/

/-- Does the history contain an action that releases the connection? -/
def releases (as : List Act) : Bool :=
  as.any fun a => match a with | .send _ => false | _ => true

theorem runAll_closed (as : List Act) (w : World) : runAll as (⟨none⟩, w) = (⟨none⟩, w) := by
  induction as with
  | nil => rfl
  | cons a as ih =>
    cases a <;> simp [runAll, step, send, close, ih]

/-- C22, any history on an open connection: the resource is closed exactly once if the history contains an explicit
`close()`, a context-manager exit or the drop of the object (in any number and order), and not at all otherwise; no
other resource is closed or opened. -/
theorem C22_closed_once (as : List Act) (h : ℕ) (w : World) :
    (runAll as (⟨some h⟩, w)).2.closes = w.closes ++ (if releases as then [h] else []) ∧
    (runAll as (⟨some h⟩, w)).1.inst = (if releases as then none else some h) ∧
    (runAll as (⟨some h⟩, w)).2.opened = w.opened := by
  induction as generalizing w with
  | nil => simp [runAll, releases]
  | cons a as ih =>
    cases a with
    | send m =>
      have := ih { w with io := w.io ++ [(h, m)] }
      simpa [runAll, step, send, releases] using this
    | close => simp [runAll, step, close, runAll_closed, releases]
    | exit => simp [runAll, step, close, runAll_closed, releases]
    | del => simp [runAll, step, close, runAll_closed, releases]

/-- C22: once released, the object never touches the instrument again: sending raises `AttributeError`, and further
closes are no-ops. -/
theorem C22_after_close (as : List Act) (m : String) (w : World) :
    runAll as (close (⟨none⟩, w)) = (⟨none⟩, w) ∧
    send m (runAll as (⟨none⟩, w)) = (.error .attributeError, (⟨none⟩, w)) := by
  constructor
  · simpa [close] using runAll_closed as w
  · rw [runAll_closed]; rfl

/-- The messages of a history that reach the instrument: those before the first release. -/
def sentBefore : List Act → List String
  | .send m :: as => m :: sentBefore as
  | _ => []

/-- C22: exactly the messages sent before the release reach the instrument. -/
theorem C22_io (as : List Act) (h : ℕ) (w : World) :
    (runAll as (⟨some h⟩, w)).2.io = w.io ++ (sentBefore as).map (fun m => (h, m)) := by
  induction as generalizing w with
  | nil => simp [runAll, sentBefore]
  | cons a as ih =>
    cases a with
    | send m =>
      have := ih { w with io := w.io ++ [(h, m)] }
      simpa [runAll, step, send, sentBefore] using this
    | close => simp [runAll, step, close, runAll_closed, sentBefore]
    | exit => simp [runAll, step, close, runAll_closed, sentBefore]
    | del => simp [runAll, step, close, runAll_closed, sentBefore]

theorem runUntil_spec (as : List Act) (h : ℕ) (w : World) :
    ∃ as', (runUntil as (⟨some h⟩, w)).2 = runAll as' (⟨some h⟩, w) ∧ as' <+: as := by
  have gen : ∀ (as : List Act) (s : Conn × World), ∃ as', (runUntil as s).2 = runAll as' s ∧ as' <+: as := by
    intro as
    induction as with
    | nil => intro s; exact ⟨[], rfl, List.prefix_rfl⟩
    | cons a as ih =>
      intro s
      unfold runUntil
      split
      · rename_i s' hs
        obtain ⟨as', h1, h2⟩ := ih s'
        refine ⟨a :: as', ?_, ?_⟩
        · rw [h1]; simp [runAll, hs]
        · simpa using h2
      · rename_i e s' hs
        exact ⟨[a], by simp [runAll, hs], by simp⟩
  exact gen as _

theorem close_runAll (as : List Act) (s : Conn × World) : close (runAll as s) = runAll (as ++ [.close]) s := by
  induction as generalizing s with
  | nil => rfl
  | cons a as ih => simp [runAll, ih]

/-- The messages of a history. -/
def sends (as : List Act) : List String :=
  as.filterMap fun a => match a with | .send m => some m | _ => none

theorem runUntil_closed (as : List Act) (w : World) :
    (runUntil as (⟨none⟩, w)).1 = if sends as = [] then .ok () else .error .attributeError := by
  induction as with
  | nil => rfl
  | cons a as ih =>
    cases a with
    | send m => simp [runUntil, step, send, sends]
    | close => exact ih
    | exit => exact ih
    | del => exact ih

theorem runUntil_open (as : List Act) (h : ℕ) (w : World) :
    (runUntil as (⟨some h⟩, w)).1 = if sends as = sentBefore as then .ok () else .error .attributeError := by
  induction as generalizing w with
  | nil => rfl
  | cons a as ih =>
    cases a with
    | send m =>
      have hi := ih { w with io := w.io ++ [(h, m)] }
      have hq : (sends (.send m :: as) = sentBefore (.send m :: as)) ↔ sends as = sentBefore as := by simp [sends, sentBefore]
      simp only [hq]
      exact hi
    | close => simpa [runUntil, step, close, sends, sentBefore] using runUntil_closed as _
    | exit => simpa [runUntil, step, close, sends, sentBefore] using runUntil_closed as _
    | del => simpa [runUntil, step, close, sends, sentBefore] using runUntil_closed as _

/-- C22, outcome of a `with` block: AttributeError if the body sends a message after it released the connection itself, else what the body
ends with, unchanged. -/
theorem C22_with_outcome (body : List Act) (raised : Option PyErr) (h : ℕ) (w : World) :
    (sends body = sentBefore body → (withBlock body raised (⟨some h⟩, w)).1 = match raised with | some e => .error e | none => .ok ()) ∧
    (sends body ≠ sentBefore body → (withBlock body raised (⟨some h⟩, w)).1 = .error .attributeError) := by
  have hr := runUntil_open body h w
  unfold withBlock
  constructor
  · intro hb
    rw [if_pos hb] at hr
    split
    · rename_i e s' hs; rw [hs] at hr; cases hr
    · cases raised <;> rfl
  · intro hb
    rw [if_neg hb] at hr
    split
    · rename_i e s' hs; rw [hs] at hr; exact hr
    · rename_i s' hs; rw [hs] at hr; cases hr

/-- Both kinds of bodies. -/
example : sends [.send "*IDN?", .close] = sentBefore [.send "*IDN?", .close] ∧ sends [.close, .send "*IDN?"] ≠ sentBefore [.close, .send "*IDN?"] := by
  decide

/-- C22, `with` block: whether the body ends normally, raises, or closes the connection itself, afterwards the
resource has been closed exactly once, and an exception of the body is passed on. -/
theorem C22_with (body : List Act) (raised : Option PyErr) (h : ℕ) (w : World) :
    (withBlock body raised (⟨some h⟩, w)).2.2.closes = w.closes ++ [h] ∧
    (withBlock body raised (⟨some h⟩, w)).2.1.inst = none ∧
    (∀ e, raised = some e → ∃ e', (withBlock body raised (⟨some h⟩, w)).1 = .error e') := by
  obtain ⟨as', h1, -⟩ := runUntil_spec body h w
  have key : (withBlock body raised (⟨some h⟩, w)).2 = runAll (as' ++ [.close]) (⟨some h⟩, w) := by
    rw [← close_runAll, ← h1]
    unfold withBlock
    split
    · rename_i e s' hs; simp [hs]
    · rename_i s' hs; cases raised <;> simp [hs]
  have hr : releases (as' ++ [.close]) = true := by simp [releases]
  refine ⟨?_, ?_, ?_⟩
  · rw [key, (C22_closed_once _ h w).1, hr]; simp
  · rw [key, (C22_closed_once _ h w).2.1, hr]; simp
  · intro e he
    subst he
    unfold withBlock
    split
    · exact ⟨_, rfl⟩
    · exact ⟨e, rfl⟩

/-- C22, failed construction: when the driver's initialisation raises (and the half-built object is dropped) every
message based resource it opened has been closed exactly once.  The missing part is the non message based resource,
see `C22_not_message_based_fails`. -/
theorem C22_construction_partial (msgs : List Act) (fails : Option PyErr) (w : World) (e : PyErr)
    (hm : ∀ a ∈ msgs, ∃ m, a = .send m)
    (he : (construct (.resource true) msgs fails w).1 = .error e) :
    (construct (.resource true) msgs fails w).2.2.closes = w.closes ++ [w.opened] ∧
    (construct (.resource true) msgs fails w).2.2.opened = w.opened + 1 ∧
    (construct (.resource true) msgs fails w).2.1.inst = none := by
  obtain ⟨as', h1, -⟩ := runUntil_spec msgs w.opened { w with opened := w.opened + 1 }
  have hsend : ∀ (msgs : List Act) (w' : World), (∀ a ∈ msgs, ∃ m, a = .send m) →
      (runUntil msgs (⟨some w.opened⟩, w')).1 = .ok () := by
    intro msgs
    induction msgs with
    | nil => intro w' _; rfl
    | cons a as ih =>
      intro w' hm
      obtain ⟨m, rfl⟩ := hm a (by simp)
      exact ih _ (fun a ha => hm a (by simp [ha]))
  have hok := hsend msgs { w with opened := w.opened + 1 } hm
  have key : (construct (.resource true) msgs fails w).2
      = runAll (as' ++ [.close]) (⟨some w.opened⟩, { w with opened := w.opened + 1 }) := by
    rw [← close_runAll, ← h1]
    revert he
    simp only [construct, init, openResource]
    rcases hr : runUntil msgs (⟨some w.opened⟩, { w with opened := w.opened + 1 }) with ⟨_ | _, s⟩
    · simp [hr]
    · cases fails <;> simp [hr]
  have hr : releases (as' ++ [.close]) = true := by simp [releases]
  obtain ⟨k1, k2, k3⟩ := C22_closed_once (as' ++ [.close]) w.opened { w with opened := w.opened + 1 }
  rw [key, k1, k2, k3, hr]
  simp

/-- C22, a resource that cannot be opened leaves nothing to release. -/
theorem C22_open_raises (e : PyErr) (msgs : List Act) (fails : Option PyErr) (w : World) :
    construct (.raises e) msgs fails w = (.error e, ⟨none⟩, w) := rfl

/-- The claim that a failed construction leaves nothing open is false for a resource that is not message based: it
is opened, the constructor raises, and neither the constructor nor `__del__` ever closes it (only the finaliser of
the VISA library may). -/
theorem C22_not_message_based_fails (msgs : List Act) (fails : Option PyErr) (w : World) :
    (construct (.resource false) msgs fails w).1 = .error .notImplemented ∧
    (construct (.resource false) msgs fails w).2.2.opened = w.opened + 1 ∧
    (construct (.resource false) msgs fails w).2.2.closes = w.closes := ⟨rfl, rfl, rfl⟩

example : releases [.send "*RST", .close, .exit, .del] = true ∧
    runAll [.send "*RST", .close, .exit, .del] (⟨some 0⟩, ⟨1, [], []⟩) = (⟨none⟩, ⟨1, [0], [(0, "*RST")]⟩) := by
  decide +kernel
example : (construct (.resource true) [.send "*IDN?"] (some .valueError) ⟨3, [1], []⟩)
    = (.error .valueError, ⟨none⟩, ⟨4, [1, 3], [(3, "*IDN?")]⟩) := by decide +kernel

/-! ## C23 -/

/-- C23: the probe session is closed before `connect` goes on: on every path the result is either the construction
of a driver started in a world where the probe was closed exactly once, or an error in such a world (or the resource
never opened). -/
theorem C23_probe_closed {D E : Type} (mtch : String → String → Bool) (classes : List (String × D)) (r : OpenResult)
    (ident : Except PyErr String) (construct : D → World → Except PyErr E × World) (w : World) :
    (∃ e, r = .raises e ∧ connect mtch classes r ident construct w = (.error e, w)) ∨
    (∃ w', w'.opened = w.opened + 1 ∧ w'.closes = w.closes ++ [w.opened] ∧
      ((∃ d, connect mtch classes r ident construct w = construct d w') ∨
        ∃ e, connect mtch classes r ident construct w = (.error e, w'))) := by
  rcases r with e | mb
  · exact Or.inl ⟨e, rfl, rfl⟩
  · right
    cases mb with
    | false => exact ⟨_, rfl, rfl, Or.inr ⟨_, rfl⟩⟩
    | true =>
      cases ident with
      | error e => exact ⟨⟨w.opened + 1, w.closes ++ [w.opened], w.io ++ [(w.opened, "*IDN?"), (w.opened, "*IDN?")]⟩, rfl, rfl, Or.inr ⟨e, rfl⟩⟩
      | ok s =>
        refine ⟨⟨w.opened + 1, w.closes ++ [w.opened], w.io ++ [(w.opened, "*IDN?"), (w.opened, "*IDN?")]⟩, rfl, rfl, ?_⟩
        cases hf : classes.find? (fun p => mtch p.1 s) with
        | none => right; exact ⟨.lookupError, by simp [connect, openResource, hf]⟩
        | some p => left; exact ⟨p.2, by simp [connect, openResource, hf]⟩

/-- The world after the probe session: opened, identity asked twice, closed. -/
def probed (w : World) : World :=
  ⟨w.opened + 1, w.closes ++ [w.opened], w.io ++ [(w.opened, "*IDN?"), (w.opened, "*IDN?")]⟩

/-- C23: the driver registered first among those whose pattern matches the identity is constructed. -/
theorem C23_first_match {D E : Type} (mtch : String → String → Bool) (before after : List (String × D)) (p : String × D)
    (ident : String) (construct : D → World → Except PyErr E × World) (w : World)
    (hb : ∀ q ∈ before, mtch q.1 ident = false) (hp : mtch p.1 ident = true) :
    connect mtch (before ++ p :: after) (.resource true) (.ok ident) construct w = construct p.2 (probed w) := by
  have hf : (before ++ p :: after).find? (fun p => mtch p.1 ident) = some p := by
    rw [List.find?_append, List.find?_eq_none.2 (fun q hq => by simp [hb q hq])]
    simp [hp]
  simp [connect, openResource, hf, probed]

/-- C23: when no pattern matches, `LookupError`, and no driver is constructed. -/
theorem C23_no_match {D E : Type} (mtch : String → String → Bool) (classes : List (String × D)) (ident : String)
    (construct : D → World → Except PyErr E × World) (w : World) (hb : ∀ q ∈ classes, mtch q.1 ident = false) :
    connect mtch classes (.resource true) (.ok ident) construct w = (.error .lookupError, probed w) := by
  have hf : classes.find? (fun p => mtch p.1 ident) = none :=
    List.find?_eq_none.2 (fun q hq => by simp [hb q hq])
  simp [connect, openResource, hf, probed]

/-- C23: a non message based resource is refused with `NotImplementedError`, closed, and never written to. -/
theorem C23_not_message_based {D E : Type} (mtch : String → String → Bool) (classes : List (String × D))
    (ident : Except PyErr String) (construct : D → World → Except PyErr E × World) (w : World) :
    connect mtch classes (.resource false) ident construct w
      = (.error .notImplemented, ⟨w.opened + 1, w.closes ++ [w.opened], w.io⟩) := rfl

/-- C23: an exception of the library while asking the identity is passed on, the probe is closed. -/
theorem C23_ident_raises {D E : Type} (mtch : String → String → Bool) (classes : List (String × D))
    (e : PyErr) (construct : D → World → Except PyErr E × World) (w : World) :
    connect mtch classes (.resource true) (.error e) construct w = (.error e, probed w) := rfl

/-- C23: a class that is not an `Equipment` is rejected and the table is unchanged. -/
theorem C23_install_rejects {D : Type} (isEq : D → Bool) (regex : String) (d : D) (classes : List (String × D))
    (h : isEq d = false) : installDriver isEq regex d classes = (.error .typeError, classes) := by
  simp [installDriver, h]

theorem dictSet_keys {D : Type} (l : List (String × D)) (k : String) (v : D) :
    (dictSet l k v).map Prod.fst = if k ∈ l.map Prod.fst then l.map Prod.fst else l.map Prod.fst ++ [k] := by
  induction l with
  | nil => simp [dictSet]
  | cons p t ih =>
    obtain ⟨k', v'⟩ := p
    by_cases h : k' = k
    · subst h; simp [dictSet]
    · simp only [dictSet, if_neg h, List.map_cons, ih, List.mem_cons]
      have h' : ¬ k = k' := fun e => h e.symm
      by_cases hk : k ∈ t.map Prod.fst
      · simp [hk]
      · rw [if_neg hk, if_neg (by simp only [not_or]; exact ⟨h', hk⟩)]; simp

theorem dictSet_find {D : Type} (l : List (String × D)) (k k' : String) (v : D) :
    ((dictSet l k v).find? (fun p => p.1 == k')).map Prod.snd
      = if k' = k then some v else (l.find? (fun p => p.1 == k')).map Prod.snd := by
  induction l with
  | nil => by_cases h : k' = k <;> simp [dictSet, h]; intro h2; exact h h2.symm
  | cons p t ih =>
    obtain ⟨a, b⟩ := p
    by_cases h : a = k
    · subst h
      by_cases h2 : k' = a
      · subst h2; simp [dictSet]
      · have h3 : ¬ a = k' := fun e => h2 e.symm
        simp [dictSet, h2, h3]
    · simp only [dictSet, if_neg h]
      by_cases h2 : k' = a
      · subst h2; simp [h]
      · have h3 : ¬ a = k' := fun e => h2 e.symm
        simp [h3, ih]

/-- C23, one installation: re-installing a pattern keeps the order of the patterns, a new pattern goes last. -/
theorem C23_install_order {D : Type} (isEq : D → Bool) (regex : String) (d : D) (classes : List (String × D))
    (h : isEq d = true) :
    (installDriver isEq regex d classes).1 = .ok () ∧
    (installDriver isEq regex d classes).2.map Prod.fst
      = if regex ∈ classes.map Prod.fst then classes.map Prod.fst else classes.map Prod.fst ++ [regex] := by
  simp only [installDriver, h, if_true, true_and]
  exact dictSet_keys classes regex d

/-- C23, histories: after any sequence of `install_driver` calls the patterns known before keep their places at the
front. -/
theorem C23_priority_kept {D : Type} (isEq : D → Bool) (calls classes : List (String × D)) :
    classes.map Prod.fst <+: (installAll isEq calls classes).map Prod.fst := by
  induction calls generalizing classes with
  | nil => exact List.prefix_rfl
  | cons c t ih =>
    obtain ⟨r, d⟩ := c
    simp only [installAll, installDriver]
    by_cases h : isEq d = true
    · simp only [h, if_true]
      refine List.IsPrefix.trans ?_ (ih _)
      rw [dictSet_keys]
      split
      · exact List.prefix_rfl
      · exact List.prefix_append _ _
    · simp only [Bool.not_eq_true] at h
      simp only [h]; exact ih _

/-- The driver of a pattern in a table. -/
def driverOf {D : Type} (classes : List (String × D)) (regex : String) : Option D :=
  (classes.find? (fun p => p.1 == regex)).map Prod.snd

/-- C23, histories: each pattern leads to the driver of its last accepted installation, or to the driver it had
before. -/
theorem C23_last_install {D : Type} (isEq : D → Bool) (calls classes : List (String × D)) (regex : String) :
    driverOf (installAll isEq calls classes) regex
      = (((calls.filter (fun c => isEq c.2 && c.1 == regex)).getLast?).map Prod.snd).orElse
          (fun _ => driverOf classes regex) := by
  induction calls generalizing classes with
  | nil => rfl
  | cons c t ih =>
    obtain ⟨r, d⟩ := c
    simp only [installAll, installDriver]
    by_cases h : isEq d = true
    · simp only [h, if_true, ih]
      unfold driverOf
      rw [dictSet_find]
      by_cases hr : regex = r
      · subst hr
        have : (List.filter (fun c : String × D => isEq c.2 && c.1 == regex) ((regex, d) :: t))
            = (regex, d) :: List.filter (fun c => isEq c.2 && c.1 == regex) t := by simp [h]
        rw [this, List.getLast?_cons]
        cases hg : (List.filter (fun c : String × D => isEq c.2 && c.1 == regex) t).getLast? <;> simp
      · have hr' : ¬ r = regex := fun e => hr e.symm
        simp [hr, hr']
    · simp only [Bool.not_eq_true] at h
      simp [h, ih]

/-! ### The built-in table -/

theorem pre_lit (s : List Char) (x : List Char) : pre (s.map fun c => [c]) x = true ↔ s <+: x := by
  induction s generalizing x with
  | nil => simp [pre]
  | cons c s ih =>
    cases x with
    | nil => simp [pre]
    | cons a x =>
      simp only [List.map_cons, pre, Bool.and_eq_true, ih, List.cons_prefix_cons]
      simp [eq_comm]

theorem pre_append (s t : List Cls) (x : List Char) :
    pre (s ++ t) x = true ↔ ∃ a b, x = a ++ b ∧ full s a = true ∧ pre t b = true := by
  induction s generalizing x with
  | nil =>
    constructor
    · intro h; exact ⟨[], x, rfl, rfl, h⟩
    · rintro ⟨a, b, rfl, h1, h2⟩
      cases a with
      | nil => simpa using h2
      | cons _ _ => simp [full] at h1
  | cons c s ih =>
    cases x with
    | nil =>
      simp only [List.cons_append, pre]
      constructor
      · intro h; simp at h
      · rintro ⟨a, b, he, h1, h2⟩
        have : a = [] := by
          cases a with
          | nil => rfl
          | cons _ _ => simp at he
        subst this; simp [full] at h1
    | cons y x =>
      simp only [List.cons_append, pre, Bool.and_eq_true, ih]
      constructor
      · rintro ⟨hc, a, b, rfl, h1, h2⟩
        exact ⟨y :: a, b, rfl, by simp only [full, Bool.and_eq_true]; exact ⟨hc, h1⟩, h2⟩
      · rintro ⟨a, b, he, h1, h2⟩
        cases a with
        | nil => simp [full] at h1
        | cons z a =>
          simp only [List.cons_append, List.cons.injEq] at he
          obtain ⟨rfl, rfl⟩ := he
          simp only [full, Bool.and_eq_true] at h1
          exact ⟨h1.1, a, b, rfl, h1.2, h2⟩

theorem full_noComma (s : List Cls) (hs : ∀ c ∈ s, ',' ∉ c) (x : List Char) (h : full s x = true) : ',' ∉ x := by
  induction s generalizing x with
  | nil => cases x with
    | nil => simp
    | cons _ _ => simp [full] at h
  | cons c s ih =>
    cases x with
    | nil => simp
    | cons a x =>
      simp only [full, Bool.and_eq_true, List.contains_iff_mem] at h
      have h1 := hs c (by simp)
      have h2 := ih (fun c hc => hs c (by simp [hc])) x h.2
      simp only [List.mem_cons, not_or]
      refine ⟨?_, h2⟩
      rintro rfl
      exact h1 h.1

/-- What an identity matched by a table looks like. -/
theorem tableMatch_iff (tbl : List (List Cls)) (identity : List Char) :
    tableMatch tbl identity = true ↔
      ∃ s ∈ tbl, ∃ m rest, full s m = true ∧ identity = "TEKTRONIX,".toList ++ m ++ ',' :: rest := by
  unfold tableMatch
  rw [List.any_eq_true]
  constructor
  · rintro ⟨s, hs, hp⟩
    rw [List.append_assoc, pre_append] at hp
    obtain ⟨a, b, rfl, h1, h2⟩ := hp
    rw [pre_append] at h2
    obtain ⟨m, c, rfl, h3, h4⟩ := h2
    refine ⟨s, hs, m, c.tail, h3, ?_⟩
    have ha : a = "TEKTRONIX,".toList := by
      have gen : ∀ (l a : List Char), full (l.map fun c => [c]) a = true → a = l := by
        intro l
        induction l with
        | nil => intro a h; cases a with
          | nil => rfl
          | cons _ _ => simp [full] at h
        | cons x l ih => intro a h; cases a with
          | nil => simp [full] at h
          | cons y a =>
            simp only [List.map_cons, full, Bool.and_eq_true] at h
            have := ih a h.2
            have h1 : y = x := by simpa using h.1
            rw [this, h1]
      exact gen _ a h1
    cases c with
    | nil => simp [lit, pre] at h4
    | cons y c =>
      have : y = ',' := by simpa [lit, pre] using h4
      subst this
      simp [ha]
  · rintro ⟨s, hs, m, rest, hf, rfl⟩
    refine ⟨s, hs, ?_⟩
    rw [List.append_assoc, List.append_assoc, pre_append]
    refine ⟨"TEKTRONIX,".toList, m ++ ',' :: rest, rfl, by decide +kernel, ?_⟩
    rw [pre_append]
    exact ⟨m, ',' :: rest, rfl, hf, by simp [lit, pre]⟩

theorem modelField_spec (m rest : List Char) (hm : ',' ∉ m) :
    modelField ("TEKTRONIX,".toList ++ m ++ ',' :: rest) = some m := by
  have h : ("TEKTRONIX,".toList ++ m ++ ',' :: rest).dropWhile (· ≠ ',') = ',' :: (m ++ ',' :: rest) := by
    simp [List.dropWhile]
  unfold modelField
  rw [h]
  simp only []
  have gen : ∀ m : List Char, ',' ∉ m → (m ++ ',' :: rest).takeWhile (· ≠ ',') = m := by
    intro m
    induction m with
    | nil => intro _; simp
    | cons a m ih =>
      intro h
      simp only [List.mem_cons, not_or] at h
      have ha : a ≠ ',' := fun e => h.1 e.symm
      rw [List.cons_append, List.takeWhile_cons, if_pos (by simpa using ha), ih h.2]
  rw [gen m hm]

/-- If all classes of a table avoid the comma, an identity matched through the alternative `s` is accepted by every
driver that lists `s`. -/
theorem accepts_of_mem (drv : List (List Cls)) (s : List Cls) (hs : s ∈ drv) (hc : ∀ c ∈ s, ',' ∉ c)
    (m rest : List Char) (hf : full s m = true) :
    driverAccepts drv ("TEKTRONIX,".toList ++ m ++ ',' :: rest) = .ok () := by
  unfold driverAccepts
  rw [if_pos (by rw [List.isPrefixOf_iff_prefix, List.append_assoc]; exact List.prefix_append _ _),
    modelField_spec m rest (full_noComma s hc m hf)]
  simp only []
  rw [if_pos (List.any_eq_true.2 ⟨s, hs, hf⟩)]

/-- C23, built-in table, 3000/4000 series: every identity the table maps to `MSO4000Family` passes the identity
check of that driver.  The full claim (for both drivers) is false, see `C23_accepts_fails`. -/
theorem C23_accepts_partial (identity : List Char) (h : builtinSelect identity = some .mso4000) :
    driverAccepts (builtinModels .mso4000) identity = .ok () := by
  have hm : tableMatch table4000 identity = true := by
    unfold builtinSelect at h
    by_contra hc
    rw [if_neg hc] at h
    split at h <;> simp at h
  obtain ⟨s, hs, m, rest, hf, rfl⟩ := (tableMatch_iff _ _).1 hm
  have hall : ∀ s ∈ table4000, s ∈ driver4000 ∧ ∀ c ∈ s, ',' ∉ c := by decide +kernel
  exact accepts_of_mem _ s (hall s hs).1 (hall s hs).2 m rest hf

/-- The claim that a selected driver accepts the instrument is false for the 4/5/6 series: an `MSO45` is dispatched
to `MSO456Family`, whose constructor then raises `ValueError` for it. -/
theorem C23_accepts_fails :
    builtinSelect "TEKTRONIX,MSO45,C012345,CF:91.1CT FV:1.28".toList = some .mso456 ∧
    driverAccepts (builtinModels .mso456) "TEKTRONIX,MSO45,C012345,CF:91.1CT FV:1.28".toList = .error .valueError := by
  decide +kernel

/-- The models that the documentation of `MSO456Family` lists (family_mso456.py:158-163). -/
def documented456 : List (List Char) :=
  ["MSO44", "MSO46", "MSO54", "MSO56", "MSO58", "MSO54B", "MSO56B", "MSO58B", "MSO58LP", "MSO64", "MSO64B", "MSO66B",
   "MSO68B", "LPD64"].map String.toList

theorem split_unique {m m' r r' : List Char} (hm : ',' ∉ m) (hm' : ',' ∉ m') (h : m ++ ',' :: r = m' ++ ',' :: r') :
    m = m' := by
  induction m generalizing m' with
  | nil =>
    cases m' with
    | nil => rfl
    | cons a m' =>
      simp only [List.nil_append, List.cons_append, List.cons.injEq] at h
      exact absurd (by rw [← h.1]; simp) hm'
  | cons a m ih =>
    cases m' with
    | nil =>
      simp only [List.nil_append, List.cons_append, List.cons.injEq] at h
      exact absurd (by rw [h.1]; simp) hm
    | cons b m' =>
      simp only [List.cons_append, List.cons.injEq] at h
      simp only [List.mem_cons, not_or] at hm hm'
      rw [h.1, ih hm.2 hm'.2 h.2]

/-- C23, built-in table, 4/5/6 series: every documented model is dispatched to `MSO456Family`, whatever follows in the
identity, and passes the identity check of that driver.  Missing: models that the table matches and the driver does
not list, see `C23_accepts_fails`. -/
theorem C23_accepts_456_partial (m rest : List Char) (hm : m ∈ documented456) :
    builtinSelect ("TEKTRONIX,".toList ++ m ++ ',' :: rest) = some .mso456 ∧
    driverAccepts (builtinModels .mso456) ("TEKTRONIX,".toList ++ m ++ ',' :: rest) = .ok () := by
  have hall : ∀ m ∈ documented456, ',' ∉ m ∧ (∃ s ∈ table456, full s m = true) ∧ (∀ s ∈ table4000, full s m = false) ∧
      ∃ s ∈ driver456, full s m = true ∧ ∀ c ∈ s, ',' ∉ c := by decide +kernel
  have hcomma : ∀ s ∈ table4000, ∀ c ∈ s, ',' ∉ c := by decide +kernel
  obtain ⟨h1, ⟨s, hs, hf⟩, h3, s', hs', hf', hc'⟩ := hall m hm
  refine ⟨?_, accepts_of_mem _ s' hs' hc' m rest hf'⟩
  have hno : ¬ tableMatch table4000 ("TEKTRONIX,".toList ++ m ++ ',' :: rest) = true := by
    intro h
    obtain ⟨s, hs, m', rest', hf, he⟩ := (tableMatch_iff _ _).1 h
    rw [List.append_assoc, List.append_assoc] at he
    have := split_unique h1 (full_noComma s (hcomma s hs) m' hf) (List.append_cancel_left he)
    subst this
    rw [h3 s hs] at hf
    simp at hf
  unfold builtinSelect
  rw [if_neg hno, if_pos ((tableMatch_iff _ _).2 ⟨s, hs, m, rest, hf, rfl⟩)]

example : "MSO58LP".toList ∈ documented456 := by decide +kernel

/-- Two sequences of classes clash when some common position has disjoint classes. -/
def clash : List Cls → List Cls → Bool
  | c :: s, d :: t => (!(c.any fun x => d.contains x)) || clash s t
  | _, _ => false

theorem clash_spec (s t : List Cls) (h : clash s t = true) (x : List Char) (h1 : pre s x = true) : pre t x = false := by
  induction s generalizing t x with
  | nil => simp [clash] at h
  | cons c s ih =>
    cases t with
    | nil => simp [clash] at h
    | cons d t =>
      cases x with
      | nil => rfl
      | cons a x =>
        simp only [pre, Bool.and_eq_true] at h1
        simp only [clash, Bool.or_eq_true, Bool.not_eq_true'] at h
        simp only [pre]
        rcases h with h | h
        · have : d.contains a = false := by
            by_contra hc
            simp only [Bool.not_eq_false] at hc
            rw [List.any_eq_false] at h
            exact h a (by simpa using h1.1) hc
          rw [this]; rfl
        · rw [ih t h x h1.2]; simp

/-- C23: no identity matches both built-in patterns, so their order is irrelevant. -/
theorem C23_builtin_disjoint (identity : List Char) (h : tableMatch table456 identity = true) :
    tableMatch table4000 identity = false := by
  unfold tableMatch at *
  rw [List.any_eq_true] at h
  obtain ⟨s, hs, hp⟩ := h
  rw [List.any_eq_false]
  intro t ht
  have hall : ∀ s ∈ table456, ∀ t ∈ table4000,
      clash (lit "TEKTRONIX," ++ s ++ lit ",") (lit "TEKTRONIX," ++ t ++ lit ",") = true := by decide +kernel
  rw [clash_spec _ _ (hall s hs t ht) identity hp]
  simp

/-- C23: every instrument one of the built-in drivers supports is dispatched to that driver (the identity has a
serial number or version field after the model). -/
theorem C23_supported_dispatched (b : Builtin) (m rest : List Char)
    (h : (builtinModels b).any (full · m) = true) :
    builtinSelect ("TEKTRONIX,".toList ++ m ++ ',' :: rest) = some b := by
  rw [List.any_eq_true] at h
  obtain ⟨s, hs, hf⟩ := h
  have refine_full : ∀ (s t : List Cls) (m : List Char), s.length = t.length →
      (List.zipWith (fun c d : Cls => c.all fun x => d.contains x) s t).all id = true →
      full s m = true → full t m = true := by
    intro s
    induction s with
    | nil => intro t m hl _ hf; cases t with
      | nil => exact hf
      | cons _ _ => simp at hl
    | cons c s ih => intro t m hl hz hf; cases t with
      | nil => simp at hl
      | cons d t => cases m with
        | nil => simp [full] at hf
        | cons a m =>
          simp only [List.zipWith_cons_cons, List.all_cons, Bool.and_eq_true, id] at hz
          simp only [full, Bool.and_eq_true, List.contains_iff_mem] at hf ⊢
          have := List.all_eq_true.1 hz.1 a hf.1
          exact ⟨by simpa using this, ih t m (by simpa using hl) hz.2 hf.2⟩
  cases b with
  | mso4000 =>
    have hall : ∀ s ∈ driver4000, s ∈ table4000 := by decide +kernel
    have : tableMatch table4000 ("TEKTRONIX,".toList ++ m ++ ',' :: rest) = true :=
      (tableMatch_iff _ _).2 ⟨s, hall s hs, m, rest, hf, rfl⟩
    unfold builtinSelect; rw [if_pos this]
  | mso456 =>
    have hall : ∀ s ∈ driver456, ∃ t ∈ table456, s.length = t.length ∧
      (List.zipWith (fun c d : Cls => c.all fun x => d.contains x) s t).all id = true := by decide +kernel
    obtain ⟨t, ht, hl, hz⟩ := hall s hs
    have h456 : tableMatch table456 ("TEKTRONIX,".toList ++ m ++ ',' :: rest) = true :=
      (tableMatch_iff _ _).2 ⟨t, ht, m, rest, refine_full s t m hl hz hf, rfl⟩
    have h4000 := C23_builtin_disjoint _ h456
    unfold builtinSelect
    rw [if_neg (by rw [h4000]; exact Bool.false_ne_true), if_pos h456]

example : builtinSelect "TEKTRONIX,MDO4054B,C0,FV".toList = some .mso4000 ∧
    builtinSelect "TEKTRONIX,MSO58LP,C0,FV".toList = some .mso456 ∧ builtinSelect "KEITHLEY,2400,1,2".toList = none := by
  decide +kernel
example : (builtinModels .mso456).any (full · "MSO58LP".toList) = true := by decide +kernel
/-- Hypotheses of `C23_first_match`: two registered patterns match, the earlier one wins. -/
example : connect (E := ℕ) (fun r i => r == "any" || r == i) [("x", 0), ("any", 1), ("ID", 2)] (.resource true) (.ok "ID")
    (fun d w => (.ok d, w)) ⟨0, [], []⟩ = (.ok 1, ⟨1, [0], [(0, "*IDN?"), (0, "*IDN?")]⟩) := by rfl

end Verif.Props.Equipment
