import Verif.Model.FloatWait
import Verif.Props.Equipment
import Verif.Props.FloatStats

/-!
C90: how long `ask_and_wait` waits, in doubles.
-/

namespace Verif.Props.FloatWait

open Verif Verif.Equip Verif.Float Verif.Props.Equipment Verif.Props.FloatStats

/-! ### Specification -/

/-- The time slept, as the sum of the arguments of `time.sleep`; `d` is the pause as a double. -/
def slept (d : ℚ) (log : List Ev) : ℚ := (log.count .sleep : ℚ) * d

/-- The double 0.05. -/
def pause : ℚ := 3602879701896397 / 2 ^ 56

theorem interval_eq : intervalF = pause := by decide +kernel

/-! ### Lemmas -/

theorem pollsLog_sleeps (cmd : String) (extra : Option String) (n : ℕ) : (pollsLog cmd extra n).count .sleep = n := by
  have hp : (poll cmd extra).count .sleep = 0 := by cases extra <;> simp [poll]
  induction n with
  | zero => exact hp
  | succ n ih => simp [pollsLog, ih, hp]

theorem pyTrunc_int (n : ℤ) : pyTrunc (n : ℚ) = n := by
  unfold pyTrunc
  split <;> simp

/-- The same wait without rounding, with a whole number of pauses. -/
theorem wait_eq (cmd : String) (states : List String) (timeout : ℚ) (extra : Option String) (reply : ℕ → String) :
    askAndWaitF cmd states timeout extra reply = askAndWait cmd states ((countF timeout : ℚ) / 20) extra reply := by
  have : pyTrunc ((countF timeout : ℚ) / 20 / interval) = countF timeout := by
    rw [show (countF timeout : ℚ) / 20 / interval = (countF timeout : ℚ) by unfold interval; ring, pyTrunc_int]
  unfold askAndWaitF askAndWait
  simp only [this]

theorem int_rep (n : ℤ) (h : |n| ≤ 2 ^ 53) : nearest (n : ℚ) = n := by
  have := nearest_rep n 0 h
  simpa using this

theorem pause_pos : (0 : ℚ) < pause := by unfold pause; norm_num

/-- The count is that of the whole pauses in the timeout: a pause more would be longer. -/
theorem count_upper (timeout : ℚ) (h0 : 0 ≤ timeout) (h1 : timeout ≤ 2 ^ 48) :
    0 ≤ countF timeout ∧ timeout < (countF timeout + 1) * pause ∧ countF timeout * pause ≤ timeout * (1 + 1 / 2 ^ 53) := by
  have hq : 0 ≤ timeout / pause := div_nonneg h0 pause_pos.le
  have hn := nearest_nonneg hq
  have e : countF timeout = ⌊nearest (timeout / pause)⌋ := by
    unfold countF pyTrunc
    rw [interval_eq, if_pos hn]
  have hf := Int.floor_le (nearest (timeout / pause))
  have hl := Int.lt_floor_add_one (nearest (timeout / pause))
  have herr := nearest_near (timeout / pause)
  rw [abs_of_nonneg hq, abs_le] at herr
  have hup : nearest (timeout / pause) ≤ timeout / pause * (1 + 1 / 2 ^ 53) := by linarith
  have hbig : timeout / pause ≤ 2 ^ 48 * 20 := by
    rw [div_le_iff₀ pause_pos]
    unfold pause
    norm_num at h1 ⊢
    linarith
  rw [e]
  refine ⟨Int.floor_nonneg.2 hn, ?_, ?_⟩
  · by_contra hc
    push Not at hc
    have h2 : ((⌊nearest (timeout / pause)⌋ + 1 : ℤ) : ℚ) ≤ timeout / pause := by
      rw [le_div_iff₀ pause_pos]
      push_cast
      exact hc
    have h3 : |⌊nearest (timeout / pause)⌋ + 1| ≤ 2 ^ 53 := by
      have h4 : (0 : ℤ) ≤ ⌊nearest (timeout / pause)⌋ + 1 := by have := Int.floor_nonneg.2 hn; omega
      rw [abs_of_nonneg h4]
      have h5 := h2.trans hbig
      have h6 : ((⌊nearest (timeout / pause)⌋ + 1 : ℤ) : ℚ) ≤ ((2 ^ 53 : ℤ) : ℚ) := h5.trans (by norm_num)
      exact_mod_cast h6
    have h7 := nearest_mono h2
    rw [int_rep _ h3] at h7
    push_cast at h7
    linarith
  · have h2 := hf.trans hup
    have h3 := mul_le_mul_of_nonneg_right h2 pause_pos.le
    have h4 : timeout / pause * (1 + 1 / 2 ^ 53) * pause = timeout * (1 + 1 / 2 ^ 53) := by
      rw [mul_right_comm, div_mul_cancel₀ _ pause_pos.ne']
    rw [h4] at h3
    exact h3

theorem count_neg (timeout : ℚ) (h0 : timeout < 0) : countF timeout ≤ 0 := by
  have hq : timeout / pause ≤ 0 := div_nonpos_of_nonpos_of_nonneg h0.le pause_pos.le
  have hn : nearest (timeout / pause) ≤ 0 := by
    have := nearest_mono hq
    rwa [show nearest 0 = 0 by simp [nearest, roundEven]] at this
  unfold countF pyTrunc
  rw [interval_eq]
  split
  · rename_i h
    rw [le_antisymm hn h]
    simp
  · exact Int.ceil_le.2 (by simpa using hn)

theorem count_int (timeout : ℚ) : pyTrunc ((countF timeout : ℚ) / 20 * 20) = countF timeout := by
  rw [div_mul_cancel₀ _ (by norm_num), pyTrunc_int]

/-! ### C90 -/

/-- **C90.** A wait that gives up has slept longer than the timeout, and at most one pause longer, up to one rounding. -/
theorem C90_gives_up (cmd : String) (states : List String) (timeout : ℚ) (extra : Option String) (reply : ℕ → String) (h1 : timeout ≤ 2 ^ 48)
    (h : (askAndWaitF cmd states timeout extra reply).1 = .error .timeout) :
    (0 ≤ timeout → timeout < slept pause (askAndWaitF cmd states timeout extra reply).2) ∧
    slept pause (askAndWaitF cmd states timeout extra reply).2 ≤ max 0 timeout * (1 + 1 / 2 ^ 53) + pause := by
  rw [wait_eq] at h ⊢
  have hno : ∀ i : ℕ, (i : ℤ) ≤ pyTrunc ((countF timeout : ℚ) / 20 * 20) → reply i ∉ states := by
    by_contra hc
    push Not at hc
    classical
    obtain ⟨hi, hm⟩ := Nat.find_spec hc
    rw [C21_returns cmd states _ extra reply (Nat.find hc) hi hm (fun j hj hs => Nat.find_min hc hj ⟨by omega, hs⟩)] at h
    cases h
  rw [C21_timeout cmd states _ extra reply hno]
  unfold slept
  rw [pollsLog_sleeps, count_int]
  rcases lt_or_ge timeout 0 with h0 | h0
  · refine ⟨fun h => absurd h (by linarith), ?_⟩
    rw [max_eq_left h0.le]
    have := count_neg timeout h0
    have h2 : (countF timeout + 1).toNat ≤ 1 := by omega
    have h3 : (((countF timeout + 1).toNat : ℕ) : ℚ) ≤ 1 := by exact_mod_cast h2
    have := mul_le_mul_of_nonneg_right h3 pause_pos.le
    linarith
  · obtain ⟨c0, c1, c2⟩ := count_upper timeout h0 h1
    have e : (((countF timeout + 1).toNat : ℕ) : ℚ) = (countF timeout : ℚ) + 1 := by
      have : (((countF timeout + 1).toNat : ℕ) : ℤ) = countF timeout + 1 := by omega
      exact_mod_cast congrArg (Int.cast : ℤ → ℚ) this
    rw [e, max_eq_right h0]
    exact ⟨fun _ => c1, by linarith⟩

/-- **C90.** A desired state replied within the timeout is returned: by the first query, or by one after pauses that together are not longer. -/
theorem C90_in_time (cmd : String) (states : List String) (timeout : ℚ) (extra : Option String) (reply : ℕ → String) (h0 : 0 ≤ timeout)
    (h1 : timeout ≤ 2 ^ 48) (i : ℕ) (hi : i * pause ≤ timeout) (hm : reply i ∈ states) (hfirst : ∀ j < i, reply j ∉ states) :
    askAndWaitF cmd states timeout extra reply = (.ok (reply i), pollsLog cmd extra i) ∧
      slept pause (askAndWaitF cmd states timeout extra reply).2 = i * pause := by
  obtain ⟨c0, c1, -⟩ := count_upper timeout h0 h1
  have hlt : (i : ℚ) < countF timeout + 1 := lt_of_mul_lt_mul_right (hi.trans_lt c1) pause_pos.le
  have hle : (i : ℤ) ≤ countF timeout := by
    have : (i : ℤ) < countF timeout + 1 := by exact_mod_cast hlt
    omega
  have := C21_returns cmd states _ extra reply i (by rw [count_int]; exact hle) hm hfirst
  rw [wait_eq, this]
  refine ⟨rfl, ?_⟩
  unfold slept
  rw [pollsLog_sleeps]

/-- Whether the desired state is replied only when the timeout has passed makes no difference: TimeoutError. -/
theorem C90_late (cmd : String) (states : List String) (timeout : ℚ) (extra : Option String) (reply : ℕ → String) (h0 : 0 ≤ timeout)
    (h1 : timeout ≤ 2 ^ 48) (hno : ∀ i : ℕ, i * pause ≤ timeout * (1 + 1 / 2 ^ 53) → reply i ∉ states) :
    (askAndWaitF cmd states timeout extra reply).1 = .error .timeout := by
  obtain ⟨c0, -, c2⟩ := count_upper timeout h0 h1
  rw [wait_eq, C21_timeout cmd states _ extra reply]
  intro i hi
  rw [count_int] at hi
  refine hno i (le_trans ?_ c2)
  have : (i : ℚ) ≤ countF timeout := by exact_mod_cast hi
  exact mul_le_mul_of_nonneg_right this pause_pos.le

/-- **The count in floats is not that of the decimal numbers**: a timeout of 0.15 s has three pauses of 0.05 s but the state that is replied after them,
0.15 s after the first query, comes too late, as the double 0.05 is a bit more and the double 0.15 a bit less. -/
theorem C90_decimal_differs :
    let reply : ℕ → String := fun i => if i < 3 then "BUSY" else "READY"
    askAndWaitF "STATE?" ["READY"] (nearest (15 / 100)) none reply = (.error .timeout, pollsLog "STATE?" none 3) ∧
    askAndWait "STATE?" ["READY"] (15 / 100) none reply = (.ok "READY", pollsLog "STATE?" none 3) := by
  intro reply
  have hc : countF (nearest (15 / 100)) = 2 := by decide +kernel
  constructor
  · rw [wait_eq, C21_timeout]
    · rw [count_int, hc]
      rfl
    · intro i hi
      rw [count_int, hc] at hi
      have : i < 3 := by omega
      simp [reply, this]
  · have := C21_returns "STATE?" ["READY"] (15 / 100) none reply 3 (by norm_num [pyTrunc]) (by simp [reply])
      (fun j hj => by simp [reply, hj])
    simpa [reply] using this

/-- The hypotheses of `C90_in_time` are met: the default timeout of 1 s, the state replied to the tenth query. -/
example : let reply : ℕ → String := fun i => if i < 9 then "BUSY" else "READY"
    (9 : ℕ) * pause ≤ 1 ∧ reply 9 ∈ ["READY"] ∧ ∀ j < 9, reply j ∉ ["READY"] := by
  refine ⟨by unfold pause; norm_num, by decide, fun j hj => by simp [hj]⟩

/-- The hypothesis of `C90_late` and of `C90_gives_up` is met: nothing but `BUSY`. -/
example : (askAndWaitF "STATE?" ["READY"] 1 none fun _ => "BUSY").1 = .error .timeout :=
  C90_late _ _ _ _ _ (by norm_num) (by norm_num) (by simp)

end Verif.Props.FloatWait
