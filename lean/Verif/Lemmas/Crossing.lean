import Verif.Model.Lines
import Mathlib.Tactic.Linarith
import Mathlib.Tactic.Ring
import Mathlib.Tactic.FieldSimp
import Mathlib.Tactic.NormNum

/-! Helper lemmas about `crossing` and `edges` (C05-C07). -/

namespace Verif.Lines

open Verif

theorem pyGet_ok {l : List ℚ} {i : ℕ} (h : i < l.length) : pyGet l i = .ok (l.getD i 0) := by
  simp [pyGet, h]

/-- side change of the searched axis between `j-1` and `j` -/
def Changes (y : List ℚ) (v : ℚ) (j : ℕ) : Prop := ¬ (y.getD j 0 > v ↔ y.getD (j - 1) 0 > v)

theorem crossLoop_step {srch : List ℚ} {v : ℚ} {fwd : Bool} {n fuel i : ℕ} (hn : n ≤ srch.length) (h0 : 0 < i)
    (hi : i < n) :
    (Changes srch v i → crossLoop srch v fwd n (fuel + 1) i = .ok (i : ℤ)) ∧
    (¬ Changes srch v i → crossLoop srch v fwd n (fuel + 1) i =
      crossLoop srch v fwd n fuel (if fwd then (i : ℤ) + 1 else i - 1)) := by
  have hc : (0 : ℤ) < i ∧ (i : ℤ) < n := by omega
  rw [crossLoop, if_pos hc]
  simp only [Int.toNat_natCast]
  rw [pyGet_ok (by omega), pyGet_ok (by omega)]
  simp only [bind, Except.bind]
  unfold Changes
  constructor
  · intro h
    rw [if_neg]
    · rfl
    · simpa using h
  · intro h
    rw [if_pos]
    simpa using h

theorem crossLoop_back {srch : List ℚ} {v : ℚ} {n : ℕ} (hn : n ≤ srch.length) :
    ∀ (i fuel : ℕ), i < n → i < fuel →
      (∃ j, 1 ≤ j ∧ j ≤ i ∧ Changes srch v j ∧ (∀ k, j < k → k ≤ i → ¬ Changes srch v k) ∧
        crossLoop srch v false n fuel i = .ok (j : ℤ)) ∨
      ((∀ j, 1 ≤ j → j ≤ i → ¬ Changes srch v j) ∧ crossLoop srch v false n fuel i = .ok 0) := by
  intro i
  induction i with
  | zero =>
    intro fuel _ hf
    right
    obtain ⟨f, rfl⟩ : ∃ f, fuel = f + 1 := ⟨fuel - 1, by omega⟩
    refine ⟨fun j h1 h2 => by omega, ?_⟩
    simp [crossLoop]; rfl
  | succ i ih =>
    intro fuel hi hf
    obtain ⟨f, rfl⟩ : ∃ f, fuel = f + 1 := ⟨fuel - 1, by omega⟩
    have hs := crossLoop_step (v := v) (fwd := false) (fuel := f) hn (Nat.succ_pos i) hi
    by_cases hc : Changes srch v (i + 1)
    · left
      exact ⟨i + 1, by omega, le_refl _, hc, fun k h1 h2 => by omega, hs.1 hc⟩
    · have e : crossLoop srch v false n (f + 1) ((i + 1 : ℕ) : ℤ) = crossLoop srch v false n f (i : ℤ) := by
        have e := hs.2 hc
        simp only [Bool.false_eq_true, if_false] at e
        rw [show (((i.succ : ℕ) : ℤ) - 1) = (i : ℤ) by push_cast; ring] at e
        exact e
      rcases ih f (by omega) (by omega) with ⟨j, h1, h2, h3, h4, h5⟩ | ⟨h1, h2⟩
      · left
        refine ⟨j, h1, by omega, h3, fun k hk1 hk2 => ?_, by rw [e]; exact h5⟩
        rcases Nat.lt_or_ge i k with h | h
        · obtain rfl : k = i + 1 := by omega
          exact hc
        · exact h4 k hk1 h
      · right
        refine ⟨fun j hj1 hj2 => ?_, by rw [e]; exact h2⟩
        rcases Nat.lt_or_ge i j with h | h
        · obtain rfl : j = i + 1 := by omega
          exact hc
        · exact h1 j hj1 h

theorem crossLoop_fwd {srch : List ℚ} {v : ℚ} {n : ℕ} (hn : n ≤ srch.length) :
    ∀ (m i fuel : ℕ), i + m = n → 0 < i → m < fuel →
      (∃ j, i ≤ j ∧ j < n ∧ Changes srch v j ∧ (∀ k, i ≤ k → k < j → ¬ Changes srch v k) ∧
        crossLoop srch v true n fuel i = .ok (j : ℤ)) ∨
      ((∀ j, i ≤ j → j < n → ¬ Changes srch v j) ∧ crossLoop srch v true n fuel i = .ok (n : ℤ)) := by
  intro m
  induction m with
  | zero =>
    intro i fuel hi h0 hf
    right
    obtain ⟨f, rfl⟩ : ∃ f, fuel = f + 1 := ⟨fuel - 1, by omega⟩
    refine ⟨fun j h1 h2 => by omega, ?_⟩
    have : ¬ ((0:ℤ) < (i : ℤ) ∧ (i : ℤ) < n) := by omega
    rw [crossLoop, if_neg this]
    have : (i : ℤ) = n := by omega
    rw [this]; rfl
  | succ m ih =>
    intro i fuel hi h0 hf
    obtain ⟨f, rfl⟩ : ∃ f, fuel = f + 1 := ⟨fuel - 1, by omega⟩
    have hs := crossLoop_step (v := v) (fwd := true) (fuel := f) hn h0 (by omega)
    by_cases hc : Changes srch v i
    · left
      exact ⟨i, by omega, by omega, hc, fun k h1 h2 => by omega, hs.1 hc⟩
    · have e : crossLoop srch v true n (f + 1) (i : ℤ) = crossLoop srch v true n f ((i + 1 : ℕ) : ℤ) := by
        have e := hs.2 hc
        simp only [if_true] at e
        rw [e]; norm_cast
      rcases ih (i + 1) f (by omega) (by omega) (by omega) with ⟨j, h1, h2, h3, h4, h5⟩ | ⟨h1, h2⟩
      · left
        refine ⟨j, by omega, by omega, h3, fun k hk1 hk2 => ?_, by rw [e]; exact h5⟩
        rcases Nat.lt_or_ge i k with h | h
        · exact h4 k h hk2
        · obtain rfl : k = i := by omega
          exact hc
      · right
        refine ⟨fun j hj1 hj2 => ?_, by rw [e]; exact h2⟩
        rcases Nat.lt_or_ge i j with h | h
        · exact h1 j h hj2
        · obtain rfl : j = i := by omega
          exact hc

/-- the interpolated value of the model -/
def interp (ret srch : List ℚ) (v : ℚ) (j : ℕ) : ℚ :=
  (ret.getD j 0 - ret.getD (j-1) 0) / (srch.getD j 0 - srch.getD (j-1) 0) * (v - srch.getD (j-1) 0)
    + ret.getD (j-1) 0

theorem crossing_of_loop {ret srch : List ℚ} {i : ℤ} {v : ℚ} {fwd : Bool} {n j : ℕ} (hr : n ≤ ret.length)
    (hn : n ≤ srch.length) (h1 : 1 ≤ j) (h2 : j < n)
    (h : crossLoop srch v fwd n (n + 1) i = .ok (j : ℤ)) :
    crossing ret srch i v fwd n = .ok (some (interp ret srch v j), (j : ℤ)) := by
  unfold crossing
  have hn0 : n ≠ 0 := by omega
  simp only [if_neg hn0, h, bind, Except.bind]
  rw [if_neg (by omega)]
  simp only [Int.toNat_natCast]
  rw [pyGet_ok (by omega), pyGet_ok (by omega), pyGet_ok (by omega), pyGet_ok (by omega)]
  rfl

theorem crossing_of_loop_none {ret srch : List ℚ} {i : ℤ} {v : ℚ} {fwd : Bool} {n : ℕ} {j : ℤ}
    (hn0 : n ≠ 0) (h12 : j < 1 ∨ n ≤ j)
    (h : crossLoop srch v fwd n (n + 1) i = .ok j) :
    crossing ret srch i v fwd n = .ok (none, j) := by
  unfold crossing
  simp only [if_neg hn0, h, bind, Except.bind]
  rw [if_pos (by omega)]
  rfl

theorem crossing_zero_n (ret srch : List ℚ) (i : ℤ) (v : ℚ) (fwd : Bool) :
    crossing ret srch i v fwd 0 = crossing ret srch i v fwd srch.length := by
  unfold crossing
  by_cases h : srch.length = 0 <;> simp [h]

theorem interp_mem {ret srch : List ℚ} {v : ℚ} {j : ℕ} (h : Changes srch v j) :
    (interp ret srch v j - ret.getD (j-1) 0) * (srch.getD j 0 - srch.getD (j-1) 0)
      = (ret.getD j 0 - ret.getD (j-1) 0) * (v - srch.getD (j-1) 0) := by
  have hne : srch.getD j 0 - srch.getD (j-1) 0 ≠ 0 := by
    intro he
    apply h
    have : srch.getD j 0 = srch.getD (j-1) 0 := by linarith
    rw [this]
  unfold interp
  field_simp
  ring

theorem line_between {x1 x2 y1 y2 v z : ℚ} (hx : x1 ≤ x2) (h : (z - x1) * (y2 - y1) = (x2 - x1) * (v - y1))
    (hv : (y1 ≤ v ∧ v < y2) ∨ (y2 ≤ v ∧ v < y1)) : x1 ≤ z ∧ z ≤ x2 := by
  rcases hv with ⟨h1, h2⟩ | ⟨h1, h2⟩
  · have hd : 0 < y2 - y1 := by linarith
    constructor
    · by_contra hc
      push Not at hc
      have : (z - x1) * (y2 - y1) < 0 := mul_neg_of_neg_of_pos (by linarith) hd
      have : 0 ≤ (x2 - x1) * (v - y1) := mul_nonneg (by linarith) (by linarith)
      linarith
    · by_contra hc
      push Not at hc
      have : (x2 - x1) * (v - y1) ≤ (x2 - x1) * (y2 - y1) := mul_le_mul_of_nonneg_left (by linarith) (by linarith)
      have : (x2 - x1) * (y2 - y1) < (z - x1) * (y2 - y1) := mul_lt_mul_of_pos_right (by linarith) hd
      linarith
  · have hd : 0 < y1 - y2 := by linarith
    constructor
    · by_contra hc
      push Not at hc
      have : (z - x1) * (y1 - y2) < 0 := mul_neg_of_neg_of_pos (by linarith) hd
      have : 0 ≤ (x2 - x1) * (y1 - v) := mul_nonneg (by linarith) (by linarith)
      linarith
    · by_contra hc
      push Not at hc
      have : (x2 - x1) * (y1 - v) ≤ (x2 - x1) * (y1 - y2) := mul_le_mul_of_nonneg_left (by linarith) (by linarith)
      have : (x2 - x1) * (y1 - y2) < (z - x1) * (y1 - y2) := mul_lt_mul_of_pos_right (by linarith) hd
      linarith

theorem line_lt_right {x1 x2 y1 y2 v z : ℚ} (hx : x1 < x2) (h : (z - x1) * (y2 - y1) = (x2 - x1) * (v - y1))
    (hv : (y1 ≤ v ∧ v < y2) ∨ (y2 < v ∧ v < y1)) : z < x2 := by
  rcases hv with ⟨h1, h2⟩ | ⟨h1, h2⟩
  · by_contra hc
    push Not at hc
    have : (x2 - x1) * (v - y1) < (x2 - x1) * (y2 - y1) := mul_lt_mul_of_pos_left (by linarith) (by linarith)
    have : (x2 - x1) * (y2 - y1) ≤ (z - x1) * (y2 - y1) := mul_le_mul_of_nonneg_right (by linarith) (by linarith)
    linarith
  · by_contra hc
    push Not at hc
    have : (x2 - x1) * (y1 - v) < (x2 - x1) * (y1 - y2) := mul_lt_mul_of_pos_left (by linarith) (by linarith)
    have : (x2 - x1) * (y1 - y2) ≤ (z - x1) * (y1 - y2) := mul_le_mul_of_nonneg_right (by linarith) (by linarith)
    linarith

theorem changes_iff {y : List ℚ} {v : ℚ} {j : ℕ} :
    Changes y v j ↔ (y.getD (j-1) 0 ≤ v ∧ v < y.getD j 0) ∨ (y.getD j 0 ≤ v ∧ v < y.getD (j-1) 0) := by
  unfold Changes
  rw [← not_lt, ← not_lt]
  tauto

/-- no side change in `(p, i]` means the same side at `p` and `i` -/
theorem side_const {y : List ℚ} {v : ℚ} {p : ℕ} : ∀ {i : ℕ}, p ≤ i →
    (∀ k, p < k → k ≤ i → ¬ Changes y v k) → (y.getD i 0 > v ↔ y.getD p 0 > v) := by
  intro i
  induction i with
  | zero => intro h _; obtain rfl : p = 0 := by omega
            rfl
  | succ i ih =>
    intro h hc
    rcases Nat.lt_or_ge i p with hlt | hge
    · obtain rfl : p = i + 1 := by omega
      rfl
    · have h1 := ih hge (fun k hk1 hk2 => hc k hk1 (by omega))
      have h2 := hc (i + 1) (by omega) le_rfl
      unfold Changes at h2
      simp only [Nat.add_sub_cancel] at h2
      tauto

end Verif.Lines
