import Verif.Lemmas.Crossing
import Mathlib.Data.List.GetD

/-!
C05: `lines.crossing`.
-/

namespace Verif.Props.Crossing

open Verif Verif.Lines

/-! ### Specification -/

/-- The searched axis is on different sides of the value at samples `j - 1` and `j`
("above" is strict, "on or below" the other side). -/
def SideChange (y : List ℚ) (v : ℚ) (j : ℕ) : Prop :=
  (y.getD (j-1) 0 ≤ v ∧ v < y.getD j 0) ∨ (y.getD j 0 ≤ v ∧ v < y.getD (j-1) 0)

/-- `z` is where the straight line through samples `j - 1` and `j` has the value `v` on the searched axis, and
lies between the two samples. -/
def Interpolates (x y : List ℚ) (v : ℚ) (j : ℕ) (z : ℚ) : Prop :=
  (z - x.getD (j-1) 0) * (y.getD j 0 - y.getD (j-1) 0)
      = (x.getD j 0 - x.getD (j-1) 0) * (v - y.getD (j-1) 0) ∧
  min (x.getD (j-1) 0) (x.getD j 0) ≤ z ∧ z ≤ max (x.getD (j-1) 0) (x.getD j 0)

theorem interpolates_interp {x y : List ℚ} {v : ℚ} {j : ℕ} (h : SideChange y v j) :
    Interpolates x y v j (interp x y v j) := by
  have hc : Changes y v j := changes_iff.2 h
  have he := interp_mem (ret := x) hc
  refine ⟨he, ?_⟩
  rcases le_total (x.getD (j-1) 0) (x.getD j 0) with hx | hx
  · rw [min_eq_left hx, max_eq_right hx]
    exact line_between hx he h
  · rw [min_eq_right hx, max_eq_left hx]
    -- reverse the roles of the two samples
    have := line_between (x1 := x.getD j 0) (x2 := x.getD (j-1) 0) (y1 := y.getD j 0) (y2 := y.getD (j-1) 0)
      (v := v) (z := interp x y v j) hx (by linarith) (by
        rcases h with h | h
        · right; exact h
        · left; exact h)
    exact this

/-- Effective length of the data: `n`, or the length of the searched axis when `n` is 0. -/
def effective (n : ℕ) (y : List ℚ) : ℕ := if n = 0 then y.length else n

theorem crossing_effective (x y : List ℚ) (i : ℤ) (v : ℚ) (fwd : Bool) (n : ℕ) :
    crossing x y i v fwd n = crossing x y i v fwd (effective n y) := by
  unfold effective
  split
  · subst n; exact crossing_zero_n x y i v fwd
  · rfl

/-! ### C05 -/

/-- **C05 (backwards).** From a start index inside the data the search finds the nearest side change at or before
it and interpolates there; it returns nan (and index 0) exactly if there is none. -/
theorem C05_backward (x y : List ℚ) (i n : ℕ) (v : ℚ) (hx : effective n y ≤ x.length)
    (hy : effective n y ≤ y.length) (h0 : 0 < i) (hi : i < effective n y) :
    (∃ j z, 1 ≤ j ∧ j ≤ i ∧ SideChange y v j ∧ (∀ k, j < k → k ≤ i → ¬ SideChange y v k) ∧
      Interpolates x y v j z ∧ crossing x y i v false n = .ok (some z, (j : ℤ))) ∨
    ((∀ j, 1 ≤ j → j ≤ i → ¬ SideChange y v j) ∧ crossing x y i v false n = .ok (none, 0)) := by
  rw [crossing_effective]
  generalize effective n y = m at *
  rcases crossLoop_back (v := v) hy i (m + 1) hi (by omega) with ⟨j, h1, h2, h3, h4, h5⟩ | ⟨h1, h2⟩
  · left
    exact ⟨j, _, h1, h2, changes_iff.1 h3, fun k a b c => h4 k a b (changes_iff.2 c),
      interpolates_interp (changes_iff.1 h3), crossing_of_loop hx hy h1 (by omega) h5⟩
  · right
    exact ⟨fun j a b c => h1 j a b (changes_iff.2 c), crossing_of_loop_none (by omega) (by omega) h2⟩

/-- **C05 (forwards).** With `step_forward` it finds the nearest side change at or after the start index; nan (and
the length) exactly if there is none. -/
theorem C05_forward (x y : List ℚ) (i n : ℕ) (v : ℚ) (hx : effective n y ≤ x.length)
    (hy : effective n y ≤ y.length) (h0 : 0 < i) (hi : i < effective n y) :
    (∃ j z, i ≤ j ∧ j < effective n y ∧ SideChange y v j ∧ (∀ k, i ≤ k → k < j → ¬ SideChange y v k) ∧
      Interpolates x y v j z ∧ crossing x y i v true n = .ok (some z, (j : ℤ))) ∨
    ((∀ j, i ≤ j → j < effective n y → ¬ SideChange y v j) ∧
      crossing x y i v true n = .ok (none, (effective n y : ℤ))) := by
  rw [crossing_effective]
  generalize effective n y = m at *
  rcases crossLoop_fwd (v := v) hy (m - i) i (m + 1) (by omega) h0 (by omega) with
    ⟨j, h1, h2, h3, h4, h5⟩ | ⟨h1, h2⟩
  · left
    exact ⟨j, _, h1, h2, changes_iff.1 h3, fun k a b c => h4 k a b (changes_iff.2 c),
      interpolates_interp (changes_iff.1 h3), crossing_of_loop hx hy (by omega) (by omega) h5⟩
  · right
    exact ⟨fun j a b c => h1 j a b (changes_iff.2 c), crossing_of_loop_none (by omega) (by omega) h2⟩

/-- **C05 (outside).** A start index outside of the data gives nan and the same index, in both directions. -/
theorem C05_outside (x y : List ℚ) (i : ℤ) (n : ℕ) (v : ℚ) (fwd : Bool)
    (h : i ≤ 0 ∨ (effective n y : ℤ) ≤ i) : crossing x y i v fwd n = .ok (none, i) := by
  rw [crossing_effective]
  generalize hm : effective n y = m at *
  by_cases h0 : m = 0
  · subst h0
    have hy : y.length = 0 := by
      unfold effective at hm; split at hm <;> omega
    have hi : ¬ (0 < i ∧ i < 0) := by omega
    unfold crossing
    simp only [if_true, hy, crossLoop, Nat.cast_zero, if_neg hi, bind, Except.bind, pure, Except.pure]
    rw [if_pos (by omega)]
  · apply crossing_of_loop_none h0 (by omega)
    rw [crossLoop, if_neg (by omega)]
    rfl

/-- The documented example. -/
example : crossing [0, 1, 2, 3, 4] [10, 20, -10, 50, -50] 3 0 = .ok (some (13/6), 3) ∧
    effective 0 [10, 20, -10, 50, -50] ≤ [0, 1, 2, 3, (4 : ℚ)].length := by
  constructor
  · decide +kernel
  · decide

example : crossing [0, 1, 2, 3, 4] [10, 20, -10, 50, -50] 1 0 = .ok (none, 0) := by decide +kernel

end Verif.Props.Crossing
