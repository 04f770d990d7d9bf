import Verif.Props.FloatPercentile

/-!
C120: a more open eye has no larger closure penalty.
-/

namespace Verif.Props.ClosureMonotone

open Verif Verif.Pam2 Verif.Props.FloatVecp Verif.Props.FloatPercentile

/-- Every sample of the first list is at most its partner in the second. -/
abbrev Below (l m : List ℚ) : Prop := List.Forall₂ (· ≤ ·) l m

theorem insert_head (a : ℚ) (l : List ℚ) (h : (a :: l).Pairwise (· ≤ ·)) : l.orderedInsert (· ≤ ·) a = a :: l := by
  cases l with
  | nil => rfl
  | cons b l =>
    rw [List.orderedInsert_cons, if_pos]
    exact (List.pairwise_cons.1 h).1 b (by simp)

theorem insert_below {a b : ℚ} (hab : a ≤ b) (l m : List ℚ) (h : Below l m) (hl : l.Pairwise (· ≤ ·)) (hm : m.Pairwise (· ≤ ·)) :
    Below (l.orderedInsert (· ≤ ·) a) (m.orderedInsert (· ≤ ·) b) := by
  induction h generalizing a b with
  | nil => exact List.Forall₂.cons hab List.Forall₂.nil
  | @cons x y l m hxy h ih =>
    have hl' := (List.pairwise_cons.1 hl).2
    have hm' := (List.pairwise_cons.1 hm).2
    rw [List.orderedInsert_cons, List.orderedInsert_cons]
    split_ifs with h1 h2 h2
    · exact List.Forall₂.cons hab (List.Forall₂.cons hxy h)
    · push Not at h2
      refine List.Forall₂.cons (h1.trans hxy) ?_
      have := ih (a := x) (b := b) (by linarith) hl' hm'
      rwa [insert_head x l hl] at this
    · push Not at h1
      refine List.Forall₂.cons (by linarith) ?_
      have := ih (a := a) (b := y) (by linarith) hl' hm'
      rwa [insert_head y m hm] at this
    · exact List.Forall₂.cons hxy (ih hab hl' hm')

theorem sort_below (l m : List ℚ) (h : Below l m) : Below (l.insertionSort (· ≤ ·)) (m.insertionSort (· ≤ ·)) := by
  induction h with
  | nil => exact List.Forall₂.nil
  | cons hxy h ih =>
    rw [List.insertionSort_cons, List.insertionSort_cons]
    exact insert_below hxy _ _ ih (List.pairwise_insertionSort _ _) (List.pairwise_insertionSort _ _)

theorem at_below (s t : List ℚ) (h : Below s t) (p : ℚ) : at' s p ≤ at' t p := by
  induction h generalizing p with
  | nil => exact le_refl _
  | @cons a c s t hac h ih =>
    cases h with
    | nil => exact hac
    | @cons b d s t hbd h =>
      unfold at'
      split_ifs with h1
      · have m0 : 0 ≤ max p 0 := le_max_right _ _
        have m1 : max p 0 ≤ 1 := max_le h1.le (by norm_num)
        have e1 := mul_le_mul_of_nonneg_left hbd m0
        have e2 := mul_le_mul_of_nonneg_left hac (show 0 ≤ 1 - max p 0 by linarith)
        linarith
      · exact ih (p - 1)

/-- **C120** (percentiles).  Raising samples lowers no percentile. -/
theorem C120_percentile (q : ℚ) (l m : List ℚ) (hl : l ≠ []) (h : Below l m) :
    ∃ x y, percentile q l = some x ∧ percentile q m = some y ∧ x ≤ y := by
  have hm : m ≠ [] := by
    rintro rfl
    exact hl (List.forall₂_nil_right_iff.1 h)
  obtain ⟨x, hx, bx⟩ := exact_between q l hl
  obtain ⟨y, hy, by'⟩ := exact_between q m hm
  have ne : ∀ l : List ℚ, l ≠ [] → l.insertionSort (· ≤ ·) ≠ [] := by
    intro l hl hc
    have := (List.perm_insertionSort (· ≤ ·) l).length_eq
    rw [hc] at this
    exact hl (List.length_eq_zero_iff.1 this.symm)
  refine ⟨x, y, hx, hy, ?_⟩
  rw [between_at _ _ _ bx (ne l hl), between_at _ _ _ by' (ne m hm), h.length_eq]
  exact at_below _ _ (sort_below l m h) _

/-- **C120** (penalty).  If the samples of the ones are raised and those of the zeros lowered, at the same optical modulation amplitude, the closure
penalty does not grow. -/
theorem C120_penalty (l0 l1 m0 m1 : List ℚ) (h0 : Below m0 l0) (h1 : Below l1 m1) (o : Stats.UV) (ho : 0 < o.value) (V : ℝ)
    (hV : (vecpOf l0 l1 (some o)).value = some V) : ∃ V', (vecpOf m0 m1 (some o)).value = some V' ∧ V' ≤ V := by
  have hnil : ∀ q, percentile q [] = none := by
    intro q
    unfold percentile
    simp only [List.insertionSort_nil]
    split_ifs <;> rfl
  have n1 : l1 ≠ [] := by
    rintro rfl
    unfold vecpOf at hV
    rw [hnil] at hV
    cases hV
  have n0 : m0 ≠ [] := by
    rintro rfl
    rw [List.forall₂_nil_left_iff.1 h0] at hV
    unfold vecpOf at hV
    rw [hnil] at hV
    cases hp : percentile (5 / 10000) l1 <;> rw [hp] at hV <;> cases hV
  obtain ⟨a, a', ha, ha', haa⟩ := C120_percentile (5 / 10000) l1 m1 n1 h1
  obtain ⟨b', b, hb', hb, hbb⟩ := C120_percentile (9995 / 10000) m0 l0 n0 h0
  have key : ∀ (l0 l1 : List ℚ) (a b : ℚ), percentile (5 / 10000) l1 = some a → percentile (9995 / 10000) l0 = some b →
      (vecpOf l0 l1 (some o)).value = if 0 < a - b then some (Real.logb 10 (o.value / ((a - b : ℚ) : ℝ)) * 10) else none := by
    intro l0 l1 a b ha hb
    unfold vecpOf
    rw [ha, hb]
    simp only
    unfold decibels nvDivC npDiv
    by_cases hp : 0 < a - b
    · have hpR : (0 : ℝ) < ((a - b : ℚ) : ℝ) := by exact_mod_cast hp
      rw [if_pos hp]
      simp only [if_neg hpR.ne', if_neg (not_le.2 (div_pos ho hpR))]
    · rw [if_neg hp]
      push Not at hp
      have hpR : ((a - b : ℚ) : ℝ) ≤ 0 := by exact_mod_cast hp
      rcases hpR.lt_or_eq with hn | hz
      · simp only [if_neg hn.ne, if_pos (div_nonpos_of_nonneg_of_nonpos ho.le hpR)]
        rfl
      · simp only [if_pos hz]
        rfl
  rw [key l0 l1 a b ha hb] at hV
  rw [key m0 m1 a' b' ha' hb']
  split_ifs at hV with hp
  have hp' : 0 < a' - b' := by linarith
  rw [if_pos hp']
  refine ⟨_, rfl, ?_⟩
  cases hV
  have r1 : (0 : ℝ) < ((a - b : ℚ) : ℝ) := by exact_mod_cast hp
  have r2 : ((a - b : ℚ) : ℝ) ≤ ((a' - b' : ℚ) : ℝ) := by
    have : a - b ≤ a' - b' := by linarith
    exact_mod_cast this
  have r3 : o.value / ((a' - b' : ℚ) : ℝ) ≤ o.value / ((a - b : ℚ) : ℝ) := div_le_div_of_nonneg_left ho.le r1 r2
  have r4 := (Real.logb_le_logb (by norm_num : (1 : ℝ) < 10) (div_pos ho (by linarith)) (div_pos ho r1)).2 r3
  linarith

/-- Two eyes that meet the hypotheses: the second is more open. -/
example : Below [(0 : ℚ), -1 / 10, 1 / 20] [1 / 10, 0, 1 / 10] ∧ Below [(1 : ℚ), 9 / 10] [1, 95 / 100] ∧
    ∃ V, (vecpOf [1 / 10, 0, 1 / 10] [1, 9 / 10] (some ⟨1, 0⟩)).value = some V := by
  refine ⟨by decide +kernel, by decide +kernel, ?_⟩
  have h1 : percentile (5 / 10000) [1, 9 / 10] = some (9 / 10) := by decide +kernel
  have h0 : percentile (9995 / 10000) [1 / 10, 0, 1 / 10] = some (1 / 10) := by decide +kernel
  unfold vecpOf
  rw [h1, h0]
  simp only
  unfold decibels nvDivC npDiv
  norm_num

end Verif.Props.ClosureMonotone
