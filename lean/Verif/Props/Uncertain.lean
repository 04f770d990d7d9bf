import Verif.Model.Stats
import Mathlib.Tactic.Linarith
import Mathlib.Tactic.FieldSimp
import Mathlib.Tactic.Positivity
import Mathlib.Algebra.Order.BigOperators.Group.List
import Mathlib.Algebra.BigOperators.Ring.List

/-!
C16: `UncertainValue`.
-/

namespace Verif.Props.Uncertain

open Verif Verif.Stats

/-- **C16.** Adding and subtracting: values add (subtract), variances add. -/
theorem C16_add_sub_variance (a b : UV) :
    (a.add b).value = a.value + b.value ∧ (a.sub b).value = a.value - b.value ∧
    (a.add b).stddev ^ 2 = a.stddev ^ 2 + b.stddev ^ 2 ∧ (a.sub b).stddev ^ 2 = a.stddev ^ 2 + b.stddev ^ 2 ∧
    0 ≤ (a.add b).stddev ∧ 0 ≤ (a.sub b).stddev := by
  have h : 0 ≤ a.stddev ^ 2 + b.stddev ^ 2 := by positivity
  exact ⟨rfl, rfl, Real.sq_sqrt h, Real.sq_sqrt h, Real.sqrt_nonneg _, Real.sqrt_nonneg _⟩

/-- **C16.** Adding or subtracting never reduces the deviation of either operand; adding a constant keeps it. -/
theorem C16_add_sub_increases (a b : UV) (c : ℝ) :
    a.stddev ≤ (a.add b).stddev ∧ b.stddev ≤ (a.add b).stddev ∧
    a.stddev ≤ (a.sub b).stddev ∧ b.stddev ≤ (a.sub b).stddev ∧
    a.addC c = ⟨a.value + c, a.stddev⟩ ∧ a.subC c = ⟨a.value - c, a.stddev⟩ := by
  have h1 : a.stddev ≤ Real.sqrt (a.stddev ^ 2 + b.stddev ^ 2) := Real.le_sqrt_of_sq_le (by nlinarith [sq_nonneg b.stddev])
  have h2 : b.stddev ≤ Real.sqrt (a.stddev ^ 2 + b.stddev ^ 2) := Real.le_sqrt_of_sq_le (by nlinarith [sq_nonneg a.stddev])
  exact ⟨h1, h2, h1, h2, rfl, rfl⟩

/-- **C16.** Adding an exactly known value is adding a constant. -/
theorem C16_exact_operand (a b : UV) (ha : 0 ≤ a.stddev) (hb : b.stddev = 0) : a.add b = a.addC b.value := by
  unfold UV.add UV.addC
  rw [hb]
  congr 1
  rw [zero_pow two_ne_zero, add_zero, Real.sqrt_sq ha]

/-- **C16.** Multiplication and division of non-zero values: relative variances add, deviations are not negative. -/
theorem C16_mul_div_relative (a b : UV) (ha : a.value ≠ 0) (hb : b.value ≠ 0) :
    ∃ p q, a.mul b = .ok p ∧ a.div b = .ok q ∧ p.value = a.value * b.value ∧ q.value = a.value / b.value ∧
      0 ≤ p.stddev ∧ 0 ≤ q.stddev ∧
      (p.stddev / p.value) ^ 2 = (a.stddev / a.value) ^ 2 + (b.stddev / b.value) ^ 2 ∧
      (q.stddev / q.value) ^ 2 = (a.stddev / a.value) ^ 2 + (b.stddev / b.value) ^ 2 := by
  have hs : 0 ≤ (a.stddev / a.value) ^ 2 + (b.stddev / b.value) ^ 2 := by positivity
  have key : ∀ v : ℝ, v ≠ 0 → (|v| * Real.sqrt ((a.stddev / a.value) ^ 2 + (b.stddev / b.value) ^ 2) / v) ^ 2 =
      (a.stddev / a.value) ^ 2 + (b.stddev / b.value) ^ 2 := by
    intro v hv
    rw [div_pow, mul_pow, sq_abs, Real.sq_sqrt hs, mul_div_assoc, mul_div_cancel₀]
    exact pow_ne_zero 2 hv
  refine ⟨⟨a.value * b.value, |a.value * b.value| * Real.sqrt ((a.stddev / a.value) ^ 2 + (b.stddev / b.value) ^ 2)⟩,
    ⟨a.value / b.value, |a.value / b.value| * Real.sqrt ((a.stddev / a.value) ^ 2 + (b.stddev / b.value) ^ 2)⟩,
    ?_, ?_, rfl, rfl, ?_, ?_, key _ (mul_ne_zero ha hb), key _ (div_ne_zero ha hb)⟩
  · unfold UV.mul; rw [if_neg (by simp [ha, hb])]
  · unfold UV.div; rw [if_neg (by simp [ha, hb])]
  · positivity
  · positivity

/-- **C16.** A zero operand has no relative deviation: the result is not usable. -/
theorem C16_mul_div_zero (a b : UV) (h : a.value = 0 ∨ b.value = 0) :
    a.mul b = .error .zeroDivision ∧ a.div b = .error .zeroDivision := by
  unfold UV.mul UV.div
  simp only
  rw [if_pos h, if_pos h.symm]
  exact ⟨rfl, rfl⟩

/-- **C16.** Dividing is multiplying by the inverse: `(a / b) * b` has the value of `a`. -/
theorem C16_mul_div_value (a b q : UV) (hq : a.div b = .ok q) : ∃ p, q.mul b = .ok p ∧ p.value = a.value := by
  unfold UV.div at hq
  by_cases h : b.value = 0 ∨ a.value = 0
  · rw [if_pos h] at hq; exact absurd hq (by simp)
  · rw [if_neg h] at hq
    obtain rfl := Except.ok.inj hq
    push Not at h
    unfold UV.mul
    simp only
    rw [if_neg (by simp only [not_or]; exact ⟨div_ne_zero h.2 h.1, h.1⟩)]
    exact ⟨_, rfl, div_mul_cancel₀ _ h.1⟩

/-- **C16.** Scaling by a constant scales the deviation by its absolute value; dividing undoes it. -/
theorem C16_scale (a : UV) (c : ℝ) (hc : c ≠ 0) :
    (a.mulC c).value = a.value * c ∧ (a.mulC c).stddev = a.stddev * |c| ∧ (a.mulC c).divC c = .ok a := by
  refine ⟨rfl, rfl, ?_⟩
  unfold UV.divC UV.mulC
  rw [if_neg hc]
  simp only
  rw [mul_div_cancel_right₀ _ hc, mul_div_cancel_right₀ _ (abs_ne_zero.2 hc)]

/-- **C16.** Comparisons: exactly one of `<`, `==`, `>`; the others are their combinations; the deviation is
irrelevant. -/
theorem C16_comparison (a b : UV) (s : ℝ) :
    (a.lt b ∨ a.eq b ∨ a.gt b) ∧ ¬ (a.lt b ∧ a.eq b) ∧ ¬ (a.lt b ∧ a.gt b) ∧ ¬ (a.eq b ∧ a.gt b) ∧
    (a.le b ↔ a.lt b ∨ a.eq b) ∧ (a.ge b ↔ a.gt b ∨ a.eq b) ∧ (a.ne b ↔ ¬ a.eq b) ∧
    (UV.lt ⟨a.value, s⟩ b ↔ a.lt b) ∧ (UV.eq ⟨a.value, s⟩ b ↔ a.eq b) ∧ (a.lt b ↔ ∃ d > 0, b.value = a.value + d) := by
  unfold UV.lt UV.eq UV.gt UV.le UV.ge UV.ne
  refine ⟨?_, ?_, ?_, ?_, ?_, ?_, Iff.rfl, Iff.rfl, Iff.rfl, fun h => ⟨b.value - a.value, by linarith, by ring⟩, fun ⟨d, hd, h⟩ => by linarith⟩
  · exact lt_trichotomy _ _
  · rintro ⟨h1, h2⟩; linarith
  · rintro ⟨h1, h2⟩; linarith
  · rintro ⟨h1, h2⟩; linarith
  · exact le_iff_lt_or_eq
  · rw [le_iff_lt_or_eq, eq_comm (a := b.value)]

theorem sum_between (x : List ℝ) (lo hi : ℝ) (h : ∀ v ∈ x, lo ≤ v ∧ v ≤ hi) :
    x.length * lo ≤ x.sum ∧ x.sum ≤ x.length * hi := by
  induction x with
  | nil => simp
  | cons a x ih =>
    have := ih (fun v hv => h v (List.mem_cons_of_mem _ hv))
    have ha := h a (List.mem_cons.2 (Or.inl rfl))
    simp only [List.sum_cons, List.length_cons]
    push_cast
    constructor <;> linarith [this.1, this.2, ha.1, ha.2]

theorem sum_sq_zero (x : List ℝ) (m : ℝ) (h : (x.map fun v => (v - m) * (v - m)).sum = 0) : ∀ v ∈ x, v = m := by
  induction x with
  | nil => simp
  | cons a x ih =>
    have hnn : 0 ≤ (x.map fun v => (v - m) * (v - m)).sum := by
      apply List.sum_nonneg
      intro w hw
      obtain ⟨v, _, rfl⟩ := List.mem_map.1 hw
      exact mul_self_nonneg _
    simp only [List.map_cons, List.sum_cons] at h
    have h1 := mul_self_nonneg (a - m)
    intro v hv
    rcases List.mem_cons.1 hv with rfl | hv
    · have : (v - m) * (v - m) = 0 := by linarith
      have := mul_self_eq_zero.1 this
      linarith
    · exact ih (by linarith) v hv

/-- **C16.** The mean of samples lies between bounds of the samples; the deviation is zero iff all are equal; no
samples give nan. -/
theorem C16_samples (x : List ℝ) :
    (x = [] ↔ UV.samples x = none) ∧
    ∀ u, UV.samples x = some u →
      (∀ lo hi, (∀ v ∈ x, lo ≤ v ∧ v ≤ hi) → lo ≤ u.value ∧ u.value ≤ hi) ∧
      x.length * u.value = x.sum ∧ 0 ≤ u.stddev ∧
      x.length * u.stddev ^ 2 = (x.map fun v => (v - u.value) ^ 2).sum ∧
      (u.stddev = 0 ↔ ∀ a ∈ x, ∀ b ∈ x, a = b) := by
  constructor
  · unfold UV.samples
    constructor
    · rintro rfl; rfl
    · intro h
      by_cases hl : x.length < 1
      · exact List.length_eq_zero_iff.1 (by omega)
      · rw [if_neg hl] at h; exact absurd h (by simp)
  · intro u hu
    unfold UV.samples at hu
    by_cases hl : x.length < 1
    · rw [if_pos hl] at hu; exact absurd hu (by simp)
    · rw [if_neg hl] at hu
      obtain rfl := Option.some.inj hu
      have hn : (0 : ℝ) < x.length := by exact_mod_cast (by omega : 0 < x.length)
      have hnn : ∀ m : ℝ, 0 ≤ (x.map fun v => (v - m) * (v - m)).sum := by
        intro m
        apply List.sum_nonneg
        intro w hw
        obtain ⟨v, _, rfl⟩ := List.mem_map.1 hw
        exact mul_self_nonneg _
      refine ⟨?_, ?_, Real.sqrt_nonneg _, ?_, ?_⟩
      · intro lo hi h
        obtain ⟨h1, h2⟩ := sum_between x lo hi h
        simp only
        rw [le_div_iff₀ hn, div_le_iff₀ hn]
        constructor <;> linarith
      · simp only; field_simp
      · simp only
        rw [Real.sq_sqrt (div_nonneg (hnn _) hn.le), mul_div_cancel₀ _ hn.ne']
        congr 1
        apply List.map_congr_left
        intro v _
        ring
      · simp only
        rw [Real.sqrt_eq_zero (div_nonneg (hnn _) hn.le), div_eq_zero_iff]
        constructor
        · rintro (h | h)
          · intro a ha b hb
            rw [sum_sq_zero x _ h a ha, sum_sq_zero x _ h b hb]
          · exact absurd h hn.ne'
        · intro h
          left
          cases x with
          | nil => simp
          | cons a x =>
            have hall : ∀ v ∈ a :: x, v = a := fun v hv => h v hv a (List.mem_cons.2 (Or.inl rfl))
            have hm : (a :: x).sum / ((a :: x).length : ℝ) = a := by
              obtain ⟨h1, h2⟩ := sum_between (a :: x) a a (fun v hv => by rw [hall v hv]; simp)
              rw [div_eq_iff hn.ne']; linarith
            rw [hm]
            apply List.sum_eq_zero
            intro w hw
            obtain ⟨v, hv, rfl⟩ := List.mem_map.1 hw
            rw [hall v hv]; ring

/-- **C16.** Logarithms: defined exactly for positive values; the deviation is the relative deviation (divided by
`ln 10` for `log10`), and never negative. -/
theorem C16_log (a : UV) :
    (a.log = none ↔ a.value ≤ 0) ∧ (a.log10 = none ↔ a.value ≤ 0) ∧
    (0 < a.value → 0 ≤ a.stddev → a.log = some ⟨Real.log a.value, a.stddev / a.value⟩ ∧
      ∃ r, a.log10 = some r ∧ (10 : ℝ) ^ r.value = a.value ∧ r.stddev * Real.log 10 = a.stddev / a.value) := by
  unfold UV.log UV.log10
  refine ⟨?_, ?_, ?_⟩
  · split_ifs with h <;> simp [h]
  · split_ifs with h <;> simp [h]
  · intro hv hs
    have h10 : 0 < Real.log 10 := Real.log_pos (by norm_num)
    rw [if_neg (not_le.2 hv), if_neg (not_le.2 hv)]
    refine ⟨by rw [abs_of_nonneg (div_nonneg hs hv.le)], _, rfl, ?_, ?_⟩
    · simp only
      exact Real.rpow_logb (by norm_num) (by norm_num) hv
    · simp only
      rw [abs_of_nonneg (div_nonneg hs (mul_pos hv h10).le)]
      field_simp

/-- The hypotheses are met: `(2 ± 0.2) * (4 ± 0.3)`. -/
example : (⟨2, 0.2⟩ : UV).value ≠ 0 ∧ (⟨4, 0.3⟩ : UV).value ≠ 0 ∧ (0:ℝ) ≤ (⟨2, 0.2⟩ : UV).stddev := by norm_num

end Verif.Props.Uncertain
