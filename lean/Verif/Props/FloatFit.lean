import Verif.Model.FloatSearch
import Verif.Props.FloatCdr
import Mathlib.Algebra.Order.BigOperators.Ring.Finset
import Mathlib.Algebra.BigOperators.Field

/-!
C107, the line through the errors: the slope that `np.cov` gives in rounded arithmetic.
-/

namespace Verif.Props.FloatFit

open Verif Verif.Eye Verif.Cdr Verif.Float Verif.Props.Float Verif.Props.FloatCdr Finset

/-! ### The dot product -/

theorem prod_near (R : Rounding) (d : ℕ) (l : List (ℚ × ℚ)) (s : ℚ) (h : SumProd R d l s) :
    |s - (l.map fun p => p.1 * p.2).sum| ≤ ((1 + R.u) ^ (d + 1) - 1) * (l.map fun p => |p.1 * p.2|).sum := by
  have hu := R.u_nonneg
  have habs : ∀ l : List (ℚ × ℚ), |(l.map fun p => p.1 * p.2).sum| ≤ (l.map fun p => |p.1 * p.2|).sum := by
    intro l
    have := abs_sum_le (l.map fun p => p.1 * p.2)
    rwa [List.map_map] at this
  have comb : ∀ (d : ℕ) (x y P Q : ℚ), 0 ≤ P → 0 ≤ Q → |y| ≤ P + Q → |x - y| ≤ ((1 + R.u) ^ (d + 1) - 1) * (P + Q) →
      |R.fl x - y| ≤ ((1 + R.u) ^ (d + 2) - 1) * (P + Q) := by
    intro d x y P Q hP hQ hy hx
    have h1 := R.err x
    have h2 : |x| ≤ |x - y| + |y| := by
      have := abs_add_le (x - y) y
      rwa [sub_add_cancel] at this
    have h3 : R.u * |x| ≤ R.u * ((1 + R.u) ^ (d + 1) * (P + Q)) := mul_le_mul_of_nonneg_left (by linarith) hu
    have h4 := abs_add_le (R.fl x - x) (x - y)
    rw [sub_add_sub_cancel] at h4
    have h5 : (1 + R.u) ^ (d + 2) = (1 + R.u) ^ (d + 1) + R.u * (1 + R.u) ^ (d + 1) := by ring
    rw [h5]
    linarith
  induction h with
  | one d p =>
    have h1 := R.err (p.1 * p.2)
    have h2 : 1 + R.u ≤ (1 + R.u) ^ (d + 1) := by
      rw [pow_succ]
      have : (1 : ℚ) ≤ (1 + R.u) ^ d := one_le_pow₀ (by linarith)
      nlinarith
    simp only [List.map_cons, List.map_nil, List.sum_cons, List.sum_nil, add_zero]
    have h3 : R.u * |p.1 * p.2| ≤ ((1 + R.u) ^ (d + 1) - 1) * |p.1 * p.2| := mul_le_mul_of_nonneg_right (by linarith) (abs_nonneg _)
    linarith
  | @add d l m k s t _ _ hp i1 i2 =>
    have e1 : (k.map fun p => p.1 * p.2).sum = (l.map fun p => p.1 * p.2).sum + (m.map fun p => p.1 * p.2).sum := by
      rw [← (hp.map _).sum_eq, List.map_append, List.sum_append]
    have e2 : (k.map fun p => |p.1 * p.2|).sum = (l.map fun p => |p.1 * p.2|).sum + (m.map fun p => |p.1 * p.2|).sum := by
      rw [← (hp.map _).sum_eq, List.map_append, List.sum_append]
    have a1 := habs l
    have a2 := habs m
    rw [e1, e2]
    refine comb d _ _ _ _ ((abs_nonneg _).trans a1) ((abs_nonneg _).trans a2) ((abs_add_le _ _).trans (by linarith)) ?_
    have h1 := abs_add_le (s - (l.map fun p => p.1 * p.2).sum) (t - (m.map fun p => p.1 * p.2).sum)
    rw [show s - (l.map fun p => p.1 * p.2).sum + (t - (m.map fun p => p.1 * p.2).sum) =
      s + t - ((l.map fun p => p.1 * p.2).sum + (m.map fun p => p.1 * p.2).sum) by ring] at h1
    linarith
  | @fma d l k s p _ hp i1 =>
    have e1 : (k.map fun p => p.1 * p.2).sum = (l.map fun p => p.1 * p.2).sum + p.1 * p.2 := by
      rw [← (hp.map _).sum_eq, List.map_append, List.sum_append]
      simp
    have e2 : (k.map fun p => |p.1 * p.2|).sum = (l.map fun p => |p.1 * p.2|).sum + |p.1 * p.2| := by
      rw [← (hp.map _).sum_eq, List.map_append, List.sum_append]
      simp
    have a1 := habs l
    rw [e1, e2]
    refine comb d _ _ _ _ ((abs_nonneg _).trans a1) (abs_nonneg _) ((abs_add_le _ _).trans (by linarith)) ?_
    rw [show s + p.1 * p.2 - ((l.map fun p => p.1 * p.2).sum + p.1 * p.2) = s - (l.map fun p => p.1 * p.2).sum by ring]
    have h1 : (1 : ℚ) ≤ (1 + R.u) ^ (d + 1) := one_le_pow₀ (by linarith)
    have h2 : 0 ≤ ((1 + R.u) ^ (d + 1) - 1) * |p.1 * p.2| := mul_nonneg (by linarith) (abs_nonneg _)
    linarith

theorem prodF_isProd (R : Rounding) (n : ℕ) : IsProd R (n - 1) n (prodF R) := by
  have mono : ∀ (d : ℕ) (l : List (ℚ × ℚ)) (s : ℚ), SumProd R d l s → SumProd R (d + 1) l s := by
    intro d l s h
    induction h with
    | one d p => exact .one _ p
    | add _ _ hp i1 i2 => exact .add i1 i2 hp
    | fma p _ hp i1 => exact .fma p i1 hp
  have mono' : ∀ (d e : ℕ) (l : List (ℚ × ℚ)) (s : ℚ), SumProd R d l s → SumProd R (d + e) l s := by
    intro d e l s h
    induction e with
    | zero => exact h
    | succ e ih => exact mono _ _ _ ih
  have key : ∀ (l : List (ℚ × ℚ)) (d : ℕ) (p : List (ℚ × ℚ)) (s : ℚ), SumProd R d p s →
      SumProd R (d + l.length) (p ++ l) (l.foldl (fun s q => R.fl (s + R.fl (q.1 * q.2))) s) := by
    intro l
    induction l with
    | nil =>
      intro d p s h
      simpa using h
    | cons a l ih =>
      intro d p s h
      have := ih (d + 1) (p ++ [a]) (R.fl (s + R.fl (a.1 * a.2))) (.add h (.one d a) (List.Perm.refl _))
      rw [List.append_assoc, List.singleton_append] at this
      rw [List.length_cons, show d + (l.length + 1) = d + 1 + l.length by ring, List.foldl_cons]
      exact this
  intro l hne hl
  obtain ⟨a, l, rfl⟩ := List.exists_cons_of_ne_nil hne
  have := key l 0 [a] _ (.one 0 a)
  have h2 := mono' _ (n - 1 - l.length) _ _ this
  rw [show 0 + l.length + (n - 1 - l.length) = n - 1 by simp at hl; omega] at h2
  exact h2

/-! ### Sums -/

theorem sum_list (f : ℕ → ℚ) (n : ℕ) : ((List.range n).map f).sum = ∑ i ∈ range n, f i := by
  induction n with
  | zero => simp
  | succ n ih => rw [List.range_succ, List.map_append, List.sum_append, ih, Finset.sum_range_succ]; simp

theorem sum_sq_sub (x : ℕ → ℚ) (a : ℚ) (n : ℕ) :
    ∑ i ∈ range n, (a - x i) ^ 2 = n * a ^ 2 - 2 * a * ∑ i ∈ range n, x i + ∑ i ∈ range n, x i ^ 2 := by
  induction n with
  | zero => simp
  | succ n ih =>
    rw [Finset.sum_range_succ, Finset.sum_range_succ, Finset.sum_range_succ, ih]
    push_cast
    ring

/-- Increasing integers are spread at least as far as consecutive ones. -/
theorem spread (n : ℕ) (m : ℕ → ℤ) (h : ∀ i, i + 1 < n → m i < m (i + 1)) :
    (n : ℚ) ^ 2 * ((n : ℚ) ^ 2 - 1) ≤ 12 * (n * ∑ i ∈ range n, (m i : ℚ) ^ 2 - (∑ i ∈ range n, (m i : ℚ)) ^ 2) := by
  induction n with
  | zero => simp
  | succ n ih =>
    have ih' := ih fun i hi => h i (by omega)
    have hd : ∀ j i, i + j = n → (j : ℚ) ≤ m n - m i := by
      intro j
      induction j with
      | zero =>
        intro i hi
        obtain rfl : i = n := by omega
        simp
      | succ j ihj =>
        intro i hi
        have h1 := ihj (i + 1) (by omega)
        have h2 : (m i : ℚ) + 1 ≤ m (i + 1) := by exact_mod_cast h i (by omega)
        push_cast
        linarith
    have e : ((n + 1 : ℕ) : ℚ) * ∑ i ∈ range (n + 1), (m i : ℚ) ^ 2 - (∑ i ∈ range (n + 1), (m i : ℚ)) ^ 2 =
        n * ∑ i ∈ range n, (m i : ℚ) ^ 2 - (∑ i ∈ range n, (m i : ℚ)) ^ 2 + ∑ i ∈ range n, ((m n : ℚ) - m i) ^ 2 := by
      rw [Finset.sum_range_succ, Finset.sum_range_succ]
      rw [sum_sq_sub (fun i => (m i : ℚ)) (m n : ℚ) n]
      push_cast
      ring
    have hsq : ∑ i ∈ range n, ((n - i : ℚ)) ^ 2 ≤ ∑ i ∈ range n, ((m n : ℚ) - m i) ^ 2 := by
      apply Finset.sum_le_sum
      intro i hi
      have hi' := Finset.mem_range.1 hi
      have h1 := hd (n - i) i (by omega)
      rw [Nat.cast_sub hi'.le] at h1
      have h0 : (0 : ℚ) ≤ (n : ℚ) - i := by
        have : (i : ℚ) ≤ n := by exact_mod_cast hi'.le
        linarith
      exact pow_le_pow_left₀ h0 h1 2
    have hpyr : 6 * ∑ i ∈ range n, ((n - i : ℚ)) ^ 2 = n * (n + 1) * (2 * n + 1) := by
      rw [← Finset.sum_range_reflect]
      have : ∀ k : ℕ, 6 * ∑ i ∈ range k, ((i : ℚ) + 1) ^ 2 = (k : ℚ) * ((k : ℚ) + 1) * (2 * (k : ℚ) + 1) := by
        intro k
        induction k with
        | zero => simp
        | succ k ihk =>
          rw [Finset.sum_range_succ, mul_add, ihk]
          push_cast
          ring
      rw [← this n]
      congr 1
      apply Finset.sum_congr rfl
      intro i hi
      have hi' := Finset.mem_range.1 hi
      congr 1
      have : ((n - 1 - i : ℕ) : ℚ) = n - 1 - i := by
        rw [Nat.cast_sub (by omega), Nat.cast_sub (by omega)]
        simp
      rw [this]
      ring
    rw [e]
    push_cast
    nlinarith

theorem m_mono (n : ℕ) (m : ℕ → ℤ) (h : ∀ i, i + 1 < n → m i < m (i + 1)) : ∀ i j, i ≤ j → j < n → m i ≤ m j := by
  intro i j hij
  induction j, hij using Nat.le_induction with
  | base => intro _; exact le_refl _
  | succ j _ ih => intro hj; exact (ih (by omega)).trans (h j hj).le

/-- The rounding errors of the numbers of the symbols do not matter much. -/
theorem fit_core (n : ℕ) (hn : 2 ≤ n) (m : ℕ → ℤ) (hm : ∀ i, i + 1 < n → m i < m (i + 1)) (X : ℕ → ℚ) (g M μ : ℚ) (hg0 : 0 ≤ g) (hg : g ≤ 1 / 10 ^ 5)
    (hM : M = m (n - 1) - m 0) (hM5 : M ≤ 5 * ((n : ℚ) - 1)) (hμ : μ = (∑ i ∈ range n, (m i : ℚ)) / n)
    (hX : ∀ i < n, |X i - (m i - μ)| ≤ 5 * g * M) :
    98 / 100 * ((n : ℚ) * ((n : ℚ) ^ 2 - 1)) ≤ 12 * ∑ i ∈ range n, X i ^ 2 ∧
    5 * n * M ≤ 1600 * ∑ i ∈ range n, |X i| ∧
    |∑ i ∈ range n, X i| ≤ 5 * g * M * n ∧
    (∑ i ∈ range n, |X i|) ^ 2 ≤ n * ∑ i ∈ range n, X i ^ 2 := by
  have hn0 : (2 : ℚ) ≤ n := by exact_mod_cast hn
  have hnpos : (0 : ℚ) < n := by linarith
  have hM0 : 0 < M := by
    have h1 := m_mono n m hm 1 (n - 1) (by omega) (by omega)
    have h2 := hm 0 (by omega)
    rw [hM]
    have : m 0 < m (n - 1) := by simp at h2; omega
    have : (m 0 : ℚ) < m (n - 1) := by exact_mod_cast this
    linarith
  have hsum : ∑ i ∈ range n, ((m i : ℚ) - μ) = 0 := by
    rw [Finset.sum_sub_distrib, Finset.sum_const, Finset.card_range, nsmul_eq_mul, hμ]
    field_simp
    ring
  -- the variance
  have hV : (n : ℚ) * ((n : ℚ) ^ 2 - 1) ≤ 12 * ∑ i ∈ range n, ((m i : ℚ) - μ) ^ 2 := by
    have h1 := spread n m hm
    have h2 : ∑ i ∈ range n, ((m i : ℚ) - μ) ^ 2 = n * μ ^ 2 - 2 * μ * ∑ i ∈ range n, (m i : ℚ) + ∑ i ∈ range n, (m i : ℚ) ^ 2 := by
      rw [← sum_sq_sub (fun i => (m i : ℚ)) μ n]
      apply Finset.sum_congr rfl
      intro i _
      ring
    have h3 : ∑ i ∈ range n, (m i : ℚ) = n * μ := by rw [hμ]; field_simp
    rw [h3] at h1 h2
    have h4 : (n : ℚ) * ((n : ℚ) * ((n : ℚ) ^ 2 - 1)) ≤ n * (12 * ∑ i ∈ range n, ((m i : ℚ) - μ) ^ 2) := by rw [h2]; linarith
    exact le_of_mul_le_mul_left h4 hnpos
  have hμb : (m 0 : ℚ) ≤ μ ∧ μ ≤ m (n - 1) := by
    rw [hμ, le_div_iff₀ hnpos, div_le_iff₀ hnpos]
    constructor
    · have : ∑ i ∈ range n, (m 0 : ℚ) ≤ ∑ i ∈ range n, (m i : ℚ) := by
        apply Finset.sum_le_sum
        intro i hi
        exact_mod_cast m_mono n m hm 0 i (by omega) (Finset.mem_range.1 hi)
      rw [Finset.sum_const, Finset.card_range, nsmul_eq_mul] at this
      linarith
    · have : ∑ i ∈ range n, (m i : ℚ) ≤ ∑ i ∈ range n, (m (n - 1) : ℚ) := by
        apply Finset.sum_le_sum
        intro i hi
        have hi' := Finset.mem_range.1 hi
        exact_mod_cast m_mono n m hm i (n - 1) (by omega) (by omega)
      rw [Finset.sum_const, Finset.card_range, nsmul_eq_mul] at this
      linarith
  have hdev : ∀ i < n, |(m i : ℚ) - μ| ≤ M := by
    intro i hi
    have h1 : (m 0 : ℚ) ≤ m i := by exact_mod_cast m_mono n m hm 0 i (by omega) hi
    have h2 : (m i : ℚ) ≤ m (n - 1) := by exact_mod_cast m_mono n m hm i (n - 1) (by omega) (by omega)
    rw [abs_le, hM]
    constructor <;> linarith [hμb.1, hμb.2]
  have hn1 : ((n : ℚ) - 1) ^ 2 ≤ (n : ℚ) ^ 2 - 1 := by nlinarith
  have hMsq : M ^ 2 ≤ 25 * ((n : ℚ) ^ 2 - 1) := by nlinarith
  have hK0 : 0 ≤ (n : ℚ) * ((n : ℚ) ^ 2 - 1) := by
    apply mul_nonneg hnpos.le
    nlinarith
  have hMK : (n : ℚ) * M ^ 2 ≤ 25 * ((n : ℚ) * ((n : ℚ) ^ 2 - 1)) := by
    have := mul_le_mul_of_nonneg_left hMsq hnpos.le
    linarith
  refine ⟨?_, ?_, ?_, ?_⟩
  · have h1 : ∑ i ∈ range n, (99 / 100 * ((m i : ℚ) - μ) ^ 2 - 99 * (5 * g * M) ^ 2) ≤ ∑ i ∈ range n, X i ^ 2 := by
      apply Finset.sum_le_sum
      intro i hi
      have h2 := hX i (Finset.mem_range.1 hi)
      have h3 : (X i - (m i - μ)) ^ 2 ≤ (5 * g * M) ^ 2 := by
        rw [← sq_abs (X i - (m i - μ))]
        exact pow_le_pow_left₀ (abs_nonneg _) h2 2
      generalize (m i : ℚ) - μ = v at *
      have h4 : 0 ≤ (v / 10 + 10 * (X i - v)) ^ 2 := sq_nonneg _
      nlinarith
    rw [Finset.sum_sub_distrib, ← Finset.mul_sum, Finset.sum_const, Finset.card_range, nsmul_eq_mul] at h1
    have h5 : g * g ≤ 1 / 10 ^ 5 * (1 / 10 ^ 5) := mul_le_mul hg hg hg0 (by norm_num)
    have h6 : (n : ℚ) * (99 * (5 * g * M) ^ 2) ≤ 99 * 25 * (1 / 10 ^ 10) * (25 * ((n : ℚ) * ((n : ℚ) ^ 2 - 1))) := by
      rw [show (n : ℚ) * (99 * (5 * g * M) ^ 2) = 99 * 25 * (g * g) * (n * M ^ 2) by ring]
      refine mul_le_mul (by linarith) hMK (by positivity) (by norm_num)
    linarith
  · have h1 : ∑ i ∈ range n, (|(m i : ℚ) - μ| - 5 * g * M) ≤ ∑ i ∈ range n, |X i| := by
      apply Finset.sum_le_sum
      intro i hi
      have h2 := hX i (Finset.mem_range.1 hi)
      have h3 := abs_sub_abs_le_abs_sub ((m i : ℚ) - μ) (X i)
      rw [abs_sub_comm ((m i : ℚ) - μ) (X i)] at h3
      linarith
    rw [Finset.sum_sub_distrib, Finset.sum_const, Finset.card_range, nsmul_eq_mul] at h1
    have h4 : ∑ i ∈ range n, ((m i : ℚ) - μ) ^ 2 ≤ ∑ i ∈ range n, M * |(m i : ℚ) - μ| := by
      apply Finset.sum_le_sum
      intro i hi
      have h2 := hdev i (Finset.mem_range.1 hi)
      rw [← sq_abs, sq]
      exact mul_le_mul_of_nonneg_right h2 (abs_nonneg _)
    rw [← Finset.mul_sum] at h4
    have h5 := mul_le_mul_of_nonneg_left h1 hM0.le
    have h6 : M * (n * (5 * g * M)) ≤ 1 / 10 ^ 5 * 5 * (25 * ((n : ℚ) * ((n : ℚ) ^ 2 - 1))) := by
      rw [show M * ((n : ℚ) * (5 * g * M)) = g * 5 * (n * M ^ 2) by ring]
      refine mul_le_mul (by linarith) hMK (by positivity) (by norm_num)
    have h7 : M * (5 * n * M) ≤ M * (1600 * ∑ i ∈ range n, |X i|) := by
      rw [mul_sub] at h5
      rw [show M * (5 * (n : ℚ) * M) = 5 * (n * M ^ 2) by ring]
      linarith
    exact le_of_mul_le_mul_left h7 hM0
  · have e : ∑ i ∈ range n, X i = ∑ i ∈ range n, (X i - (m i - μ)) := by rw [Finset.sum_sub_distrib, hsum, sub_zero]
    rw [e]
    refine (Finset.abs_sum_le_sum_abs _ _).trans ?_
    have : ∑ i ∈ range n, |X i - (m i - μ)| ≤ ∑ i ∈ range n, 5 * g * M := Finset.sum_le_sum fun i hi => hX i (Finset.mem_range.1 hi)
    rw [Finset.sum_const, Finset.card_range, nsmul_eq_mul] at this
    linarith
  · have := Finset.sum_mul_sq_le_sq_mul_sq (range n) (fun _ => (1 : ℚ)) fun i => |X i|
    simpa using this

/-- The slope of the line through numbers that are near a line. -/
theorem line_core (n : ℕ) (hn : 2 ≤ n) (m : ℕ → ℤ) (hm : ∀ i, i + 1 < n → m i < m (i + 1)) (X Y : ℕ → ℚ) (g M μ C Δ Q B : ℚ) (hg0 : 0 ≤ g)
    (hg : g ≤ 1 / 10 ^ 5) (hM : M = m (n - 1) - m 0) (hM5 : M ≤ 5 * ((n : ℚ) - 1)) (hμ : μ = (∑ i ∈ range n, (m i : ℚ)) / n)
    (hX : ∀ i < n, |X i - (m i - μ)| ≤ 5 * g * M) (hY : ∀ i < n, |Y i - (C + (m i - μ) * Δ)| ≤ Q) (hC : |C| ≤ 2 * B) (hΔ : |Δ| * M ≤ 4 * B) :
    |∑ i ∈ range n, X i * Y i - Δ * ∑ i ∈ range n, X i ^ 2| ≤ (Q + 3220 * g * B) * ∑ i ∈ range n, |X i| := by
  obtain ⟨-, h2, h3, -⟩ := fit_core n hn m hm X g M μ hg0 hg hM hM5 hμ hX
  have hS : 0 ≤ ∑ i ∈ range n, |X i| := Finset.sum_nonneg fun i _ => abs_nonneg _
  have hB : 0 ≤ B := by linarith [abs_nonneg C]
  have e : ∑ i ∈ range n, X i * Y i - Δ * ∑ i ∈ range n, X i ^ 2 =
      C * ∑ i ∈ range n, X i + ∑ i ∈ range n, X i * ((Y i - (C + (m i - μ) * Δ)) - Δ * (X i - (m i - μ))) := by
    rw [Finset.mul_sum, Finset.mul_sum, ← Finset.sum_sub_distrib, ← Finset.sum_add_distrib]
    apply Finset.sum_congr rfl
    intro i _
    ring
  rw [e]
  refine (abs_add_le _ _).trans ?_
  have a1 : |C * ∑ i ∈ range n, X i| ≤ 2 * B * (g * (1600 * ∑ i ∈ range n, |X i|)) := by
    rw [abs_mul]
    refine mul_le_mul hC ?_ (abs_nonneg _) (by linarith)
    have := mul_le_mul_of_nonneg_left h2 hg0
    linarith
  have a2 : |∑ i ∈ range n, X i * ((Y i - (C + (m i - μ) * Δ)) - Δ * (X i - (m i - μ)))| ≤ ∑ i ∈ range n, (Q + 20 * g * B) * |X i| := by
    refine (Finset.abs_sum_le_sum_abs _ _).trans (Finset.sum_le_sum ?_)
    intro i hi
    have hi' := Finset.mem_range.1 hi
    rw [abs_mul, mul_comm]
    refine mul_le_mul_of_nonneg_right ?_ (abs_nonneg _)
    refine (abs_sub _ _).trans ?_
    have b1 := hY i hi'
    have b2 : |Δ * (X i - (m i - μ))| ≤ |Δ| * (5 * g * M) := by
      rw [abs_mul]
      exact mul_le_mul_of_nonneg_left (hX i hi') (abs_nonneg _)
    have b3 := mul_le_mul_of_nonneg_left hΔ (show 0 ≤ 5 * g by linarith)
    linarith
  rw [← Finset.mul_sum] at a2
  linarith

/-- Four roundings of a quotient. -/
theorem quotient_near {g a b c e : ℚ} (hg0 : 0 ≤ g) (hg : g ≤ 1 / 10 ^ 5) (ha : |a| ≤ g) (hb : |b| ≤ g) (hc : |c| ≤ g) (he : |e| ≤ 102 / 100 * g) :
    |(1 + a) * (1 + c) / ((1 + e) * (1 + b)) - 1| ≤ 5 * g := by
  have a1 := abs_le.1 ha
  have b1 := abs_le.1 hb
  have e1 := abs_le.1 he
  have hp : 0 < (1 + e) * (1 + b) := mul_pos (by linarith) (by linarith)
  have p1 : |a * c| ≤ g * (1 / 10 ^ 5) := by
    rw [abs_mul]
    exact mul_le_mul ha (hc.trans hg) (abs_nonneg _) hg0
  have p2 : |e * b| ≤ 102 / 100 * g * (1 / 10 ^ 5) := by
    rw [abs_mul]
    exact mul_le_mul he (hb.trans hg) (abs_nonneg _) (by linarith)
  have c1 := abs_le.1 hc
  have p1' := abs_le.1 p1
  have p2' := abs_le.1 p2
  have hlow : 99 / 100 ≤ (1 + e) * (1 + b) := by linarith
  rw [div_sub_one hp.ne', abs_div, abs_of_pos hp, div_le_iff₀ hp]
  have h2 : 5 * g * (99 / 100) ≤ 5 * g * ((1 + e) * (1 + b)) := mul_le_mul_of_nonneg_left hlow (by linarith)
  refine le_trans ?_ h2
  rw [abs_le]
  constructor <;> linarith

theorem final_bound {z P Q S n : ℚ} (hn : 2 ≤ n) (hP : 98 / 100 * (n * (n ^ 2 - 1)) ≤ 12 * P) (hPpos : 0 < P) (hQ : 0 ≤ Q) (hz : 0 ≤ z)
    (hq : z * P ≤ Q * S) (hS : S ^ 2 ≤ n * P) : z * (n - 1) ≤ 7 / 2 * Q := by
  have hnpos : 0 < n := by linarith
  have hsq : (z * P) ^ 2 ≤ Q ^ 2 * (n * P) := by
    refine (pow_le_pow_left₀ (mul_nonneg hz hPpos.le) hq 2).trans ?_
    rw [mul_pow]
    exact mul_le_mul_of_nonneg_left hS (sq_nonneg _)
  have hsq2 : z ^ 2 * P ≤ Q ^ 2 * n := by
    refine le_of_mul_le_mul_right (a := P) ?_ hPpos
    linarith
  have hsq3 := mul_le_mul_of_nonneg_left hP (sq_nonneg z)
  have hsq4 : z ^ 2 * (98 / 100 * (n ^ 2 - 1)) ≤ 12 * Q ^ 2 := by
    refine le_of_mul_le_mul_right (a := n) ?_ hnpos
    linarith
  have hn1 : (n - 1) ^ 2 ≤ n ^ 2 - 1 := by nlinarith
  have hsq5 := mul_le_mul_of_nonneg_left hn1 (sq_nonneg z)
  have hQ2 := sq_nonneg Q
  have h : (z * (n - 1)) ^ 2 ≤ (7 / 2 * Q) ^ 2 := by
    rw [mul_pow, mul_pow]
    linarith
  exact (sq_le_sq₀ (mul_nonneg hz (by linarith)) (by linarith)).1 h

/-- The slope in rounded arithmetic: near that of the line. -/
theorem slopeF_near (R : Rounding) (mean : List ℚ → ℚ) (dot : List (ℚ × ℚ) → ℚ) (d n : ℕ) (hmean : IsMean R d n mean) (hdot : IsProd R d n dot)
    (hg : (d + 1) * R.u ≤ 1 / 10 ^ 5) (hn : 2 ≤ n) (m : ℕ → ℤ) (hm0 : m 0 = 0) (hm : ∀ i, i + 1 < n → m i < m (i + 1))
    (hM5 : (m (n - 1) : ℚ) ≤ 5 * ((n : ℚ) - 1)) (x y : ℕ → ℚ) (c Δ Q B : ℚ) (hx : ∀ i < n, |x i - m i| ≤ R.u * m (n - 1))
    (hy : ∀ i < n, |y i - (c + m i * Δ)| ≤ Q) (hB : ∀ i < n, |y i| ≤ B) (hQB : Q ≤ B) :
    ∃ σ, slopeF R mean dot ((List.range n).map x) ((List.range n).map y) = some σ ∧
      |σ - Δ| * ((n : ℚ) - 1) ≤ 7 / 2 * (Q + 3300 * ((d + 1) * R.u) * B) := by
  have hun := R.u_nonneg
  have hug : R.u ≤ (d + 1) * R.u := by
    have : 0 ≤ (d : ℚ) * R.u := by positivity
    linarith
  set g := ((d : ℚ) + 1) * R.u with hgdef
  have hg0 : 0 ≤ g := hun.trans hug
  have hn0 : (2 : ℚ) ≤ n := by exact_mod_cast hn
  have hnpos : (0 : ℚ) < n := by linarith
  set M : ℚ := (m (n - 1) : ℚ) with hM
  have hmb : ∀ i < n, (0 : ℚ) ≤ m i ∧ (m i : ℚ) ≤ M := by
    intro i hi
    refine ⟨?_, ?_⟩
    · have := m_mono n m hm 0 i (by omega) hi
      rw [hm0] at this
      exact_mod_cast this
    · have := m_mono n m hm i (n - 1) (by omega) (by omega)
      rw [hM]
      exact_mod_cast this
  have hM0 : 0 ≤ M := (hmb (n - 1) (by omega)).1
  have hB0 : 0 ≤ B := (abs_nonneg _).trans (hB 0 (by omega))
  have hQ0 : 0 ≤ Q := (abs_nonneg _).trans (hy 0 (by omega))
  have hMd : M = m (n - 1) - m 0 := by rw [hm0]; simp [hM]
  have hgM0 : 0 ≤ g * M := mul_nonneg hg0 hM0
  have hgM : g * M ≤ 1 / 10 ^ 5 * M := mul_le_mul_of_nonneg_right hg hM0
  have huM : R.u * M ≤ g * M := mul_le_mul_of_nonneg_right hug hM0
  have hgB0 : 0 ≤ g * B := mul_nonneg hg0 hB0
  have hgB : g * B ≤ 1 / 10 ^ 5 * B := mul_le_mul_of_nonneg_right hg hB0
  have huB : R.u * B ≤ g * B := mul_le_mul_of_nonneg_right hug hB0
  set μ := (∑ i ∈ range n, (m i : ℚ)) / n with hμ
  have hne : ∀ f : ℕ → ℚ, (List.range n).map f ≠ [] := by
    intro f hc
    have := congrArg List.length hc
    simp at this
    omega
  have hlen : ∀ f : ℕ → ℚ, ((List.range n).map f).length = n := fun f => by simp
  have havg : ∀ f : ℕ → ℚ, avg ((List.range n).map f) = (∑ i ∈ range n, f i) / n := by
    intro f
    unfold avg
    rw [sum_list, hlen]
  have hclose : ∀ (f h : ℕ → ℚ) (q : ℚ), (∀ i < n, |f i - h i| ≤ q) → |(∑ i ∈ range n, f i) / n - (∑ i ∈ range n, h i) / n| ≤ q := by
    intro f h q hq
    rw [← sub_div, ← Finset.sum_sub_distrib, abs_div, abs_of_pos hnpos, div_le_iff₀ hnpos]
    refine (Finset.abs_sum_le_sum_abs _ _).trans ?_
    have : ∑ i ∈ range n, |f i - h i| ≤ ∑ i ∈ range n, q := Finset.sum_le_sum fun i hi => hq i (Finset.mem_range.1 hi)
    rw [Finset.sum_const, Finset.card_range, nsmul_eq_mul] at this
    linarith
  have hμb : 0 ≤ μ ∧ μ ≤ M := by
    rw [hμ, le_div_iff₀ hnpos, div_le_iff₀ hnpos]
    constructor
    · rw [zero_mul]
      exact Finset.sum_nonneg fun i hi => (hmb i (Finset.mem_range.1 hi)).1
    · have : ∑ i ∈ range n, (m i : ℚ) ≤ ∑ i ∈ range n, M := Finset.sum_le_sum fun i hi => (hmb i (Finset.mem_range.1 hi)).2
      rw [Finset.sum_const, Finset.card_range, nsmul_eq_mul] at this
      linarith
  -- the means
  set mx := mean ((List.range n).map x) with hmx
  set my := mean ((List.range n).map y) with hmy
  have hx1 : |mx - μ| ≤ R.u * M + 103 / 100 * (g * M) := by
    have h1 := mean_near R d n mean hmean (hg.trans (by norm_num)) _ (hne x) (hlen x).le
    have h2 : avg (((List.range n).map x).map fun v => |v|) ≤ 101 / 100 * M := by
      refine avg_abs_le _ _ ?_ (hne x)
      intro v hv
      obtain ⟨i, hi, rfl⟩ := List.mem_map.1 hv
      have hi' := List.mem_range.1 hi
      have := abs_add_le (x i - m i) (m i : ℚ)
      rw [sub_add_cancel, abs_of_nonneg (hmb i hi').1] at this
      linarith [hx i hi', (hmb i hi').2]
    have h3 : 100 / 99 * g * avg (((List.range n).map x).map fun v => |v|) ≤ 100 / 99 * g * (101 / 100 * M) :=
      mul_le_mul_of_nonneg_left h2 (by linarith)
    rw [havg] at h1
    have h4 := hclose x (fun i => (m i : ℚ)) _ hx
    rw [show mx - μ = (mx - (∑ i ∈ range n, x i) / n) + ((∑ i ∈ range n, x i) / n - μ) by ring]
    refine (abs_add_le _ _).trans ?_
    rw [← hgdef] at h1
    linarith
  have hy1 : |my - (∑ i ∈ range n, y i) / n| ≤ 102 / 100 * (g * B) := by
    have h1 := mean_near R d n mean hmean (hg.trans (by norm_num)) _ (hne y) (hlen y).le
    have h2 : avg (((List.range n).map y).map fun v => |v|) ≤ B := by
      refine avg_abs_le _ _ ?_ (hne y)
      intro v hv
      obtain ⟨i, hi, rfl⟩ := List.mem_map.1 hv
      exact hB i (List.mem_range.1 hi)
    have h3 : 100 / 99 * g * avg (((List.range n).map y).map fun v => |v|) ≤ 100 / 99 * g * B := mul_le_mul_of_nonneg_left h2 (by linarith)
    rw [havg, ← hgdef] at h1
    linarith
  have hmyB : |my| ≤ 101 / 100 * B := by
    have h1 : |(∑ i ∈ range n, y i) / n| ≤ B := by
      have := hclose y (fun _ => 0) B (by intro i hi; simpa using hB i hi)
      simpa using this
    have := abs_add_le (my - (∑ i ∈ range n, y i) / n) ((∑ i ∈ range n, y i) / n)
    rw [sub_add_cancel] at this
    linarith
  set X : ℕ → ℚ := fun i => R.fl (x i - mx) with hXdef
  set Y : ℕ → ℚ := fun i => R.fl (y i - my) with hYdef
  have hX : ∀ i < n, |X i - (m i - μ)| ≤ 5 * g * M := by
    intro i hi
    have h1 := R.err (x i - mx)
    have h2 : |x i - mx - (m i - μ)| ≤ R.u * M + (R.u * M + 103 / 100 * (g * M)) := by
      rw [show x i - mx - ((m i : ℚ) - μ) = (x i - m i) - (mx - μ) by ring]
      refine (abs_sub _ _).trans ?_
      linarith [hx i hi]
    have h3 : |x i - mx| ≤ 104 / 100 * M := by
      have := abs_add_le (x i - mx - (m i - μ)) (m i - μ)
      rw [sub_add_cancel] at this
      have h4 : |(m i : ℚ) - μ| ≤ M := by
        rw [abs_le]
        constructor <;> linarith [hmb i hi, hμb.1, hμb.2, (hmb i hi).1, (hmb i hi).2]
      linarith
    have h5 : R.u * |x i - mx| ≤ R.u * (104 / 100 * M) := mul_le_mul_of_nonneg_left h3 hun
    have := abs_add_le (R.fl (x i - mx) - (x i - mx)) (x i - mx - (m i - μ))
    rw [sub_add_sub_cancel] at this
    change |R.fl (x i - mx) - (m i - μ)| ≤ _
    linarith
  set C := c + μ * Δ - my with hCdef
  have hy2 : ∀ i < n, |y i - my| ≤ 202 / 100 * B := by
    intro i hi
    refine (abs_sub _ _).trans ?_
    linarith [hB i hi]
  have hYe : ∀ i < n, |Y i - (y i - my)| ≤ 202 / 100 * (g * B) := by
    intro i hi
    have h1 := R.err (y i - my)
    have h2 : R.u * |y i - my| ≤ R.u * (202 / 100 * B) := mul_le_mul_of_nonneg_left (hy2 i hi) hun
    change |R.fl (y i - my) - (y i - my)| ≤ _
    linarith
  have hY : ∀ i < n, |Y i - (C + (m i - μ) * Δ)| ≤ Q + 202 / 100 * (g * B) := by
    intro i hi
    rw [show Y i - (C + (m i - μ) * Δ) = (Y i - (y i - my)) + (y i - (c + m i * Δ)) by rw [hCdef]; ring]
    refine (abs_add_le _ _).trans ?_
    linarith [hYe i hi, hy i hi]
  have hYB : ∀ i < n, |Y i| ≤ 205 / 100 * B := by
    intro i hi
    have := abs_add_le (Y i - (y i - my)) (y i - my)
    rw [sub_add_cancel] at this
    linarith [hYe i hi, hy2 i hi]
  have hC : |C| ≤ 2 * B := by
    have h1 := hclose y (fun i => c + m i * Δ) Q hy
    have h2 : (∑ i ∈ range n, (c + m i * Δ)) / n = c + μ * Δ := by
      rw [Finset.sum_add_distrib, Finset.sum_const, Finset.card_range, nsmul_eq_mul, ← Finset.sum_mul, hμ]
      field_simp
    rw [h2] at h1
    rw [show C = -((∑ i ∈ range n, y i) / n - (c + μ * Δ)) - (my - (∑ i ∈ range n, y i) / n) by rw [hCdef]; ring]
    refine (abs_sub _ _).trans ?_
    rw [abs_neg]
    linarith
  have hΔ : |Δ| * M ≤ 4 * B := by
    have h1 := hy 0 (by omega)
    have h2 := hy (n - 1) (by omega)
    have h3 := hB 0 (by omega)
    have h4 := hB (n - 1) (by omega)
    rw [hm0] at h1
    rw [← abs_of_nonneg hM0, ← abs_mul]
    have h5 : Δ * M = (y (n - 1) - y 0) - ((y (n - 1) - (c + M * Δ)) - (y 0 - (c + ((0 : ℤ) : ℚ) * Δ))) := by push_cast; ring
    rw [h5]
    refine (abs_sub _ _).trans ?_
    have h6 := abs_sub (y (n - 1)) (y 0)
    have h7 := abs_sub (y (n - 1) - (c + M * Δ)) (y 0 - (c + ((0 : ℤ) : ℚ) * Δ))
    linarith
  obtain ⟨f1, -, -, f4⟩ := fit_core n hn m hm X g M μ hg0 hg hMd hM5 hμ hX
  have f5 := line_core n hn m hm X Y g M μ C Δ _ B hg0 hg hMd hM5 hμ hX hY hC hΔ
  set P := ∑ i ∈ range n, X i ^ 2 with hP
  set S := ∑ i ∈ range n, |X i| with hSdef
  set N := ∑ i ∈ range n, X i * Y i with hN
  have hS0 : 0 ≤ S := Finset.sum_nonneg fun i _ => abs_nonneg _
  have hKpos : 0 < (n : ℚ) * ((n : ℚ) ^ 2 - 1) := mul_pos hnpos (by nlinarith)
  have hPpos : 0 < P := by linarith
  -- the dot products
  have hpow : (1 + R.u) ^ (d + 1) - 1 ≤ 102 / 100 * g := by
    have := pow_bound hun (d + 1) (by push_cast; exact hg.trans (by norm_num))
    push_cast at this
    rw [← hgdef] at this
    linarith
  have hpow0 : 0 ≤ (1 + R.u) ^ (d + 1) - 1 := by
    have : (1 : ℚ) ≤ (1 + R.u) ^ (d + 1) := one_le_pow₀ (by linarith)
    linarith
  have hzip : ∀ f h : ℕ → ℚ, ((List.range n).map f).zip ((List.range n).map h) = (List.range n).map fun i => (f i, h i) := by
    intro f h
    rw [List.zip_map']
  have hdotn : ∀ f h : ℕ → ℚ, |dot ((List.range n).map fun i => (f i, h i)) - ∑ i ∈ range n, f i * h i| ≤ 102 / 100 * g * ∑ i ∈ range n, |f i * h i| := by
    intro f h
    have h1 := prod_near R d _ _ (hdot ((List.range n).map fun i => (f i, h i)) (by
      intro hc
      have := congrArg List.length hc
      simp at this
      omega) (by simp))
    rw [List.map_map, List.map_map] at h1
    simp only [Function.comp_def] at h1
    rw [sum_list, sum_list] at h1
    refine h1.trans (mul_le_mul_of_nonneg_right hpow (Finset.sum_nonneg fun i _ => abs_nonneg _))
  set dxx := dot ((List.range n).map fun i => (X i, X i)) with hdxx
  set dxy := dot ((List.range n).map fun i => (X i, Y i)) with hdxy
  have h1 : |dxx - P| ≤ 102 / 100 * g * P := by
    have := hdotn X X
    have e1 : ∑ i ∈ range n, X i * X i = P := by rw [hP]; exact Finset.sum_congr rfl fun i _ => by ring
    have e2 : ∑ i ∈ range n, |X i * X i| = P := by rw [hP]; exact Finset.sum_congr rfl fun i _ => by rw [abs_mul_self]; ring
    rwa [e1, e2] at this
  have hSY : ∑ i ∈ range n, |X i * Y i| ≤ 205 / 100 * B * S := by
    rw [hSdef, Finset.mul_sum]
    apply Finset.sum_le_sum
    intro i hi
    rw [abs_mul, mul_comm]
    exact mul_le_mul_of_nonneg_right (hYB i (Finset.mem_range.1 hi)) (abs_nonneg _)
  have h2 : |dxy - N| ≤ 102 / 100 * g * (205 / 100 * B * S) :=
    (hdotn X Y).trans (mul_le_mul_of_nonneg_left hSY (by linarith))
  have hNb : |N| ≤ 205 / 100 * B * S := (Finset.abs_sum_le_sum_abs _ _).trans hSY
  have hgBS0 : 0 ≤ g * B * S := mul_nonneg hgB0 hS0
  have hgBS : g * B * S ≤ 1 / 10 ^ 5 * B * S := mul_le_mul_of_nonneg_right hgB hS0
  have hBS0 : 0 ≤ B * S := mul_nonneg hB0 hS0
  have hdxyb : |dxy| ≤ 21 / 10 * (B * S) := by
    have := abs_add_le (dxy - N) N
    rw [sub_add_cancel] at this
    linarith
  -- the quotient
  obtain ⟨e, he⟩ : ∃ e, dxx = P * (1 + e) := ⟨dxx / P - 1, by field_simp; ring⟩
  have heb : |e| ≤ 102 / 100 * g := by
    rw [he, show P * (1 + e) - P = e * P by ring, abs_mul, abs_of_pos hPpos] at h1
    exact le_of_mul_le_mul_right h1 hPpos
  set w := R.fl (1 / (n : ℚ)) with hw
  have hwpos : 0 < w := (fl_pos R).2 (by positivity)
  obtain ⟨a, ha, hxya⟩ := rel R (dxy * w)
  obtain ⟨b, hb, hxxb⟩ := rel R (dxx * w)
  have e1 : covF R mean dot ((List.range n).map x) ((List.range n).map x) = dxx * w * (1 + b) := by
    unfold covF
    rw [List.map_map, ← hmx, hzip, hlen]
    exact hxxb
  have e2 : covF R mean dot ((List.range n).map x) ((List.range n).map y) = dxy * w * (1 + a) := by
    unfold covF
    rw [List.map_map, List.map_map, ← hmx, ← hmy, hzip, hlen]
    exact hxya
  have heb' := abs_le.1 heb
  have hb' := abs_le.1 (hb.trans hug)
  have hdxxpos : 0 < dxx := by rw [he]; exact mul_pos hPpos (by linarith)
  have hcpos : 0 < dxx * w * (1 + b) := mul_pos (mul_pos hdxxpos hwpos) (by linarith)
  obtain ⟨k, hk, hkf⟩ := rel R (dxy * w * (1 + a) / (dxx * w * (1 + b)))
  refine ⟨R.fl (dxy * w * (1 + a) / (dxx * w * (1 + b))), ?_, ?_⟩
  · unfold slopeF
    rw [e1, e2, if_neg hcpos.ne']
  · have hr := quotient_near hg0 hg (ha.trans hug) (hb.trans hug) (hk.trans hug) heb
    rw [hkf]
    set r := (1 + a) * (1 + k) / ((1 + e) * (1 + b)) with hrdef
    have hσ : dxy * w * (1 + a) / (dxx * w * (1 + b)) * (1 + k) = dxy * r / P := by
      rw [hrdef, he]
      have : 1 + e ≠ 0 := by linarith
      have : 1 + b ≠ 0 := by linarith
      field_simp
    rw [hσ]
    set σ := dxy * r / P with hσd
    have hσP : (σ - Δ) * P = (dxy - N) + (N - Δ * P) + (r - 1) * dxy := by rw [hσd]; field_simp; ring
    have hq : |σ - Δ| * P ≤ (Q + 3300 * g * B) * S := by
      rw [← abs_of_pos hPpos, ← abs_mul, hσP]
      refine (abs_add_three _ _ _).trans ?_
      have h3 : |(r - 1) * dxy| ≤ 5 * g * (21 / 10 * (B * S)) := by
        rw [abs_mul]
        exact mul_le_mul hr hdxyb (abs_nonneg _) (by linarith)
      linarith
    exact final_bound hn0 f1 hPpos (by linarith) (abs_nonneg _) hq f4
