import Verif.Model.FloatInterpolation
import Verif.Props.FloatFit
import Mathlib.Analysis.SpecialFunctions.Trigonometric.Sinc
import Mathlib.Analysis.SpecialFunctions.Integrals.Basic
import Mathlib.Analysis.Real.Pi.Bounds

/-!
C115: sinc interpolation in double precision.
-/

namespace Verif.Props.FloatInterpolation

open Verif Verif.Float Verif.Props.Float

/-! ### Specification -/

/-- The Whittaker-Shannon interpolation of the samples `y`, taken at `x0`, `x0 + T`, ..., at the time `z`. -/
noncomputable def ideal (x0 T : ℝ) (y : List ℚ) (z : ℝ) : ℝ :=
  ((List.range y.length).map fun k => (y.getD k 0 : ℝ) * Real.sinc (Real.pi * ((z - (x0 + k * T)) / T))).sum

/-- The magnitudes of the samples, added up. -/
def total (y : List ℚ) : ℚ := (y.map fun v => |v|).sum

/-- The relative error of a weight: `ε` is the error of the sample times in sample distances, `u` the unit of rounding. -/
noncomputable def weightErr (ε u : ℝ) : ℝ := 21 * ε + 36 * u + 1 / 10 ^ 19

/-- The relative error of a sum with `d` nested additions. -/
noncomputable def sumErr (u : ℝ) (d : ℕ) : ℝ := (1 + u) ^ (d + 1) - 1

/-- There are such functions of the C library in doubles. -/
example : Nonempty (Trig double) := by
  have hu : (0:ℝ) < (double.u : ℝ) := by norm_num [double]
  have hpi := Real.pi_pos
  obtain ⟨p, hp1, hp2⟩ := exists_rat_btwn (show Real.pi < Real.pi + (double.u : ℝ) * Real.pi by nlinarith)
  have h : ∀ y : ℚ, ∃ s : ℚ, |(s : ℝ) - Real.sin y| ≤ 2 * (double.u : ℝ) * |(y : ℝ)| := by
    intro y
    by_cases hy : y = 0
    · exact ⟨0, by subst hy; simp⟩
    · have hy' : (0:ℝ) < |(y : ℝ)| := abs_pos.2 (by exact_mod_cast hy)
      obtain ⟨s, h1, h2⟩ := exists_rat_btwn (show Real.sin y < Real.sin y + 2 * (double.u : ℝ) * |(y : ℝ)| by
        have : 0 < 2 * (double.u : ℝ) * |(y : ℝ)| := by positivity
        linarith)
      exact ⟨s, by rw [abs_le]; constructor <;> linarith⟩
  choose f hf using h
  exact ⟨{ pi := p, sin := f, pi_err := by rw [abs_le]; constructor <;> nlinarith, sin_err := hf }⟩

/-! ### The function sinc -/

theorem sinc_integral (x : ℝ) : Real.sinc x = ∫ t in (0:ℝ)..1, Real.cos (x * t) := by
  by_cases hx : x = 0
  · subst hx; simp
  · rw [Real.sinc_of_ne_zero hx]
    have h := intervalIntegral.mul_integral_comp_mul_left (f := Real.cos) (a := 0) (b := 1) (c := x)
    rw [integral_cos] at h
    simp only [mul_zero, mul_one, Real.sin_zero, sub_zero] at h
    rw [← h]; field_simp

theorem sinc_lipschitz (a b : ℝ) : |Real.sinc a - Real.sinc b| ≤ |a - b| := by
  rw [sinc_integral, sinc_integral, ← intervalIntegral.integral_sub]
  · have h := intervalIntegral.norm_integral_le_of_norm_le_const (a := (0:ℝ)) (b := 1) (f := fun t => Real.cos (a * t) - Real.cos (b * t)) (C := |a - b|) ?_
    · simpa using h
    · intro t ht
      rw [Set.uIoc_of_le zero_le_one] at ht
      rw [Real.norm_eq_abs]
      refine (Real.abs_cos_sub_cos_le _ _).trans ?_
      rw [← sub_mul, abs_mul, abs_of_pos ht.1]
      exact mul_le_of_le_one_right (abs_nonneg _) ht.2
  · exact (Continuous.intervalIntegrable (by fun_prop) _ _)
  · exact (Continuous.intervalIntegrable (by fun_prop) _ _)

/-- Far from 0 the values are less sensitive. -/
theorem sinc_far (a b : ℝ) (hb : b ≠ 0) : |Real.sinc a - Real.sinc b| ≤ 2 * |a - b| / |b| := by
  by_cases ha : a = 0
  · subst ha
    have h : |(0:ℝ) - b| = |b| := by rw [zero_sub, abs_neg]
    rw [h, mul_div_assoc, div_self (abs_ne_zero.2 hb)]
    have h1 := abs_le.1 (Real.abs_sinc_le_one b)
    rw [Real.sinc_zero, abs_le]; constructor <;> linarith [h1.1, h1.2]
  rw [Real.sinc_of_ne_zero ha, Real.sinc_of_ne_zero hb]
  have e : Real.sin a / a - Real.sin b / b = ((Real.sin a / a) * (b - a) + (Real.sin a - Real.sin b)) / b := by field_simp; ring
  rw [e, abs_div]
  refine div_le_div_of_nonneg_right ?_ (abs_nonneg _)
  have h1 : |Real.sin a / a| ≤ 1 := by rw [← Real.sinc_of_ne_zero ha]; exact Real.abs_sinc_le_one a
  have h2 : |Real.sin a - Real.sin b| ≤ |a - b| := Real.abs_sin_sub_sin_le a b
  have h3 : |(Real.sin a / a) * (b - a)| ≤ 1 * |a - b| := by
    rw [abs_mul, abs_sub_comm b a]; exact mul_le_mul_of_nonneg_right h1 (abs_nonneg _)
  have := abs_add_le ((Real.sin a / a) * (b - a)) (Real.sin a - Real.sin b)
  linarith

/-! ### One weight -/

theorem flR (R : Rounding) (x : ℚ) : |(R.fl x : ℝ) - x| ≤ (R.u : ℝ) * |(x : ℝ)| := by
  have h : ((|R.fl x - x| : ℚ) : ℝ) ≤ ((R.u * |x| : ℚ) : ℝ) := Rat.cast_le.2 (R.err x)
  push_cast at h
  exact h

theorem u0 (R : Rounding) : (0:ℝ) ≤ (R.u : ℝ) := by exact_mod_cast R.u_nonneg

theorem u1 (R : Rounding) : (R.u : ℝ) ≤ 1 / 100 := by
  have h : ((R.u : ℚ) : ℝ) ≤ ((1 / 100 : ℚ) : ℝ) := Rat.cast_le.2 R.u_small
  push_cast at h
  exact h

/-- A rounded value next to a real number. -/
theorem flR_near (R : Rounding) {x : ℚ} {y e B : ℝ} (h : |(x : ℝ) - y| ≤ e) (hB : |y| ≤ B) : |(R.fl x : ℝ) - y| ≤ e + (R.u : ℝ) * (B + e) := by
  have h1 := flR R x
  have h2 : |(x : ℝ)| ≤ B + e := by
    have := abs_sub_abs_le_abs_sub (x : ℝ) y
    linarith
  have h3 := mul_le_mul_of_nonneg_left h2 (u0 R)
  have h4 := abs_sub_le (R.fl x : ℝ) x y
  linarith

/-- `np.sinc` in floats. -/
theorem npSincF_near (R : Rounding) (W : Trig R) (x : ℚ) : |(npSincF R W x : ℝ) - Real.sinc (Real.pi * x)| ≤ 8 * (R.u : ℝ) + 1 / 10 ^ 19 := by
  have hu0 := u0 R
  have hu1 := u1 R
  have hpi := Real.pi_pos
  obtain ⟨t, ht⟩ : ∃ t : ℚ, t = if x = 0 then R.fl (1 / 10 ^ 20) else x := ⟨_, rfl⟩
  have ht0 : t ≠ 0 := by
    rw [ht]
    split_ifs with h
    · exact fun h0 => by rw [fl_eq_zero] at h0; norm_num at h0
    · exact h
  have htx : |Real.pi * (t : ℝ) - Real.pi * x| ≤ 1 / 10 ^ 19 := by
    rw [ht]
    split_ifs with h
    · have h1 := flR R (1 / 10 ^ 20)
      have h2 := Real.pi_lt_d2
      have h3 : |(((1 / 10 ^ 20 : ℚ)) : ℝ)| = 1 / 10 ^ 20 := by push_cast; rw [abs_of_pos]; positivity
      rw [h3] at h1
      push_cast at h1
      have h4 : |(R.fl (1 / 10 ^ 20) : ℝ)| ≤ 2 / 10 ^ 20 := by
        have h5 := abs_le.1 h1
        have h6 : (R.u : ℝ) * (1 / 10 ^ 20) ≤ 1 / 100 * (1 / 10 ^ 20) := mul_le_mul_of_nonneg_right hu1 (by positivity)
        rw [abs_le]; constructor <;> norm_num at * <;> linarith [h5.1, h5.2]
      rw [h, Rat.cast_zero, mul_zero, sub_zero, abs_mul, abs_of_pos hpi]
      calc Real.pi * |(R.fl (1 / 10 ^ 20) : ℝ)| ≤ 4 * (2 / 10 ^ 20) := mul_le_mul (by linarith) h4 (abs_nonneg _) (by norm_num)
        _ ≤ _ := by norm_num
    · rw [sub_self, abs_zero]; positivity
  have htR : (t : ℝ) ≠ 0 := by exact_mod_cast ht0
  have htp : 0 < |(t : ℝ)| := abs_pos.2 htR
  have e0 : npSincF R W x = R.fl (W.sin (R.fl (W.pi * t)) / R.fl (W.pi * t)) := by rw [ht]; rfl
  rw [e0]
  obtain ⟨y, hy⟩ : ∃ y, y = R.fl (W.pi * t) := ⟨_, rfl⟩
  rw [← hy]
  -- the argument
  have hP := W.pi_err
  have hb : |(Real.pi * (t : ℝ))| = Real.pi * |(t : ℝ)| := by rw [abs_mul, abs_of_pos hpi]
  have hpt : 0 < Real.pi * |(t : ℝ)| := mul_pos hpi htp
  have h1 : |((W.pi * t : ℚ) : ℝ) - Real.pi * t| ≤ (R.u : ℝ) * (Real.pi * |(t : ℝ)|) := by
    push_cast
    rw [← sub_mul, abs_mul, ← mul_assoc]
    exact mul_le_mul_of_nonneg_right hP (abs_nonneg _)
  have h2 := flR_near R h1 hb.le
  rw [← hy] at h2
  have h3 : |(y : ℝ) - Real.pi * t| ≤ 201 / 100 * (R.u : ℝ) * (Real.pi * |(t : ℝ)|) := by
    refine h2.trans ?_
    have h4 := mul_le_mul_of_nonneg_right hu1 (mul_nonneg hu0 hpt.le)
    nlinarith
  have hbne : Real.pi * (t : ℝ) ≠ 0 := mul_ne_zero hpi.ne' htR
  have hy0 : (y : ℝ) ≠ 0 := by
    intro h0
    rw [h0, zero_sub, abs_neg, hb] at h3
    have h4 := mul_le_mul_of_nonneg_right hu1 hpt.le
    nlinarith
  have h4 : |Real.sinc y - Real.sinc (Real.pi * t)| ≤ 402 / 100 * (R.u : ℝ) := by
    refine (sinc_far _ _ hbne).trans ?_
    rw [hb, div_le_iff₀ hpt]
    linarith
  -- the quotient
  have hyp : 0 < |(y : ℝ)| := abs_pos.2 hy0
  have h5 : |((W.sin y / y : ℚ) : ℝ) - Real.sinc y| ≤ 2 * (R.u : ℝ) := by
    push_cast
    rw [Real.sinc_of_ne_zero hy0, ← sub_div, abs_div, div_le_iff₀ hyp]
    exact W.sin_err y
  have h6 := flR_near R h5 (Real.abs_sinc_le_one y)
  have h7 := (sinc_lipschitz (Real.pi * t) (Real.pi * x)).trans htx
  have h8 := abs_sub_le (R.fl (W.sin y / y) : ℝ) (Real.sinc y) (Real.sinc (Real.pi * x))
  have h9 := abs_sub_le (Real.sinc y) (Real.sinc (Real.pi * t)) (Real.sinc (Real.pi * x))
  have h10 := mul_le_mul_of_nonneg_right hu1 hu0
  nlinarith

/-- The argument of `np.sinc`. -/
theorem arg_near (R : Rounding) {x xk P : ℚ} {z ξ T η : ℝ} (hT : 0 < T) (hη : η ≤ T / 100) (hx : |(x : ℝ) - z| ≤ η) (hk : |(xk : ℝ) - ξ| ≤ η)
    (hP : |(P : ℝ) - T| ≤ 2 * η + (R.u : ℝ) * (T + 2 * η)) :
    |(R.fl (R.fl (x - xk) / P) : ℝ) - (z - ξ) / T| ≤ (3 * (η / T) + 4 * (R.u : ℝ)) * (1 + |(z - ξ) / T|) := by
  have hu0 := u0 R
  have hu1 := u1 R
  have hη0 : 0 ≤ η := (abs_nonneg _).trans hx
  obtain ⟨ε, hε⟩ : ∃ ε, ε = η / T := ⟨_, rfl⟩
  obtain ⟨r, hr⟩ : ∃ r, r = (z - ξ) / T := ⟨_, rfl⟩
  have eη : η = ε * T := by rw [hε]; field_simp
  have er : z - ξ = r * T := by rw [hr]; field_simp
  rw [← hε, ← hr]
  have hε0 : 0 ≤ ε := by rw [hε]; positivity
  have hε1 : ε ≤ 1 / 100 := by rw [hε, div_le_iff₀ hT]; linarith
  have hr0 := abs_nonneg r
  have hur := mul_nonneg hu0 hr0
  have huε : (R.u : ℝ) * ε ≤ 1 / 100 * ε := mul_le_mul_of_nonneg_right hu1 hε0
  have huε0 := mul_nonneg hu0 hε0
  -- numerator
  have h1 : |((x - xk : ℚ) : ℝ) - r * T| ≤ 2 * (ε * T) := by
    push_cast
    rw [← er, ← eη]
    rw [abs_le] at hx hk ⊢
    constructor <;> linarith [hx.1, hx.2, hk.1, hk.2]
  have hrT : |r * T| ≤ |r| * T := by rw [abs_mul, abs_of_pos hT]
  have h2 := flR_near R h1 hrT
  rw [eη] at hP
  -- the denominator is positive
  have hPl := abs_le.1 hP
  have hP1 : 96 / 100 * T ≤ (P : ℝ) := by
    have : 2 * (ε * T) + (R.u : ℝ) * (T + 2 * (ε * T)) = (2 * ε + (R.u : ℝ) + 2 * ((R.u : ℝ) * ε)) * T := by ring
    rw [this] at hPl
    have h3 : (2 * ε + (R.u : ℝ) + 2 * ((R.u : ℝ) * ε)) * T ≤ 4 / 100 * T := mul_le_mul_of_nonneg_right (by linarith) hT.le
    linarith [hPl.1]
  have hP0 : 0 < (P : ℝ) := by linarith
  -- the quotient
  obtain ⟨N, hN⟩ : ∃ N, N = R.fl (x - xk) := ⟨_, rfl⟩
  rw [← hN] at h2 ⊢
  obtain ⟨δ, hδ⟩ : ∃ δ, δ = 215 / 100 * ε + |r| * (215 / 100 * ε + 211 / 100 * (R.u : ℝ)) := ⟨_, rfl⟩
  have h3 : |((N / P : ℚ) : ℝ) - r| ≤ δ := by
    push_cast
    have e : (N : ℝ) / P - r = ((N - r * T) - r * (P - T)) / P := by field_simp; ring
    rw [e, abs_div, abs_of_pos hP0, div_le_iff₀ hP0]
    have h4 : |r * ((P : ℝ) - T)| ≤ |r| * (2 * (ε * T) + (R.u : ℝ) * (T + 2 * (ε * T))) := by
      rw [abs_mul]; exact mul_le_mul_of_nonneg_left hP hr0
    refine (abs_sub _ _).trans ((add_le_add h2 h4).trans ?_)
    have hd0 : 0 ≤ δ := by rw [hδ]; positivity
    refine le_trans ?_ (mul_le_mul_of_nonneg_left hP1 hd0)
    have e2 : 2 * (ε * T) + (R.u : ℝ) * (|r| * T + 2 * (ε * T)) + |r| * (2 * (ε * T) + (R.u : ℝ) * (T + 2 * (ε * T))) =
        (2 * ε + (R.u : ℝ) * |r| + 2 * ((R.u : ℝ) * ε) + |r| * (2 * ε) + (R.u : ℝ) * |r| + 2 * (|r| * ((R.u : ℝ) * ε))) * T := by ring
    rw [e2, hδ]
    have h5 : |r| * ((R.u : ℝ) * ε) ≤ |r| * (1 / 100 * ε) := mul_le_mul_of_nonneg_left huε hr0
    have h6 : 0 ≤ |r| * ε := mul_nonneg hr0 hε0
    rw [show (215 / 100 * ε + |r| * (215 / 100 * ε + 211 / 100 * (R.u : ℝ))) * (96 / 100 * T) =
      ((215 / 100 * ε + |r| * (215 / 100 * ε + 211 / 100 * (R.u : ℝ))) * (96 / 100)) * T by ring]
    refine mul_le_mul_of_nonneg_right ?_ hT.le
    nlinarith
  have h4 := flR_near R h3 (le_refl |r|)
  refine h4.trans ?_
  rw [hδ]
  have h5 : |r| * ((R.u : ℝ) * ε) ≤ |r| * (1 / 100 * ε) := mul_le_mul_of_nonneg_left huε hr0
  have h6 : 0 ≤ |r| * ε := mul_nonneg hr0 hε0
  have h7 : |r| * ((R.u : ℝ) * (R.u : ℝ)) ≤ |r| * (1 / 100 * (R.u : ℝ)) := mul_le_mul_of_nonneg_left (mul_le_mul_of_nonneg_right hu1 hu0) hr0
  nlinarith

/-- One weight. -/
theorem weight_near (R : Rounding) (W : Trig R) {x xk P : ℚ} {z ξ T η : ℝ} (hT : 0 < T) (hη : η ≤ T / 100) (hx : |(x : ℝ) - z| ≤ η) (hk : |(xk : ℝ) - ξ| ≤ η)
    (hP : |(P : ℝ) - T| ≤ 2 * η + (R.u : ℝ) * (T + 2 * η)) :
    |(npSincF R W (R.fl (R.fl (x - xk) / P)) : ℝ) - Real.sinc (Real.pi * ((z - ξ) / T))| ≤ weightErr (η / T) (R.u : ℝ) := by
  have h1 := arg_near R hT hη hx hk hP
  have h2 := npSincF_near R W (R.fl (R.fl (x - xk) / P))
  obtain ⟨a, ha⟩ : ∃ a, a = R.fl (R.fl (x - xk) / P) := ⟨_, rfl⟩
  obtain ⟨r, hr⟩ : ∃ r, r = (z - ξ) / T := ⟨_, rfl⟩
  obtain ⟨e, he⟩ : ∃ e, e = 3 * (η / T) + 4 * (R.u : ℝ) := ⟨_, rfl⟩
  rw [← ha, ← hr, ← he] at h1
  rw [← ha] at h2
  rw [← ha, ← hr]
  have hpi := Real.pi_pos
  have hpi2 := Real.pi_lt_d2
  have he0 : 0 ≤ e := by
    have := (abs_nonneg _).trans hx
    have := u0 R
    rw [he]; positivity
  have h3 : |Real.sinc (Real.pi * a) - Real.sinc (Real.pi * r)| ≤ 7 * e := by
    have hd : |Real.pi * (a : ℝ) - Real.pi * r| = Real.pi * |(a : ℝ) - r| := by rw [← mul_sub, abs_mul, abs_of_pos hpi]
    by_cases hr1 : |r| ≤ 1
    · refine (sinc_lipschitz _ _).trans ?_
      rw [hd]
      have h4 : |(a : ℝ) - r| ≤ e * 2 := h1.trans (mul_le_mul_of_nonneg_left (by linarith) he0)
      calc Real.pi * |(a : ℝ) - r| ≤ 3.15 * (e * 2) := mul_le_mul hpi2.le h4 (abs_nonneg _) (by norm_num)
        _ ≤ 7 * e := by linarith
    · push Not at hr1
      have hr0 : r ≠ 0 := by rintro rfl; simp at hr1; linarith
      refine (sinc_far _ _ (mul_ne_zero hpi.ne' hr0)).trans ?_
      rw [hd, abs_mul, abs_of_pos hpi, div_le_iff₀ (by positivity)]
      have h4 : |(a : ℝ) - r| ≤ e * (2 * |r|) := h1.trans (mul_le_mul_of_nonneg_left (by linarith) he0)
      have h5 := mul_le_mul_of_nonneg_left h4 hpi.le
      have h6 : 0 ≤ Real.pi * (e * |r|) := by positivity
      nlinarith
  have h4 := abs_sub_le (npSincF R W a : ℝ) (Real.sinc (Real.pi * a)) (Real.sinc (Real.pi * r))
  rw [he] at h3
  unfold weightErr
  linarith

/-! ### The sum -/

theorem weights (ys ws : List ℚ) (hl : ws.length = ys.length) (V : ℕ → ℝ) (κ : ℝ) (h : ∀ k < ws.length, |(ws.getD k 0 : ℝ) - V k| ≤ κ) (h1 : ∀ k, |V k| ≤ 1) :
    |((((ys.zip ws).map fun p => p.1 * p.2).sum : ℚ) : ℝ) - ((List.range ys.length).map fun k => (ys.getD k 0 : ℝ) * V k).sum| ≤ κ * (total ys : ℝ) ∧
    ((((ys.zip ws).map fun p => |p.1 * p.2|).sum : ℚ) : ℝ) ≤ (1 + κ) * (total ys : ℝ) := by
  induction ys generalizing ws V with
  | nil => simp [total]
  | cons y ys ih =>
    cases ws with
    | nil => simp at hl
    | cons w ws =>
      have hw := h 0 (by simp)
      simp only [List.getD_cons_zero] at hw
      obtain ⟨i1, i2⟩ := ih ws (by simpa using hl) (fun k => V (k + 1))
        (fun k hk => by have := h (k + 1) (by simpa using hk); simpa using this) (fun k => h1 _)
      have hV := h1 0
      have hy := abs_nonneg (y : ℝ)
      have hw1 : |(w : ℝ)| ≤ 1 + κ := by
        have := abs_sub_abs_le_abs_sub (w : ℝ) (V 0)
        linarith
      have ht : (total (y :: ys) : ℝ) = |(y : ℝ)| + (total ys : ℝ) := by
        unfold total
        rw [List.map_cons, List.sum_cons]; push_cast; rfl
      rw [ht]
      constructor
      · rw [List.length_cons, List.range_succ_eq_map, List.map_cons, List.sum_cons, List.map_map, List.zip_cons_cons, List.map_cons, List.sum_cons]
        simp only [List.getD_cons_zero]
        have e : ((fun k : ℕ => ((y :: ys).getD k 0 : ℝ) * V k) ∘ Nat.succ) = fun k => (ys.getD k 0 : ℝ) * V (k + 1) := by
          funext k; simp
        rw [e, Rat.cast_add, Rat.cast_mul]
        have h2 : |(y : ℝ) * w - y * V 0| ≤ |(y : ℝ)| * κ := by
          rw [← mul_sub, abs_mul]; exact mul_le_mul_of_nonneg_left hw hy
        rw [abs_le] at i1 h2 ⊢
        constructor <;> linarith [i1.1, i1.2, h2.1, h2.2]
      · rw [List.zip_cons_cons, List.map_cons, List.sum_cons, Rat.cast_add, Rat.cast_abs, Rat.cast_mul]
        have h2 : |(y : ℝ) * w| ≤ |(y : ℝ)| * (1 + κ) := by
          rw [abs_mul]; exact mul_le_mul_of_nonneg_left hw1 hy
        linarith

/-- Sample times that are off a regular grid by at most `η`. -/
def Grid (x0 T η : ℝ) (xp : List ℚ) : Prop := ∀ k < xp.length, |(xp.getD k 0 : ℝ) - (x0 + k * T)| ≤ η

/-- One value. -/
theorem value_near (R : Rounding) (W : Trig R) {d n : ℕ} (dot : List (ℚ × ℚ) → ℚ) (hdot : IsProd R d n dot) {x0 T η z : ℝ} {P x : ℚ} {xp yp : List ℚ}
    (hT : 0 < T) (hη : η ≤ T / 100) (hg : Grid x0 T η xp) (hl : xp.length = yp.length) (h2 : 2 ≤ xp.length) (hn : xp.length ≤ n)
    (hP : |(P : ℝ) - T| ≤ 2 * η + (R.u : ℝ) * (T + 2 * η)) (hx : |(x : ℝ) - z| ≤ η) :
    |(sincAtF R W dot P xp yp x : ℝ) - ideal x0 T yp z| ≤
      (weightErr (η / T) R.u + sumErr R.u d * (1 + weightErr (η / T) R.u)) * (total yp : ℝ) := by
  obtain ⟨ws, hws⟩ : ∃ ws, ws = xp.map fun xk => npSincF R W (R.fl (R.fl (x - xk) / P)) := ⟨_, rfl⟩
  have hlw : ws.length = yp.length := by rw [hws, List.length_map, hl]
  have hw : ∀ k < ws.length, |(ws.getD k 0 : ℝ) - Real.sinc (Real.pi * ((z - (x0 + k * T)) / T))| ≤ weightErr (η / T) R.u := by
    intro k hk
    have hk' : k < xp.length := by rw [hl, ← hlw]; exact hk
    have hgk := hg k hk'
    rw [List.getD_eq_getElem _ _ hk'] at hgk
    have e : ws.getD k 0 = npSincF R W (R.fl (R.fl (x - xp[k]) / P)) := by
      rw [List.getD_eq_getElem _ _ hk]; simp only [hws, List.getElem_map]
    rw [e]
    exact weight_near R W hT hη hx hgk hP
  obtain ⟨a1, a2⟩ := weights yp ws hlw (fun k => Real.sinc (Real.pi * ((z - (x0 + k * T)) / T))) _ hw (fun k => Real.abs_sinc_le_one _)
  have hne : yp.zip ws ≠ [] := by
    intro h0
    have := congrArg List.length h0
    rw [List.length_zip, hlw] at this
    simp at this
    rw [hl, this] at h2; simp at h2
  have hs := FloatFit.prod_near R d _ _ (hdot (yp.zip ws) hne (by rw [List.length_zip, hlw, min_self, ← hl]; exact hn))
  have hs' : |(dot (yp.zip ws) : ℝ) - ((((yp.zip ws).map fun p => p.1 * p.2).sum : ℚ) : ℝ)| ≤
      sumErr R.u d * ((((yp.zip ws).map fun p => |p.1 * p.2|).sum : ℚ) : ℝ) := by
    have h : ((|dot (yp.zip ws) - ((yp.zip ws).map fun p => p.1 * p.2).sum| : ℚ) : ℝ) ≤
      ((((1 + R.u) ^ (d + 1) - 1) * ((yp.zip ws).map fun p => |p.1 * p.2|).sum : ℚ) : ℝ) := Rat.cast_le.2 hs
    rw [Rat.cast_abs, Rat.cast_sub, Rat.cast_mul] at h
    refine h.trans (le_of_eq ?_)
    unfold sumErr
    push_cast
    rfl
  have hγ : 0 ≤ sumErr R.u d := by
    unfold sumErr
    have : (1:ℝ) ≤ (1 + (R.u : ℝ)) ^ (d + 1) := one_le_pow₀ (by linarith [u0 R])
    linarith
  have h3 := mul_le_mul_of_nonneg_left a2 hγ
  unfold sincAtF ideal
  rw [← hws]
  have h4 := abs_sub_le (dot (yp.zip ws) : ℝ) ((((yp.zip ws).map fun p => p.1 * p.2).sum : ℚ) : ℝ)
    ((List.range yp.length).map fun k => (yp.getD k 0 : ℝ) * Real.sinc (Real.pi * ((z - (x0 + k * T)) / T))).sum
  rw [add_mul]
  linarith

/-! ### C115 -/

/-- **C115 (accuracy).** With sample times within `η` of a regular grid and requested times within `η` of `z`, all in floats, `sinc` returns, for each requested
time, the Whittaker-Shannon interpolation of the samples, up to the stated multiple of their added magnitudes. -/
theorem C115_accuracy (R : Rounding) (W : Trig R) {d n : ℕ} (dot : List (ℚ × ℚ) → ℚ) (hdot : IsProd R d n dot) {x0 T η : ℝ} {x xp yp : List ℚ} {z : List ℝ}
    (hT : 0 < T) (hη : η ≤ T / 100) (hg : Grid x0 T η xp) (hl : xp.length = yp.length) (h2 : 2 ≤ xp.length) (hn : xp.length ≤ n)
    (hx : ∀ i < x.length, |(x.getD i 0 : ℝ) - z.getD i 0| ≤ η) :
    ∃ r, sincF R W dot 1 x xp yp = .ok r ∧ r.length = x.length ∧ ∀ i < x.length,
      |(r.getD i 0 : ℝ) - ideal x0 T yp (z.getD i 0)| ≤
        (weightErr (η / T) R.u + sumErr R.u d * (1 + weightErr (η / T) R.u)) * (total yp : ℝ) := by
  match xp, h2, hg, hl, hn with
  | a :: b :: l, h2, hg, hl, hn =>
    refine ⟨x.map (sincAtF R W dot (R.fl (b - a)) (a :: b :: l) yp), ?_, by simp, ?_⟩
    · unfold sincF
      rw [if_neg (by simp), if_neg (by rw [hl]; simp)]
    · intro i hi
      have hxi := hx i hi
      rw [List.getD_eq_getElem _ _ hi] at hxi
      rw [List.getD_eq_getElem _ _ (by simpa using hi), List.getElem_map]
      refine value_near R W dot hdot hT hη hg hl h2 hn ?_ hxi
      have ha := hg 0 (by simp)
      have hb := hg 1 (by simp)
      simp only [List.getD_cons_zero, List.getD_cons_succ, Nat.cast_zero, Nat.cast_one, zero_mul, one_mul, add_zero] at ha hb
      refine flR_near R (y := T) ?_ (abs_of_pos hT).le
      push_cast
      rw [abs_le] at ha hb ⊢
      constructor <;> linarith [ha.1, ha.2, hb.1, hb.2]

/-- At a sample time the ideal interpolation is the sample. -/
theorem ideal_sample (x0 T : ℝ) (hT : T ≠ 0) (y : List ℚ) (j : ℕ) (hj : j < y.length) : ideal x0 T y (x0 + j * T) = (y.getD j 0 : ℝ) := by
  unfold ideal
  have h : ∀ k : ℕ, (y.getD k 0 : ℝ) * Real.sinc (Real.pi * ((x0 + j * T - (x0 + k * T)) / T)) = if k = j then (y.getD j 0 : ℝ) else 0 := by
    intro k
    have e : (x0 + j * T - (x0 + k * T)) / T = (((j : ℤ) - (k : ℤ) : ℤ) : ℝ) := by push_cast; field_simp; ring
    rw [e]
    split_ifs with hk
    · subst hk; simp
    · have hne : ((j : ℤ) - (k : ℤ) : ℤ) ≠ 0 := by omega
      rw [Real.sinc_of_ne_zero (mul_ne_zero Real.pi_ne_zero (by exact_mod_cast hne)), mul_comm Real.pi, Real.sin_int_mul_pi]
      simp
  simp only [h]
  rw [← List.sum_toFinset _ (List.nodup_range), Finset.sum_ite_eq']
  simp [hj]

/-- **C115 (samples).** Requested at the sample times, `sinc` returns the samples, up to the stated error. -/
theorem C115_samples (R : Rounding) (W : Trig R) {d n : ℕ} (dot : List (ℚ × ℚ) → ℚ) (hdot : IsProd R d n dot) {x0 T η : ℝ} {xp yp : List ℚ}
    (hT : 0 < T) (hη : η ≤ T / 100) (hg : Grid x0 T η xp) (hl : xp.length = yp.length) (h2 : 2 ≤ xp.length) (hn : xp.length ≤ n) :
    ∃ r, sincF R W dot 1 xp xp yp = .ok r ∧ r.length = yp.length ∧ ∀ i < yp.length,
      |(r.getD i 0 : ℝ) - yp.getD i 0| ≤ (weightErr (η / T) R.u + sumErr R.u d * (1 + weightErr (η / T) R.u)) * (total yp : ℝ) := by
  obtain ⟨r, h3, h4, h5⟩ := C115_accuracy R W dot hdot (z := (List.range xp.length).map fun k : ℕ => x0 + k * T) (x := xp) hT hη hg hl h2 hn
    (fun i hi => by rw [List.getD_eq_getElem (α := ℝ) _ _ (by simpa using hi)]; simpa using hg i hi)
  refine ⟨r, h3, h4.trans hl, fun i hi => ?_⟩
  have h6 := h5 i (by rw [hl]; exact hi)
  rw [List.getD_eq_getElem (α := ℝ) _ _ (by simpa [hl] using hi)] at h6
  simp only [List.getElem_map, List.getElem_range] at h6
  rw [ideal_sample x0 T hT.ne' yp i hi] at h6
  exact h6

/-- **C115 (a rounded grid).** The times `x0 + k T`, each rounded to a float, are a grid with an error of `u` times the largest of them. -/
theorem C115_grid (R : Rounding) (x0 T X : ℚ) (n : ℕ) (hX : ∀ k < n, |x0 + (k : ℚ) * T| ≤ X) :
    Grid (x0 : ℝ) (T : ℝ) ((R.u * X : ℚ) : ℝ) ((List.range n).map fun k : ℕ => R.fl (x0 + k * T)) := by
  intro k hk
  simp only [List.length_map, List.length_range] at hk
  rw [List.getD_eq_getElem _ _ (by simpa using hk)]
  simp only [List.getElem_map, List.getElem_range]
  have h : ((|R.fl (x0 + k * T) - (x0 + k * T)| : ℚ) : ℝ) ≤ ((R.u * X : ℚ) : ℝ) :=
    Rat.cast_le.2 ((R.err _).trans (mul_le_mul_of_nonneg_left (hX k hk) R.u_nonneg))
  rw [Rat.cast_abs, Rat.cast_sub] at h
  simpa using h

/-- **C115 (errors).** `sinc` raises a ValueError, and nothing else, exactly for input of the wrong shape. -/
theorem C115_shape (R : Rounding) (W : Trig R) (dot : List (ℚ × ℚ) → ℚ) (ndim : ℕ) (x xp yp : List ℚ) :
    ((∃ r, sincF R W dot ndim x xp yp = .ok r) ↔ ndim = 1 ∧ xp.length = yp.length ∧ 2 ≤ xp.length) ∧
    ∀ e, sincF R W dot ndim x xp yp = .error e → e = .valueError := by
  unfold sincF
  by_cases h1 : ndim ≠ 1
  · rw [if_pos h1]
    exact ⟨⟨fun ⟨r, h⟩ => absurd h (by simp), fun h => absurd h.1 h1⟩, fun e h => (Except.error.inj h).symm⟩
  rw [if_neg h1]
  push Not at h1
  by_cases hl : xp.length ≠ yp.length
  · rw [if_pos hl]
    exact ⟨⟨fun ⟨r, h⟩ => absurd h (by simp), fun h => absurd h.2.1 hl⟩, fun e h => (Except.error.inj h).symm⟩
  rw [if_neg hl]
  push Not at hl
  match xp with
  | [] => exact ⟨⟨fun ⟨r, h⟩ => absurd h (by simp), fun h => absurd h.2.2 (by simp)⟩, fun e h => (Except.error.inj h).symm⟩
  | [_] => exact ⟨⟨fun ⟨r, h⟩ => absurd h (by simp), fun h => absurd h.2.2 (by simp)⟩, fun e h => (Except.error.inj h).symm⟩
  | a :: b :: l => exact ⟨⟨fun _ => ⟨h1, hl, by simp⟩, fun _ => ⟨_, rfl⟩⟩, fun e h => absurd h (by simp)⟩

/-- Two hundred samples, a tenth apart, in doubles, added one after the other: the hypotheses are met and the error is less than
`10 ^ -11` of the added magnitudes. -/
example (W : Trig double) (yp : List ℚ) (hy : yp.length = 200) :
    ∃ r, sincF double W (prodF double) 1 ((List.range 200).map fun k : ℕ => double.fl (0 + k * (1 / 10)))
        ((List.range 200).map fun k : ℕ => double.fl (0 + k * (1 / 10))) yp = .ok r ∧ r.length = yp.length ∧
      ∀ i < yp.length, |(r.getD i 0 : ℝ) - yp.getD i 0| ≤ 1 / 10 ^ 11 * (total yp : ℝ) := by
  have hu : double.u = 1 / 2 ^ 53 := rfl
  have hg := C115_grid double 0 (1 / 10) 20 200 (fun k hk => by
    have : (k : ℚ) ≤ 200 := by exact_mod_cast hk.le
    rw [abs_of_nonneg (by positivity)]; linarith)
  obtain ⟨r, h1, h2, h3⟩ := C115_samples (yp := yp) double W (prodF double) (FloatFit.prodF_isProd double 200) (by norm_num) (by rw [hu]; norm_num) hg (by simp [hy]) (by simp) (by simp)
  refine ⟨r, h1, h2, fun i hi => (h3 i hi).trans ?_⟩
  have ht : (0:ℝ) ≤ (total yp : ℝ) := by
    have : 0 ≤ total yp := List.sum_nonneg (by intro v hv; obtain ⟨w, -, rfl⟩ := List.mem_map.1 hv; exact abs_nonneg w)
    exact_mod_cast this
  refine mul_le_mul_of_nonneg_right ?_ ht
  have hs : sumErr (double.u : ℝ) (200 - 1) ≤ 1 / 10 ^ 12 := by
    unfold sumErr
    rw [hu]
    have : ((1:ℝ) + ((1 / 2 ^ 53 : ℚ) : ℝ)) ^ (200 - 1 + 1) ≤ 1 + 1 / 10 ^ 12 := by
      have h4 : ((1:ℚ) + 1 / 2 ^ 53) ^ 200 ≤ 1 + 1 / 10 ^ 12 := by norm_num
      have h5 : ((((1:ℚ) + 1 / 2 ^ 53) ^ 200 : ℚ) : ℝ) ≤ ((1 + 1 / 10 ^ 12 : ℚ) : ℝ) := Rat.cast_le.2 h4
      push_cast at h5 ⊢
      exact h5
    linarith
  have hw : weightErr (((double.u * 20 : ℚ) : ℝ) / ((1 / 10 : ℚ) : ℝ)) (double.u : ℝ) ≤ 3 / 10 ^ 12 := by
    unfold weightErr
    rw [hu]; push_cast; norm_num
  have hw0 : 0 ≤ weightErr (((double.u * 20 : ℚ) : ℝ) / ((1 / 10 : ℚ) : ℝ)) (double.u : ℝ) := by
    unfold weightErr
    rw [hu]; positivity
  have h6 : sumErr (double.u : ℝ) (200 - 1) * (1 + weightErr (((double.u * 20 : ℚ) : ℝ) / ((1 / 10 : ℚ) : ℝ)) (double.u : ℝ)) ≤ 1 / 10 ^ 12 * 2 :=
    mul_le_mul hs (by norm_num at hw ⊢; linarith) (by linarith) (by norm_num)
  refine (add_le_add hw h6).trans ?_
  norm_num

end Verif.Props.FloatInterpolation
