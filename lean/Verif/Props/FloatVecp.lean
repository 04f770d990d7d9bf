import Verif.Model.FloatVecp
import Verif.Props.FloatGaussian
import Mathlib.Analysis.Complex.ExponentialBounds
import Mathlib.Analysis.SpecialFunctions.Log.Base
import Mathlib.Analysis.SpecialFunctions.Log.Basic
import Mathlib.Data.List.Sort

/-!
C118: logarithms and the vertical eye closure penalty in double precision.
-/

namespace Verif.Props.FloatVecp

open Verif Verif.Float Verif.Props.Float Verif.Props.FloatInterpolation Verif.Props.FloatGaussian

/-! ### Specification -/

/-- The computed number is off by at most `k` units of rounding of the exact one. -/
def Near (u k : ℝ) (computed exact : ℝ) : Prop := |computed - exact| ≤ k * u * |exact|

/-- There are such logarithms in doubles. -/
example : Nonempty (Logs double) := by
  have hu : (0:ℝ) < (double.u : ℝ) := by norm_num [double]
  have hE : ∀ r : ℝ, ∃ q : ℚ, |(q : ℝ) - r| ≤ 2 * (double.u : ℝ) * |r| := by
    intro r
    by_cases hr : r = 0
    · exact ⟨0, by rw [hr]; simp⟩
    · have h1 : 0 < 2 * (double.u : ℝ) * |r| := by positivity
      obtain ⟨q, h2, h3⟩ := exists_rat_btwn (show r < r + 2 * (double.u : ℝ) * |r| by linarith)
      exact ⟨q, by rw [abs_le]; constructor <;> linarith⟩
  choose e he using hE
  exact ⟨{ ln := fun x => e (Real.log x), log10 := fun x => e (Real.logb 10 x), ln_err := fun x _ => he _, log10_err := fun x _ => he _ }⟩

/-! ### Relative errors -/

theorem ratio' {a b k : ℝ} (hk : 0 ≤ k) (h : |a - b| ≤ k * |b|) : ∃ θ, |θ| ≤ k ∧ a = b * (1 + θ) := by
  by_cases hb : b = 0
  · rw [hb, abs_zero, mul_zero] at h
    refine ⟨0, by simpa using hk, ?_⟩
    have := abs_nonpos_iff.1 h
    rw [hb]; linarith
  · have h0 : 0 < |b| := abs_pos.2 hb
    refine ⟨(a - b) / b, ?_, by field_simp; ring⟩
    rw [abs_div, div_le_iff₀ h0]; exact h

theorem inv2 {a u k : ℝ} (k' : ℝ) (hu0 : 0 ≤ u) (hu : u ≤ 1 / 1000) (ha : |a| ≤ k * u) (hk : 0 ≤ k) (hk1 : k ≤ 100) (hkk : k ≤ k' * (1 - k / 1000)) :
    ∃ c, |c| ≤ k' * u ∧ 1 / (1 + a) = 1 + c := by
  have h1 := abs_le.1 ha
  have h3 : k * u ≤ k * (1 / 1000) := mul_le_mul_of_nonneg_left hu hk
  have h2 : 0 < 1 + a := by linarith [h1.1]
  have hk'0 : 0 ≤ k' := by
    by_contra h
    push Not at h
    have : k' * (1 - k / 1000) < 0 := mul_neg_of_neg_of_pos h (by linarith)
    linarith
  refine ⟨-a / (1 + a), ?_, by field_simp; ring⟩
  rw [abs_div, abs_neg, abs_of_pos h2, div_le_iff₀ h2]
  have h4 : k' * u * (1 - k / 1000) ≤ k' * u * (1 + a) := mul_le_mul_of_nonneg_left (by linarith [h1.1]) (by positivity)
  have h5 := mul_le_mul_of_nonneg_right hkk hu0
  linarith

theorem near_of {u k x y θ : ℝ} (h : |θ| ≤ k * u) (e : x = y * (1 + θ)) : Near u k x y := by
  unfold Near
  rw [e, show y * (1 + θ) - y = θ * y by ring, abs_mul]
  exact mul_le_mul_of_nonneg_right h (abs_nonneg _)

theorem u_small' {R : Rounding} (hu : R.u ≤ 1 / 1000) : (R.u : ℝ) ≤ 1 / 1000 := by
  have h : ((R.u : ℚ) : ℝ) ≤ ((1 / 1000 : ℚ) : ℝ) := Rat.cast_le.2 hu
  push_cast at h; exact h

/-! ### Logarithms -/

/-- **C118** (log).  The natural logarithm of an uncertain value: nan exactly if the value is not positive, otherwise the logarithm within two roundings and
the deviation of the propagation law within one. -/
theorem C118_log (R : Rounding) (L : Logs R) (a : UVF) :
    (a.value ≤ 0 → UVF.log R L a = none) ∧
    (0 < a.value → ∃ r, UVF.log R L a = some r ∧ Near R.u 2 r.value (Real.log a.value) ∧ Near R.u 1 r.stddev |(a.stddev : ℝ) / a.value| ∧ 0 ≤ r.stddev) := by
  constructor
  · intro h; unfold UVF.log; rw [if_pos h]
  · intro h
    unfold UVF.log
    rw [if_neg (not_le.2 h)]
    refine ⟨_, rfl, L.ln_err _ h, ?_, abs_nonneg _⟩
    obtain ⟨δ, h1, h2⟩ := relR R (a.stddev / a.value)
    have h3 : (0:ℝ) ≤ 1 + δ := by have := abs_le.1 h1; have := u1 R; linarith
    refine near_of (θ := δ) (by linarith) ?_
    rw [Rat.cast_abs, h2, abs_mul, abs_of_nonneg h3]
    push_cast
    rfl

/-- **C118** (log10).  The decimal logarithm of an uncertain value: nan exactly if the value is not positive, otherwise the logarithm within two roundings
and the deviation of the propagation law within five. -/
theorem C118_log10 (R : Rounding) (hu : R.u ≤ 1 / 1000) (L : Logs R) (a : UVF) :
    (a.value ≤ 0 → UVF.log10 R L a = none) ∧
    (0 < a.value → ∃ r, UVF.log10 R L a = some r ∧ Near R.u 2 r.value (Real.logb 10 a.value) ∧
      Near R.u 5 r.stddev |(a.stddev : ℝ) / (a.value * Real.log 10)| ∧ 0 ≤ r.stddev) := by
  constructor
  · intro h; unfold UVF.log10; rw [if_pos h]
  · intro h
    unfold UVF.log10
    rw [if_neg (not_le.2 h)]
    refine ⟨_, rfl, L.log10_err _ h, ?_, abs_nonneg _⟩
    have hu0 := u0 R
    have hu1 := u_small' hu
    obtain ⟨θ, h1, e1⟩ := ratio' (by positivity) (L.ln_err 10 (by norm_num))
    obtain ⟨δ, h2, e2⟩ := relR R (a.value * L.ln 10)
    obtain ⟨η, h3, e3⟩ := relR R (a.stddev / R.fl (a.value * L.ln 10))
    obtain ⟨c1, k1, f1⟩ := one_mul' (31 / 10) hu0 hu1 h1 (show |δ| ≤ 1 * (R.u : ℝ) by linarith) (by norm_num) (by norm_num) (by norm_num)
    obtain ⟨c2, k2, f2⟩ := inv2 (32 / 10) hu0 hu1 k1 (by norm_num) (by norm_num) (by norm_num)
    obtain ⟨c3, k3, f3⟩ := one_mul' 5 hu0 hu1 k2 (show |η| ≤ 1 * (R.u : ℝ) by linarith) (by norm_num) (by norm_num) (by norm_num)
    refine near_of k3 ?_
    have h5 : (0:ℝ) ≤ 1 + c3 := by have := abs_le.1 k3; linarith [this.1]
    rw [Rat.cast_abs, e3]
    push_cast
    rw [e2]
    push_cast
    rw [e1]
    push_cast
    rw [show (a.value : ℝ) * (Real.log 10 * (1 + θ)) * (1 + δ) = (a.value * Real.log 10) * ((1 + θ) * (1 + δ)) by ring, f1, ← div_div,
      show (a.stddev : ℝ) / (a.value * Real.log 10) / (1 + c1) * (1 + η) = (a.stddev : ℝ) / (a.value * Real.log 10) * (1 / (1 + c1) * (1 + η)) by ring,
      f2, f3, abs_mul, abs_of_nonneg h5]

/-! ### Percentiles -/

theorem fl_size (R : Rounding) {x M : ℚ} (h : |x| ≤ M) : |R.fl x - x| ≤ R.u * M := (R.err x).trans (mul_le_mul_of_nonneg_left h R.u_nonneg)

theorem fl_between (R : Rounding) {x M : ℚ} (h0 : 0 ≤ x) (h : x ≤ M) : 0 ≤ R.fl x ∧ R.fl x ≤ 101 / 100 * M := by
  have h1 := abs_le.1 (fl_size R (x := x) (M := x) (by rw [abs_of_nonneg h0]))
  have h2 : R.u * x ≤ 1 / 100 * x := mul_le_mul_of_nonneg_right R.u_small h0
  constructor <;> linarith [h1.1, h1.2]

/-- The interpolated value is between the two samples, but for roundings. -/
theorem lerp_between (R : Rounding) {a b t Y : ℚ} (hab : a ≤ b) (ha : |a| ≤ Y) (hb : |b| ≤ Y) (ht0 : 0 ≤ t) (ht1 : t ≤ 1 + R.u) :
    a - 4 * R.u * Y ≤ lerpF R a b t ∧ lerpF R a b t ≤ b + 4 * R.u * Y := by
  have hu := R.u_nonneg
  have hs := R.u_small
  have a1 := abs_le.1 ha
  have b1 := abs_le.1 hb
  have hY : 0 ≤ Y := (abs_nonneg _).trans ha
  have huY : 0 ≤ R.u * Y := mul_nonneg hu hY
  have huY' : R.u * Y ≤ 1 / 100 * Y := mul_le_mul_of_nonneg_right hs hY
  obtain ⟨d0, d1⟩ := fl_between R (x := b - a) (M := b - a) (by linarith) le_rfl
  unfold lerpF
  split_ifs with h
  · have s1 : |R.fl (1 - t) - (1 - t)| ≤ R.u * |1 - t| := R.err _
    -- the remaining fraction
    have r1 : -(101 / 100 * R.u) ≤ R.fl (1 - t) ∧ R.fl (1 - t) ≤ 101 / 200 := by
      have hm : |1 - t| ≤ 1 / 2 := by rw [abs_le]; constructor <;> linarith
      rcases le_total 0 (1 - t) with h0 | h0
      · have := fl_between R h0 (show 1 - t ≤ 1 / 2 by linarith)
        constructor <;> linarith [this.1, this.2]
      · rw [abs_of_nonpos h0] at s1
        have := abs_le.1 s1
        have q : R.u * (-(1 - t)) ≤ 1 / 100 * (-(1 - t)) := mul_le_mul_of_nonneg_right hs (by linarith)
        constructor <;> linarith [this.1, this.2]
    obtain ⟨p, hp⟩ : ∃ p, p = R.fl (b - a) * R.fl (1 - t) := ⟨_, rfl⟩
    have p1 : p ≤ 101 / 100 * (b - a) * (101 / 200) := by
      rw [hp]
      rcases le_total 0 (R.fl (1 - t)) with h0 | h0
      · exact mul_le_mul d1 r1.2 h0 (by nlinarith)
      · have := mul_nonpos_of_nonneg_of_nonpos d0 h0
        nlinarith
    have p2 : -(101 / 100 * (b - a) * (101 / 100 * R.u)) ≤ p := by
      rw [hp]
      have q1 := mul_le_mul_of_nonneg_left r1.1 d0
      have q2 := mul_le_mul_of_nonneg_right d1 (show 0 ≤ 101 / 100 * R.u by positivity)
      linarith
    have p3 : 101 / 100 * (b - a) * (101 / 100 * R.u) ≤ 21 / 10 * (R.u * Y) := by
      have := mul_le_mul_of_nonneg_left (show b - a ≤ 2 * Y by linarith [a1.1, b1.2]) hu
      linarith
    have p4 : R.fl p ≤ b - a ∧ -(22 / 10 * (R.u * Y)) ≤ R.fl p := by
      rcases le_total 0 p with h0 | h0
      · have := fl_between R h0 p1
        constructor <;> linarith [this.1, this.2]
      · have e := R.err p
        rw [abs_of_nonpos h0] at e
        have := abs_le.1 e
        have q : R.u * (-p) ≤ 1 / 100 * (-p) := mul_le_mul_of_nonneg_right hs (by linarith)
        constructor <;> linarith [this.1, this.2]
    have f := abs_le.1 (fl_size R (x := b - R.fl p) (M := 11 / 10 * Y) (by rw [abs_le]; constructor <;> linarith [p4.1, p4.2, a1.1, b1.2]))
    rw [← hp]
    constructor <;> linarith [f.1, f.2, p4.1, p4.2]
  · push Not at h
    have p0 : 0 ≤ R.fl (b - a) * t := mul_nonneg d0 ht0
    have p1 : R.fl (b - a) * t ≤ 101 / 100 * (b - a) * (1 / 2) := mul_le_mul d1 h.le ht0 (by nlinarith)
    have p2 := fl_between R p0 p1
    have f := abs_le.1 (fl_size R (x := a + R.fl (R.fl (b - a) * t)) (M := Y) (by rw [abs_le]; constructor <;> linarith [p2.1, p2.2, a1.1, b1.2]))
    constructor <;> linarith [f.1, f.2, p2.1, p2.2]

/-- **C118** (percentiles).  A percentile of samples up to `Y` is between the smallest and the largest of them, but for four roundings of `Y`. -/
theorem C118_percentile (R : Rounding) (pc : ℚ) (l : List ℚ) (hl : l ≠ []) (Y : ℚ) (hY : ∀ v ∈ l, |v| ≤ Y) :
    ∃ x, percentileF R pc l = some x ∧ (∃ v ∈ l, v - 4 * R.u * Y ≤ x) ∧ ∃ v ∈ l, x ≤ v + 4 * R.u * Y := by
  have hp : (l.insertionSort (· ≤ ·)).Perm l := List.perm_insertionSort _ _
  have hs : (l.insertionSort (· ≤ ·)).Pairwise (· ≤ ·) := List.pairwise_insertionSort _ _
  obtain ⟨v0, hv0⟩ := List.exists_mem_of_ne_nil l hl
  have hu4 : 0 ≤ 4 * R.u * Y := mul_nonneg (by linarith [R.u_nonneg]) ((abs_nonneg _).trans (hY v0 hv0))
  unfold percentileF
  simp only
  have hpos : 0 < (l.insertionSort (· ≤ ·)).length := by
    rw [hp.length_eq]
    exact List.length_pos_iff.2 hl
  simp only [← hp.mem_iff] at hY ⊢
  generalize l.insertionSort (· ≤ ·) = s at *
  generalize virtualF R (R.fl (R.fl pc / 100)) s.length = p
  split_ifs with h1 h2
  · refine ⟨s[0], by rw [List.head?_eq_getElem?, List.getElem?_eq_getElem hpos], ⟨s[0], List.getElem_mem hpos, by linarith⟩,
      ⟨s[0], List.getElem_mem hpos, by linarith⟩⟩
  · have hlast : s.length - 1 < s.length := by omega
    exact ⟨s[s.length - 1], by rw [List.getLast?_eq_getElem?, List.getElem?_eq_getElem hlast], ⟨_, List.getElem_mem hlast, by linarith⟩,
      ⟨_, List.getElem_mem hlast, by linarith⟩⟩
  · push Not at h1 h2
    obtain ⟨i, hi⟩ := Int.eq_ofNat_of_zero_le (Int.floor_nonneg.2 h1)
    have f1 := Int.floor_le p
    have f2 := Int.lt_floor_add_one p
    rw [hi] at f1 f2 ⊢
    simp only [Int.toNat_natCast, Int.cast_natCast] at f1 f2 ⊢
    have hi1 : i + 1 < s.length := by
      have : (i : ℚ) + 1 < s.length := by linarith
      exact_mod_cast this
    rw [List.getElem?_eq_getElem (by omega : i < s.length), List.getElem?_eq_getElem hi1]
    have hab : s[i] ≤ s[i + 1] := List.pairwise_iff_getElem.1 hs i (i + 1) _ hi1 (by omega)
    have ht := abs_le.1 (fl_size R (x := p - i) (M := 1) (by rw [abs_le]; constructor <;> linarith))
    have ht0 := (fl_between R (x := p - i) (M := 1) (by linarith) (by linarith)).1
    have := lerp_between R hab (hY _ (List.getElem_mem (by omega : i < s.length))) (hY _ (List.getElem_mem hi1)) ht0 (by linarith [ht.2])
    exact ⟨_, rfl, ⟨_, List.getElem_mem (by omega : i < s.length), this.1⟩, ⟨_, List.getElem_mem hi1, this.2⟩⟩

/-- The computed position of a percentile among `n` samples. -/
theorem virtual_near (R : Rounding) (hu : R.u ≤ 1 / 1000) (pc : ℚ) (h0 : 0 ≤ pc) (h1 : pc ≤ 100) (n : ℕ) :
    |virtualF R (R.fl (R.fl pc / 100)) n - (n * (pc / 100) + (1 / 3 + pc / 100 / 3) - 1)| ≤ R.u * (7 * n + 20) := by
  have hu0 := R.u_nonneg
  have hn0 : (0 : ℚ) ≤ n := Nat.cast_nonneg n
  have hun : 0 ≤ R.u * n := mul_nonneg hu0 hn0
  have hun1 : R.u * n ≤ 1 / 1000 * n := mul_le_mul_of_nonneg_right hu hn0
  have small : ∀ (x M : ℚ), |x| ≤ M → |R.fl x - x| ≤ R.u * M := fun x M h => fl_size R h
  unfold virtualF
  obtain ⟨x1, e1⟩ : ∃ x, x = R.fl pc := ⟨_, rfl⟩
  have s1 := abs_le.1 (e1 ▸ small pc 100 (by rw [abs_of_nonneg h0]; exact h1))
  rw [← e1]
  obtain ⟨q, e2⟩ : ∃ x, x = R.fl (x1 / 100) := ⟨_, rfl⟩
  have s2 := abs_le.1 (e2 ▸ small (x1 / 100) 2 (by rw [abs_le]; constructor <;> linarith))
  rw [← e2]
  obtain ⟨t, e3⟩ : ∃ x, x = R.fl (1 / 3) := ⟨_, rfl⟩
  have s3 := abs_le.1 (e3 ▸ small (1 / 3) 1 (by rw [abs_le]; constructor <;> norm_num))
  rw [← e3]
  obtain ⟨r1, e4⟩ : ∃ x, x = R.fl (1 - t) := ⟨_, rfl⟩
  have s4 := abs_le.1 (e4 ▸ small (1 - t) 1 (by rw [abs_le]; constructor <;> linarith))
  rw [← e4]
  obtain ⟨r, e5⟩ : ∃ x, x = R.fl (r1 - t) := ⟨_, rfl⟩
  have s5 := abs_le.1 (e5 ▸ small (r1 - t) 1 (by rw [abs_le]; constructor <;> linarith))
  rw [← e5]
  -- the fraction
  have hq : |q - pc / 100| ≤ 3 * R.u := by rw [abs_le]; constructor <;> linarith
  have hr : |r - 1 / 3| ≤ 4 * R.u := by rw [abs_le]; constructor <;> linarith
  have hq' := abs_le.1 hq
  have hr' := abs_le.1 hr
  have hqr : |q * r - pc / 100 / 3| ≤ 7 * R.u := by
    have e : q * r - pc / 100 / 3 = (q - pc / 100) * r + pc / 100 * (r - 1 / 3) := by ring
    rw [e]
    refine (abs_add_le _ _).trans ?_
    rw [abs_mul, abs_mul]
    have a1 : |r| ≤ 1 := by rw [abs_le]; constructor <;> linarith
    have a2 : |pc / 100| ≤ 1 := by rw [abs_le]; constructor <;> linarith
    have b1 := mul_le_mul hq a1 (abs_nonneg _) (by linarith)
    have b2 := mul_le_mul a2 hr (abs_nonneg _) (by norm_num)
    linarith
  have hqr' := abs_le.1 hqr
  obtain ⟨m, e6⟩ : ∃ x, x = R.fl (q * r) := ⟨_, rfl⟩
  have s6 := abs_le.1 (e6 ▸ small (q * r) 1 (by rw [abs_le]; constructor <;> linarith))
  rw [← e6]
  obtain ⟨s, e7⟩ : ∃ x, x = R.fl (t + m) := ⟨_, rfl⟩
  have s7 := abs_le.1 (e7 ▸ small (t + m) 2 (by rw [abs_le]; constructor <;> linarith))
  rw [← e7]
  -- the product
  have hnq : |n * q - n * (pc / 100)| ≤ n * (3 * R.u) := by
    rw [← mul_sub, abs_mul, abs_of_nonneg hn0]
    exact mul_le_mul_of_nonneg_left hq hn0
  have hnq' := abs_le.1 hnq
  have hnp : n * (pc / 100) ≤ n * 1 := mul_le_mul_of_nonneg_left (by linarith) hn0
  have hnp0 : 0 ≤ n * (pc / 100) := mul_nonneg hn0 (by linarith)
  obtain ⟨N, e8⟩ : ∃ x, x = R.fl (n * q) := ⟨_, rfl⟩
  have s8 := abs_le.1 (e8 ▸ small (n * q) (101 / 100 * n) (by rw [abs_le]; constructor <;> linarith))
  rw [← e8]
  obtain ⟨S, e9⟩ : ∃ x, x = R.fl (N + s) := ⟨_, rfl⟩
  have s9 := abs_le.1 (e9 ▸ small (N + s) (102 / 100 * n + 2) (by rw [abs_le]; constructor <;> linarith))
  rw [← e9]
  have s10 := abs_le.1 (small (S - 1) (103 / 100 * n + 4) (by rw [abs_le]; constructor <;> linarith))
  rw [abs_le]; constructor <;> linarith

/-- The value between sorted samples at a position, the first and the last one beyond them. -/
def Between (s : List ℚ) (p x : ℚ) : Prop :=
  (p < 0 → s[0]? = some x) ∧ ((s.length : ℚ) - 1 ≤ p → s[s.length - 1]? = some x) ∧
    (0 ≤ p → p < (s.length : ℚ) - 1 → ∃ i : ℕ, ∃ a b, (i : ℚ) ≤ p ∧ p < i + 1 ∧ s[i]? = some a ∧ s[i + 1]? = some b ∧ x = a + (p - i) * (b - a))

/-- The interpolated value in rounded arithmetic. -/
theorem lerp_near (R : Rounding) (hu : R.u ≤ 1 / 1000) {a b t t' Y : ℚ} (ha : |a| ≤ Y) (hb : |b| ≤ Y) (ht0 : 0 ≤ t) (ht1 : t ≤ 1)
    (ht : |t' - t| ≤ R.u) : |lerpF R a b t' - (a + t * (b - a))| ≤ 14 * R.u * Y := by
  have hu0 := R.u_nonneg
  have a1 := abs_le.1 ha
  have b1 := abs_le.1 hb
  have hY : 0 ≤ Y := (abs_nonneg _).trans ha
  have huY : 0 ≤ R.u * Y := mul_nonneg hu0 hY
  have huY' : R.u * Y ≤ 1 / 1000 * Y := mul_le_mul_of_nonneg_right hu hY
  have htt := abs_le.1 ht
  -- a product of the computed difference with a computed fraction
  have prod : ∀ (w w' : ℚ), 0 ≤ w → w ≤ 1 → |w' - w| ≤ 3 * R.u → |R.fl (R.fl (b - a) * w') - w * (b - a)| ≤ 11 * (R.u * Y) := by
    intro w w' h0 h1 h
    have hba : |b - a| ≤ 2 * Y := by rw [abs_le]; constructor <;> linarith
    have d := fl_size R hba
    obtain ⟨D, hD⟩ : ∃ D, D = R.fl (b - a) := ⟨_, rfl⟩
    rw [← hD] at d ⊢
    have hw : |w'| ≤ 101 / 100 := by
      have := abs_le.1 h
      rw [abs_le]; constructor <;> linarith
    have e : D * w' - w * (b - a) = (D - (b - a)) * w' + (b - a) * (w' - w) := by ring
    have f : |D * w' - w * (b - a)| ≤ 81 / 10 * (R.u * Y) := by
      rw [e]
      refine (abs_add_le _ _).trans ?_
      rw [abs_mul, abs_mul]
      have g1 := mul_le_mul d hw (abs_nonneg _) (by linarith)
      have g2 := mul_le_mul hba h (abs_nonneg _) (by linarith)
      linarith
    have k : |w * (b - a)| ≤ 2 * Y := by
      rw [abs_mul, abs_of_nonneg h0]
      have := mul_le_mul h1 hba (abs_nonneg _) (by norm_num)
      linarith
    have f' := abs_le.1 f
    have k' := abs_le.1 k
    have g := abs_le.1 (fl_size R (x := D * w') (M := 201 / 100 * Y) (by rw [abs_le]; constructor <;> linarith))
    rw [abs_le]; constructor <;> linarith
  unfold lerpF
  split_ifs with h
  · have s1 := abs_le.1 (fl_size R (x := 1 - t') (M := 2) (by rw [abs_le]; constructor <;> linarith))
    have q := abs_le.1 (prod (1 - t) (R.fl (1 - t')) (by linarith) (by linarith) (by rw [abs_le]; constructor <;> linarith))
    have hc : |a + t * (b - a)| ≤ Y := by
      rw [show a + t * (b - a) = (1 - t) * a + t * b by ring]
      have g1 := mul_le_mul_of_nonneg_left a1.1 (show 0 ≤ 1 - t by linarith)
      have g2 := mul_le_mul_of_nonneg_left a1.2 (show 0 ≤ 1 - t by linarith)
      have g3 := mul_le_mul_of_nonneg_left b1.1 ht0
      have g4 := mul_le_mul_of_nonneg_left b1.2 ht0
      rw [abs_le]; constructor <;> linarith
    have hc' := abs_le.1 hc
    have e : (1 - t) * (b - a) = b - (a + t * (b - a)) := by ring
    rw [e] at q
    have g := abs_le.1 (fl_size R (x := b - R.fl (R.fl (b - a) * R.fl (1 - t'))) (M := 2 * Y) (by rw [abs_le]; constructor <;> linarith))
    rw [abs_le]; constructor <;> linarith
  · have q := abs_le.1 (prod t t' ht0 ht1 (by linarith))
    have hc : |a + t * (b - a)| ≤ Y := by
      rw [show a + t * (b - a) = (1 - t) * a + t * b by ring]
      have g1 := mul_le_mul_of_nonneg_left a1.1 (show 0 ≤ 1 - t by linarith)
      have g2 := mul_le_mul_of_nonneg_left a1.2 (show 0 ≤ 1 - t by linarith)
      have g3 := mul_le_mul_of_nonneg_left b1.1 ht0
      have g4 := mul_le_mul_of_nonneg_left b1.2 ht0
      rw [abs_le]; constructor <;> linarith
    have hc' := abs_le.1 hc
    have g := abs_le.1 (fl_size R (x := a + R.fl (R.fl (b - a) * t')) (M := 2 * Y) (by rw [abs_le]; constructor <;> linarith))
    rw [abs_le]; constructor <;> linarith

/-- **C118** (position).  A percentile of `n` samples up to `Y` is, but for 14 roundings of `Y`, the value between the sorted samples at a position that is
within `7 n + 20` roundings of the one of the method median_unbiased. -/
theorem C118_position (R : Rounding) (hu : R.u ≤ 1 / 1000) (pc : ℚ) (h0 : 0 ≤ pc) (h1 : pc ≤ 100) (l : List ℚ) (hl : l ≠ []) (Y : ℚ)
    (hY : ∀ v ∈ l, |v| ≤ Y) : ∃ x p v, ∃ s : List ℚ, percentileF R pc l = some x ∧ s.Perm l ∧ s.Pairwise (· ≤ ·) ∧
      |p - (((l.length : ℚ) + 1 / 3) * (pc / 100) + 1 / 3 - 1)| ≤ R.u * (7 * l.length + 20) ∧ Between s p v ∧ |x - v| ≤ 14 * R.u * Y := by
  have hp : (l.insertionSort (· ≤ ·)).Perm l := List.perm_insertionSort _ _
  have hs : (l.insertionSort (· ≤ ·)).Pairwise (· ≤ ·) := List.pairwise_insertionSort _ _
  obtain ⟨v0, hv0⟩ := List.exists_mem_of_ne_nil l hl
  have hu4 : 0 ≤ 14 * R.u * Y := mul_nonneg (by linarith [R.u_nonneg]) ((abs_nonneg _).trans (hY v0 hv0))
  have hv := virtual_near R hu pc h0 h1 l.length
  have hpos : 0 < (l.insertionSort (· ≤ ·)).length := by
    rw [hp.length_eq]
    exact List.length_pos_iff.2 hl
  rw [show (l.length : ℚ) * (pc / 100) + (1 / 3 + pc / 100 / 3) - 1 = ((l.length : ℚ) + 1 / 3) * (pc / 100) + 1 / 3 - 1 by ring] at hv
  unfold percentileF
  simp only
  rw [hp.length_eq]
  have hY' : ∀ v ∈ l.insertionSort (· ≤ ·), |v| ≤ Y := fun v h => hY v (hp.mem_iff.1 h)
  have hlen : (l.insertionSort (· ≤ ·)).length = l.length := hp.length_eq
  generalize virtualF R (R.fl (R.fl pc / 100)) l.length = p at *
  generalize l.insertionSort (· ≤ ·) = s at *
  have hposq : (0 : ℚ) ≤ (s.length : ℚ) - 1 := by
    have : (1 : ℚ) ≤ s.length := by exact_mod_cast hpos
    linarith
  rw [← hlen]
  rw [← hlen] at hv
  split_ifs with g1 g2
  · refine ⟨s[0], p, s[0], s, by rw [List.head?_eq_getElem?, List.getElem?_eq_getElem hpos], hp, hs, hv, ⟨?_, ?_, ?_⟩, by simpa using hu4⟩
    · intro _; rw [List.getElem?_eq_getElem hpos]
    · intro g; linarith
    · intro g; linarith
  · have hlast : s.length - 1 < s.length := by omega
    refine ⟨s[s.length - 1], p, s[s.length - 1], s, by rw [List.getLast?_eq_getElem?, List.getElem?_eq_getElem hlast], hp, hs, hv, ⟨?_, ?_, ?_⟩,
      by simpa using hu4⟩
    · intro g; linarith
    · intro _; rw [List.getElem?_eq_getElem hlast]
    · intro _ g; linarith
  · push Not at g1 g2
    obtain ⟨i, hi⟩ := Int.eq_ofNat_of_zero_le (Int.floor_nonneg.2 g1)
    have f1 := Int.floor_le p
    have f2 := Int.lt_floor_add_one p
    rw [hi] at f1 f2 ⊢
    simp only [Int.toNat_natCast, Int.cast_natCast] at f1 f2 ⊢
    have hi1 : i + 1 < s.length := by
      have : (i : ℚ) + 1 < s.length := by linarith
      exact_mod_cast this
    have hi0 : i < s.length := by omega
    rw [List.getElem?_eq_getElem hi0, List.getElem?_eq_getElem hi1]
    have ht := fl_size R (x := p - i) (M := 1) (by rw [abs_le]; constructor <;> linarith)
    rw [mul_one] at ht
    have := lerp_near R hu (hY' _ (List.getElem_mem hi0)) (hY' _ (List.getElem_mem hi1)) (t := p - i) (by linarith) (by linarith) ht
    refine ⟨_, p, s[i] + (p - i) * (s[i + 1] - s[i]), s, rfl, hp, hs, hv, ⟨?_, ?_, ?_⟩, this⟩
    · intro g; linarith
    · intro g; linarith
    · intro _ _
      exact ⟨i, s[i], s[i + 1], f1, f2, List.getElem?_eq_getElem hi0, List.getElem?_eq_getElem hi1, rfl⟩

/-- **C118** (extremes).  With up to 1332 samples the two percentiles of the penalty are exactly the smallest and the largest sample. -/
theorem C118_extremes (R : Rounding) (hu : R.u ≤ 1 / 10 ^ 8) (l : List ℚ) (hl : l ≠ []) (hn : l.length ≤ 1332) :
    (∃ x ∈ l, percentileF R (5 / 100) l = some x ∧ ∀ v ∈ l, x ≤ v) ∧ ∃ x ∈ l, percentileF R (9995 / 100) l = some x ∧ ∀ v ∈ l, v ≤ x := by
  have hp : (l.insertionSort (· ≤ ·)).Perm l := List.perm_insertionSort _ _
  have hs : (l.insertionSort (· ≤ ·)).Pairwise (· ≤ ·) := List.pairwise_insertionSort _ _
  unfold percentileF
  simp only
  rw [← hp.length_eq] at hn
  have hpos : 0 < (l.insertionSort (· ≤ ·)).length := by
    rw [hp.length_eq]
    exact List.length_pos_iff.2 hl
  simp only [← hp.mem_iff]
  generalize l.insertionSort (· ≤ ·) = s at *
  have hnq : (s.length : ℚ) ≤ 1332 := by exact_mod_cast hn
  have hε : R.u * (7 * (s.length : ℚ) + 20) ≤ 1 / 10000 := by
    have := mul_le_mul hu (show 7 * (s.length : ℚ) + 20 ≤ 9344 by linarith) (by positivity) (by norm_num)
    linarith
  have hlast : s.length - 1 < s.length := by omega
  have hle : ∀ i j (hi : i < s.length) (hj : j < s.length), i ≤ j → s[i] ≤ s[j] := by
    intro i j hi hj hij
    rcases hij.lt_or_eq with h | rfl
    · exact List.pairwise_iff_getElem.1 hs i j hi hj h
    · exact le_refl _
  constructor
  · have v := abs_le.1 ((virtual_near R (by linarith) (5 / 100) (by norm_num) (by norm_num) s.length).trans hε)
    refine ⟨s[0], List.getElem_mem hpos, ?_, ?_⟩
    · rw [if_pos (by linarith [v.2]), List.head?_eq_getElem?, List.getElem?_eq_getElem hpos]
    · intro w hw
      obtain ⟨j, hj, rfl⟩ := List.getElem_of_mem hw
      exact hle 0 j hpos hj (by omega)
  · have v := abs_le.1 ((virtual_near R (by linarith) (9995 / 100) (by norm_num) (by norm_num) s.length).trans hε)
    refine ⟨s[s.length - 1], List.getElem_mem hlast, ?_, ?_⟩
    · have hposq : (1 : ℚ) ≤ s.length := by exact_mod_cast hpos
      rw [if_neg (by linarith [v.1]), if_pos (by linarith [v.1]), List.getLast?_eq_getElem?, List.getElem?_eq_getElem hlast]
    · intro w hw
      obtain ⟨j, hj, rfl⟩ := List.getElem_of_mem hw
      exact hle j _ hj hlast (by omega)

/-! ### The closure penalty -/

theorem log10_two : 2 ≤ Real.log 10 := by
  rw [Real.le_log_iff_exp_le (by norm_num)]
  have h := Real.exp_one_lt_d9
  have h0 := Real.exp_pos 1
  rw [show (2 : ℝ) = 1 + 1 by norm_num, Real.exp_add]
  nlinarith

theorem logb_one {ρ : ℝ} (h : |ρ| ≤ 1 / 100) : |Real.logb 10 (1 + ρ)| ≤ |ρ| := by
  have h' := abs_le.1 h
  have hpos : 0 < 1 + ρ := by linarith [h'.1]
  have h1 := Real.log_le_sub_one_of_pos hpos
  have h2 := Real.one_sub_inv_le_log_of_pos hpos
  have h3 : 1 - (1 + ρ)⁻¹ = ρ / (1 + ρ) := by field_simp; ring
  rw [h3] at h2
  have h10 := log10_two
  have h4 : |Real.log (1 + ρ)| ≤ 2 * |ρ| := by
    have a := abs_nonneg ρ
    have b : |ρ / (1 + ρ)| ≤ 2 * |ρ| := by
      rw [abs_div, abs_of_pos hpos, div_le_iff₀ hpos]
      have : 2 * |ρ| * (1 / 2) ≤ 2 * |ρ| * (1 + ρ) := mul_le_mul_of_nonneg_left (by linarith [h'.1]) (by linarith)
      linarith
    have b' := abs_le.1 b
    have c := le_abs_self ρ
    rw [abs_le]; constructor <;> linarith [b'.1]
  unfold Real.logb
  rw [abs_div, abs_of_pos (by linarith : 0 < Real.log 10), div_le_iff₀ (by linarith)]
  have := mul_le_mul_of_nonneg_left h10 (abs_nonneg ρ)
  linarith

theorem fl_sign (R : Rounding) (x : ℚ) : (0 < x → 0 < R.fl x) ∧ (x < 0 → R.fl x < 0) := by
  have e := abs_le.1 (R.err x)
  have hs := R.u_small
  constructor
  · intro h
    rw [abs_of_pos h] at e
    have := mul_le_mul_of_nonneg_right hs h.le
    linarith [e.1]
  · intro h
    rw [abs_of_neg h] at e
    have := mul_le_mul_of_nonneg_right hs (show 0 ≤ -x by linarith)
    linarith [e.2]

/-- **C118** (penalty).  Without a positive ratio of the optical modulation amplitude and the distance of the percentiles the penalty is not a finite number; otherwise it is
that ratio in decibels, and its deviation the one of the propagation law, within rounding. -/
theorem C118_vecp (R : Rounding) (hu : R.u ≤ 1 / 1000) (L : Logs R) (l0 l1 : List ℚ) (o : UVF) (ho : 0 ≤ o.stddev) (a b : ℚ)
    (ha : percentileF R (5 / 100) l1 = some a) (hb : percentileF R (9995 / 100) l0 = some b) :
    (o.value * (a - b) ≤ 0 → vecpF R L l0 l1 (some o) = NVF.nan) ∧
    (0 < o.value * (a - b) → ∃ v s, vecpF R L l0 l1 (some o) = ⟨some v, some s⟩ ∧
      |(v : ℝ) - 10 * Real.logb 10 ((o.value : ℝ) / ((a : ℝ) - b))| ≤ 32 * (R.u : ℝ) * (1 + |Real.logb 10 ((o.value : ℝ) / ((a : ℝ) - b))|) ∧
      Near R.u 9 s (10 / Real.log 10 * |(o.stddev : ℝ) / o.value|)) := by
  have hv : vecpF R L l0 l1 (some o) = decibelsF R L (nvDivCF R o (R.fl (a - b))) := by unfold vecpF; rw [ha, hb]
  rw [hv]
  obtain ⟨d, hd⟩ : ∃ d, d = R.fl (a - b) := ⟨_, rfl⟩
  rw [← hd]
  have sd := fl_sign R (a - b)
  rw [← hd] at sd
  constructor
  · intro h
    unfold decibelsF nvDivCF npDivF
    by_cases h0 : d = 0
    · simp [h0]
    · simp only [if_neg h0]
      -- the quotient is not positive
      have hq : o.value / d ≤ 0 := by
        rcases lt_trichotomy (a - b) 0 with h1 | h1 | h1
        · have h2 := sd.2 h1
          have h3 : 0 ≤ o.value := by
            by_contra hc
            push Not at hc
            have := mul_pos_of_neg_of_neg hc h1
            linarith
          exact div_nonpos_of_nonneg_of_nonpos h3 h2.le
        · exfalso; apply h0; rw [hd, h1, fl_zero]
        · have h2 := sd.1 h1
          have h3 : o.value ≤ 0 := by
            by_contra hc
            push Not at hc
            have := mul_pos hc h1
            linarith
          exact div_nonpos_of_nonpos_of_nonneg h3 h2.le
      have hq' : R.fl (o.value / d) ≤ 0 := by
        rcases hq.lt_or_eq with h1 | h1
        · exact ((fl_sign R _).2 h1).le
        · rw [h1, fl_zero]
      rw [if_pos hq']
  · intro h
    have hab : a - b ≠ 0 := by rintro h0; rw [h0, mul_zero] at h; exact lt_irrefl _ h
    have hov : o.value ≠ 0 := by rintro h0; rw [h0, zero_mul] at h; exact lt_irrefl _ h
    have hq : 0 < o.value / d := by
      rcases lt_or_gt_of_ne hab with h1 | h1
      · have h3 : o.value < 0 := by
          by_contra hc
          push Not at hc
          have := mul_nonpos_of_nonneg_of_nonpos hc h1.le
          linarith
        exact div_pos_of_neg_of_neg h3 (sd.2 h1)
      · have h3 : 0 < o.value := by
          by_contra hc
          push Not at hc
          have := mul_nonpos_of_nonpos_of_nonneg hc h1.le
          linarith
        exact div_pos h3 (sd.1 h1)
    have hd0 : d ≠ 0 := by rintro h0; rw [h0, div_zero] at hq; exact lt_irrefl _ hq
    obtain ⟨r, hr⟩ : ∃ r, r = R.fl (o.value / d) := ⟨_, rfl⟩
    have hr0 : 0 < r := hr ▸ (fl_sign R _).1 hq
    obtain ⟨x, hx⟩ : ∃ x, x = R.fl (o.stddev / |d|) := ⟨_, rfl⟩
    refine ⟨R.fl (L.log10 r * 10), R.fl (|R.fl (x / R.fl (r * L.ln 10))| * |10|), ?_, ?_, ?_⟩
    · unfold decibelsF nvDivCF npDivF
      have : |d| ≠ 0 := abs_ne_zero.2 hd0
      simp only [if_neg hd0, if_neg this, ← hr, ← hx, if_neg (not_le.2 hr0), Option.map_some]
    all_goals
      have hu0 := u0 R
      have hu1 := u_small' hu
      have one : ∀ {δ : ℝ}, |δ| ≤ (R.u : ℝ) → |δ| ≤ 1 * (R.u : ℝ) := fun h => by rwa [one_mul]
      obtain ⟨δ1, k1, e1⟩ := relR R (a - b)
      rw [← hd] at e1
      obtain ⟨δ2, k2, e2⟩ := relR R (o.value / d)
      rw [← hr] at e2
    · obtain ⟨c1, m1, f1⟩ := inv2 (11 / 10) hu0 hu1 (one k1) (by norm_num) (by norm_num) (by norm_num)
      obtain ⟨ρ, m2, f2⟩ := one_mul' (22 / 10) hu0 hu1 m1 (one k2) (by norm_num) (by norm_num) (by norm_num)
      have er : (r : ℝ) = (o.value : ℝ) / ((a : ℝ) - b) * (1 + ρ) := by
        rw [e2]
        push_cast
        rw [e1]
        push_cast
        rw [← f2, ← f1, ← div_div]; ring
      have hQ : 0 < (o.value : ℝ) / ((a : ℝ) - b) := by
        have h' := (Rat.cast_lt (K := ℝ)).2 h
        push_cast at h'
        exact (div_pos_iff.2 (by rcases pos_and_pos_or_neg_and_neg_of_mul_pos h' with g | g <;> tauto))
      have hρ : |ρ| ≤ 1 / 100 := by linarith
      have hρ1 : 0 < 1 + ρ := by have := abs_le.1 hρ; linarith [this.1]
      have el : Real.logb 10 (r : ℝ) = Real.logb 10 ((o.value : ℝ) / ((a : ℝ) - b)) + Real.logb 10 (1 + ρ) := by
        rw [er, Real.logb_mul hQ.ne' hρ1.ne']
      have hl := (logb_one hρ).trans m2
      obtain ⟨Λ, hΛ⟩ : ∃ Λ, Λ = Real.logb 10 ((o.value : ℝ) / ((a : ℝ) - b)) := ⟨_, rfl⟩
      rw [← hΛ] at el ⊢
      obtain ⟨θ, k3, e3⟩ := ratio' (by positivity) (L.log10_err r hr0)
      obtain ⟨δ4, k4, e4⟩ := relR R (L.log10 r * 10)
      obtain ⟨c, m3, f3⟩ := one_mul' (301 / 100) hu0 hu1 k3 (one k4) (by norm_num) (by norm_num) (by norm_num)
      rw [e4]
      push_cast
      rw [e3, el]
      obtain ⟨ε, hε⟩ : ∃ ε, ε = Real.logb 10 (1 + ρ) := ⟨_, rfl⟩
      rw [← hε] at hl ⊢
      have e5 : (Λ + ε) * (1 + θ) * 10 * (1 + δ4) - 10 * Λ = 10 * (Λ * c + ε * (1 + c)) := by
        rw [show (Λ + ε) * (1 + θ) * 10 * (1 + δ4) = 10 * (Λ + ε) * ((1 + θ) * (1 + δ4)) by ring, f3]; ring
      rw [e5, abs_mul, abs_of_pos (by norm_num : (0:ℝ) < 10)]
      have b1 := abs_add_le (Λ * c) (ε * (1 + c))
      rw [abs_mul, abs_mul] at b1
      have b2 := mul_le_mul_of_nonneg_left m3 (abs_nonneg Λ)
      have b3 : |1 + c| ≤ 11 / 10 := by
        have := abs_add_le 1 c
        rw [abs_one] at this; linarith
      have b4 := mul_le_mul hl b3 (abs_nonneg _) (by positivity)
      have b5 := mul_nonneg (abs_nonneg Λ) hu0
      linarith
    · obtain ⟨θ, k3, e3⟩ := ratio' (by positivity) (L.ln_err 10 (by norm_num))
      obtain ⟨δ4, k4, e4⟩ := relR R (r * L.ln 10)
      obtain ⟨δ5, k5, e5⟩ := relR R (o.stddev / |d|)
      rw [← hx] at e5
      obtain ⟨δ6, k6, e6⟩ := relR R (x / R.fl (r * L.ln 10))
      obtain ⟨δ7, k7, e7⟩ := relR R (|R.fl (x / R.fl (r * L.ln 10))| * |10|)
      obtain ⟨c1, m1, f1⟩ := one_mul' (31 / 10) hu0 hu1 k3 (one k4) (by norm_num) (by norm_num) (by norm_num)
      obtain ⟨c2, m2, f2⟩ := one_mul' (42 / 10) hu0 hu1 m1 (one k2) (by norm_num) (by norm_num) (by norm_num)
      obtain ⟨c3, m3, f3⟩ := inv2 (43 / 10) hu0 hu1 m2 (by norm_num) (by norm_num) (by norm_num)
      obtain ⟨c4, m4, f4⟩ := one_mul' (54 / 10) hu0 hu1 m3 (one k5) (by norm_num) (by norm_num) (by norm_num)
      obtain ⟨c5, m5, f5⟩ := one_mul' (65 / 10) hu0 hu1 m4 (one k6) (by norm_num) (by norm_num) (by norm_num)
      obtain ⟨c6, m6, f6⟩ := one_mul' 9 hu0 hu1 m5 (one k7) (by norm_num) (by norm_num) (by norm_num)
      have h10 := log10_two
      have hc5 : 0 ≤ 1 + c5 := by have := abs_le.1 m5; linarith [this.1]
      refine near_of m6 ?_
      have hdR : (d : ℝ) ≠ 0 := by exact_mod_cast hd0
      have hoR : (o.value : ℝ) ≠ 0 := by exact_mod_cast hov
      have hsR : (0 : ℝ) ≤ o.stddev := by exact_mod_cast ho
      have hin : (R.fl (x / R.fl (r * L.ln 10)) : ℝ) = (o.stddev : ℝ) / (|(d : ℝ)| * ((o.value : ℝ) / d * Real.log 10)) * (1 + c5) := by
        rw [e6]
        push_cast
        rw [e5, e4]
        push_cast
        rw [e2, e3]
        push_cast
        rw [← f5, ← f4, ← f3]
        have hden : (o.value : ℝ) / d * (1 + δ2) * (Real.log 10 * (1 + θ)) * (1 + δ4) =
          ((o.value : ℝ) / d * Real.log 10) * ((1 + θ) * (1 + δ4) * (1 + δ2)) := by ring
        rw [hden, f1, f2, ← div_div, ← div_div]
        ring
      rw [e7]
      push_cast
      rw [hin, abs_mul, abs_of_nonneg hc5, ← f6, abs_div, abs_mul, abs_mul, abs_div, abs_abs, abs_of_nonneg hsR,
        abs_of_pos (by linarith : 0 < Real.log 10), abs_div, abs_of_nonneg hsR, abs_of_pos (by norm_num : (0:ℝ) < 10)]
      have hdA : |(d : ℝ)| ≠ 0 := abs_ne_zero.2 hdR
      have hoA : |(o.value : ℝ)| ≠ 0 := abs_ne_zero.2 hoR
      have hL : Real.log 10 ≠ 0 := by linarith
      field_simp

/-- **C118** (order).  The penalty does not depend on the order of the samples. -/
theorem C118_order (R : Rounding) (L : Logs R) (l0 l1 m0 m1 : List ℚ) (h0 : l0.Perm m0) (h1 : l1.Perm m1) (o : Option UVF) :
    vecpF R L l0 l1 o = vecpF R L m0 m1 o := by
  have hsort : ∀ l m : List ℚ, l.Perm m → ∀ pc, percentileF R pc l = percentileF R pc m := by
    intro l m h pc
    have : l.insertionSort (· ≤ ·) = m.insertionSort (· ≤ ·) :=
      (((List.perm_insertionSort _ _).trans h).trans (List.perm_insertionSort _ _).symm).eq_of_pairwise (fun a b _ _ g1 g2 => le_antisymm g1 g2)
        (List.pairwise_insertionSort _ _) (List.pairwise_insertionSort _ _)
    unfold percentileF
    rw [this]
  unfold vecpF
  rw [hsort _ _ h0, hsort _ _ h1]

/-- **C118** (clean levels).  For samples within `e` of two levels, up to `Y`, that are further apart than the noise, the penalty is the ratio of the
optical modulation amplitude and the distance of the levels, up to `2 e` and rounding, in decibels. -/
theorem C118_clean (R : Rounding) (hu : R.u ≤ 1 / 1000) (L : Logs R) (l0 l1 : List ℚ) (h0 : l0 ≠ []) (h1 : l1 ≠ []) (o : UVF) (ho : 0 ≤ o.stddev)
    (hov : 0 < o.value) (lo hi e Y : ℚ) (hl0 : ∀ v ∈ l0, |v - lo| ≤ e ∧ |v| ≤ Y) (hl1 : ∀ v ∈ l1, |v - hi| ≤ e ∧ |v| ≤ Y)
    (hD : 2 * e + 8 * R.u * Y < hi - lo) :
    ∃ v s, ∃ D : ℚ, vecpF R L l0 l1 (some o) = ⟨some v, some s⟩ ∧ |D - (hi - lo)| ≤ 2 * e + 8 * R.u * Y ∧
      |(v : ℝ) - 10 * Real.logb 10 ((o.value : ℝ) / D)| ≤ 32 * (R.u : ℝ) * (1 + |Real.logb 10 ((o.value : ℝ) / D)|) := by
  obtain ⟨a, ha, ⟨v1, hv1, p1⟩, ⟨v2, hv2, p2⟩⟩ := C118_percentile R (5 / 100) l1 h1 Y fun v hv => (hl1 v hv).2
  obtain ⟨b, hb, ⟨v3, hv3, p3⟩, ⟨v4, hv4, p4⟩⟩ := C118_percentile R (9995 / 100) l0 h0 Y fun v hv => (hl0 v hv).2
  have q1 := abs_le.1 (hl1 v1 hv1).1
  have q2 := abs_le.1 (hl1 v2 hv2).1
  have q3 := abs_le.1 (hl0 v3 hv3).1
  have q4 := abs_le.1 (hl0 v4 hv4).1
  have hnear : |a - b - (hi - lo)| ≤ 2 * e + 8 * R.u * Y := by rw [abs_le]; constructor <;> linarith [q1.1, q2.2, q3.1, q4.2]
  have hpos : 0 < o.value * (a - b) := mul_pos hov (by linarith [(abs_le.1 hnear).1])
  obtain ⟨v, s, w1, w2, -⟩ := (C118_vecp R hu L l0 l1 o ho a b ha hb).2 hpos
  refine ⟨v, s, a - b, w1, hnear, ?_⟩
  push_cast
  exact w2

/-- **C118** (open eye).  If the optical modulation amplitude and the distance of the percentiles are both within a small `g` of the distance of the levels,
the penalty is almost 0 dB. -/
theorem C118_open (R : Rounding) (hu : R.u ≤ 1 / 1000) (L : Logs R) (l0 l1 : List ℚ) (h0 : l0 ≠ []) (h1 : l1 ≠ []) (o : UVF) (ho : 0 ≤ o.stddev)
    (lo hi e Y g : ℚ) (hl0 : ∀ v ∈ l0, |v - lo| ≤ e ∧ |v| ≤ Y) (hl1 : ∀ v ∈ l1, |v - hi| ≤ e ∧ |v| ≤ Y) (he : 2 * e + 8 * R.u * Y ≤ g)
    (hlv : lo < hi) (hg : 300 * g ≤ hi - lo) (hω : |o.value - (hi - lo)| ≤ g) :
    ∃ v s, vecpF R L l0 l1 (some o) = ⟨some v, some s⟩ ∧ |v| ≤ 21 * (g / (hi - lo)) + 33 * R.u := by
  have hH : 0 < hi - lo := by linarith
  have w := abs_le.1 hω
  have hg0 : 0 ≤ g := (abs_nonneg _).trans hω
  obtain ⟨v, s, D, k1, k2, k3⟩ := C118_clean R hu L l0 l1 h0 h1 o ho (by linarith) lo hi e Y hl0 hl1 (by linarith)
  refine ⟨v, s, k1, ?_⟩
  have d := abs_le.1 (k2.trans he)
  have hD : 299 / 300 * (hi - lo) ≤ D := by linarith
  have hD0 : 0 < D := by linarith
  obtain ⟨ρ, hρ⟩ : ∃ ρ, ρ = (o.value - D) / D := ⟨_, rfl⟩
  have eρ : (o.value : ℝ) / D = 1 + (ρ : ℝ) := by
    have : o.value / D = 1 + ρ := by rw [hρ]; field_simp; ring
    exact_mod_cast this
  have bρ : |ρ| ≤ 201 / 100 * (g / (hi - lo)) := by
    rw [hρ, abs_div, abs_of_pos hD0, div_le_iff₀ hD0]
    have a1 : |o.value - D| ≤ 2 * g := by rw [abs_le]; constructor <;> linarith
    have a2 : g / (hi - lo) * (299 / 300 * (hi - lo)) ≤ g / (hi - lo) * D := mul_le_mul_of_nonneg_left hD (by positivity)
    have a3 : g / (hi - lo) * (299 / 300 * (hi - lo)) = 299 / 300 * g := by field_simp
    linarith
  have bg : g / (hi - lo) ≤ 1 / 300 := by rw [div_le_iff₀ hH]; linarith
  have bρ1 : |(ρ : ℝ)| ≤ 1 / 100 := by
    have h2 := (Rat.cast_le (K := ℝ)).2 (show |ρ| ≤ 1 / 100 by linarith)
    push_cast at h2
    exact h2
  have hl := logb_one bρ1
  rw [eρ] at k3
  obtain ⟨Λ, hΛ⟩ : ∃ Λ, Λ = Real.logb 10 (1 + (ρ : ℝ)) := ⟨_, rfl⟩
  rw [← hΛ] at hl k3
  have hu0 := u0 R
  have m1 : (R.u : ℝ) * |Λ| ≤ R.u * (1 / 100) := mul_le_mul_of_nonneg_left (hl.trans bρ1) hu0
  have k3' := abs_le.1 k3
  have l' := abs_le.1 hl
  have fin : |(v : ℝ)| ≤ 10 * |(ρ : ℝ)| + 33 * (R.u : ℝ) := by rw [abs_le]; constructor <;> linarith
  have fin' : |v| ≤ 10 * |ρ| + 33 * R.u := by exact_mod_cast fin
  have hgH : 0 ≤ g / (hi - lo) := by positivity
  linarith

/-- Two levels with noise in doubles meet the hypotheses. -/
example : double.u ≤ 1 / 10 ^ 8 ∧ double.u ≤ 1 / 1000 ∧ (∀ v ∈ [(0 : ℚ), 1 / 100], |v - 0| ≤ 1 / 100 ∧ |v| ≤ 2) ∧
    (∀ v ∈ [(99 / 100 : ℚ), 1], |v - 1| ≤ 1 / 100 ∧ |v| ≤ 2) ∧ 2 * (1 / 100) + 8 * double.u * 2 < 1 - 0 ∧
    (2 * (1 / 1000) + 8 * double.u * 2 ≤ 3 / 1000 ∧ 300 * (3 / 1000 : ℚ) ≤ 1 - 0 ∧ |(1001 / 1000 : ℚ) - (1 - 0)| ≤ 3 / 1000) := by
  refine ⟨by norm_num [double], by norm_num [double], ?_, ?_, by norm_num [double], by norm_num [double], by norm_num, by norm_num [abs_le]⟩
  · intro v hv
    simp only [List.mem_cons, List.not_mem_nil, or_false] at hv
    rcases hv with rfl | rfl <;> norm_num [abs_le]
  · intro v hv
    simp only [List.mem_cons, List.not_mem_nil, or_false] at hv
    rcases hv with rfl | rfl <;> norm_num [abs_le]

end Verif.Props.FloatVecp
