import Verif.Model.FloatGaussian
import Verif.Props.FloatInterpolation
import Verif.Props.FloatStats
import Verif.Props.Gaussian

/-!
C116: Gaussian functions and mixtures in double precision.
-/

namespace Verif.Props.FloatGaussian

open Verif Verif.Float Verif.Props.Float Verif.Props.FloatInterpolation Verif.Props.FloatStats Verif.Props.FloatFit

/-! ### Specification -/

/-- The value at the mean: amplitude over `sqrt (2 π σ²)`. -/
noncomputable def top (c : CompQ) : ℝ := (c.amplitude : ℝ) / Real.sqrt (2 * Real.pi * (c.stddev : ℝ) ^ 2)

/-- The Gaussian function. -/
noncomputable def bell (c : CompQ) (x : ℝ) : ℝ := top c * Real.exp (-(((x - c.mean) / c.stddev) ^ 2 / 2))

/-- The mixture. -/
noncomputable def bells (cs : List CompQ) (x : ℝ) : ℝ := (cs.map fun c => bell c x).sum

/-- The largest values of the components, added up. -/
noncomputable def tops (cs : List CompQ) : ℝ := (cs.map top).sum

/-- A component with a non-negative amplitude and a positive deviation. -/
def Proper (c : CompQ) : Prop := 0 ≤ c.amplitude ∧ 0 < c.stddev

/-- There is such a library in doubles. -/
example : Nonempty (Lib double) := by
  have hu : (0:ℝ) < (double.u : ℝ) := by norm_num [double]
  have hpi := Real.pi_pos
  obtain ⟨p, hp1, hp2⟩ := exists_rat_btwn (show Real.pi < Real.pi + (double.u : ℝ) * Real.pi by nlinarith)
  have hE : ∀ t : ℚ, ∃ e : ℚ, t ≤ 0 → |(e : ℝ) - Real.exp t| ≤ 2 * (double.u : ℝ) * Real.exp t ∧ e ≤ 1 ∧ (t = 0 → e = 1) := by
    intro t
    by_cases ht : t = 0
    · exact ⟨1, fun _ => ⟨by subst ht; simp [double.u_nonneg], le_rfl, fun _ => rfl⟩⟩
    · have h0 := Real.exp_pos (t : ℝ)
      have h1 : 0 < 2 * (double.u : ℝ) * Real.exp t := by positivity
      obtain ⟨e, h2, h3⟩ := exists_rat_btwn (show Real.exp t - 2 * (double.u : ℝ) * Real.exp t < Real.exp t by linarith)
      refine ⟨e, fun h => ⟨by rw [abs_le]; constructor <;> linarith, ?_, fun h => absurd h ht⟩⟩
      have h4 : Real.exp (t : ℝ) ≤ 1 := Real.exp_le_one_iff.2 (by exact_mod_cast h)
      have h5 : (e : ℝ) ≤ ((1 : ℚ) : ℝ) := by push_cast; linarith
      exact_mod_cast h5
  have hS : ∀ y : ℚ, ∃ s : ℚ, |(s : ℝ) - Real.sqrt y| ≤ (double.u : ℝ) * Real.sqrt y := by
    intro y
    by_cases hy : 0 < y
    · have h0 : 0 < Real.sqrt (y : ℝ) := Real.sqrt_pos.2 (by exact_mod_cast hy)
      have h1 : 0 < (double.u : ℝ) * Real.sqrt y := by positivity
      obtain ⟨s, h2, h3⟩ := exists_rat_btwn (show Real.sqrt y < Real.sqrt y + (double.u : ℝ) * Real.sqrt y by linarith)
      exact ⟨s, by rw [abs_le]; constructor <;> linarith⟩
    · refine ⟨0, ?_⟩
      have : Real.sqrt (y : ℝ) = 0 := Real.sqrt_eq_zero_of_nonpos (by exact_mod_cast not_lt.1 hy)
      rw [this]; simp
  choose e he using hE
  choose s hs using hS
  exact ⟨{ pi := p, square := fun x => x ^ 2, exp := e, sqrt := s, pi_err := by rw [abs_le]; constructor <;> nlinarith
           square_err := fun x => by rw [sub_self, abs_zero]; have := double.u_nonneg; positivity
           square_neg := fun x => by ring
           exp_err := fun t ht => (he t ht).1, exp_zero := (he 0 le_rfl).2.2 rfl, exp_le_one := fun t ht => (he t ht).2.1
           sqrt_err := fun y _ => hs y }⟩

/-! ### Relative errors -/

theorem relR (R : Rounding) (x : ℚ) : ∃ δ : ℝ, |δ| ≤ (R.u : ℝ) ∧ (R.fl x : ℝ) = x * (1 + δ) := by
  obtain ⟨δ, h1, h2⟩ := rel R x
  refine ⟨(δ : ℝ), ?_, ?_⟩
  · have h : ((|δ| : ℚ) : ℝ) ≤ ((R.u : ℚ) : ℝ) := Rat.cast_le.2 h1
    rwa [Rat.cast_abs] at h
  · rw [h2]; push_cast; ring

theorem ratio {a b k : ℝ} (hb : 0 ≤ b) (hk : 0 ≤ k) (h : |a - b| ≤ k * b) : ∃ θ, |θ| ≤ k ∧ a = b * (1 + θ) := by
  rcases hb.eq_or_lt with h0 | h0
  · rw [← h0, mul_zero, sub_zero] at h
    refine ⟨0, by simpa using hk, ?_⟩
    rw [← h0]; simpa using h
  · refine ⟨(a - b) / b, ?_, by field_simp; ring⟩
    rw [abs_div, abs_of_pos h0, div_le_iff₀ h0]; exact h

theorem one_mul' {a b u c1 c2 : ℝ} (k : ℝ) (hu0 : 0 ≤ u) (hu : u ≤ 1 / 1000) (ha : |a| ≤ c1 * u) (hb : |b| ≤ c2 * u) (h1 : 0 ≤ c1) (h2 : 0 ≤ c2)
    (hk : c1 + c2 + c1 * c2 / 1000 ≤ k) : ∃ c, |c| ≤ k * u ∧ (1 + a) * (1 + b) = 1 + c := by
  refine ⟨a + b + a * b, ?_, by ring⟩
  have h3 : |a * b| ≤ (c1 * u) * (c2 * u) := by rw [abs_mul]; exact mul_le_mul ha hb (abs_nonneg _) (by positivity)
  have h4 := abs_add_le (a + b) (a * b)
  have h5 := abs_add_le a b
  have h6 : (c1 * c2) * (u * u) ≤ (c1 * c2) * (1 / 1000 * u) := mul_le_mul_of_nonneg_left (mul_le_mul_of_nonneg_right hu hu0) (by positivity)
  have h7 := mul_le_mul_of_nonneg_right hk hu0
  nlinarith

theorem inv' {a u : ℝ} (hu0 : 0 ≤ u) (hu : u ≤ 1 / 1000) (ha : |a| ≤ 13 / 2 * u) : ∃ c, |c| ≤ 67 / 10 * u ∧ 1 / (1 + a) = 1 + c := by
  have h1 := abs_le.1 ha
  have h2 : 0 < 1 + a := by linarith [h1.1]
  refine ⟨-a / (1 + a), ?_, by field_simp; ring⟩
  rw [abs_div, abs_neg, abs_of_pos h2, div_le_iff₀ h2]
  have : (67 / 10 * u) * (99 / 100) ≤ (67 / 10 * u) * (1 + a) := mul_le_mul_of_nonneg_left (by linarith [h1.1]) (by positivity)
  linarith

theorem sqrt_one {b : ℝ} (hb : -1 ≤ b) : |Real.sqrt (1 + b) - 1| ≤ |b| := by
  have h0 := Real.sqrt_nonneg (1 + b)
  have h1 : (Real.sqrt (1 + b) - 1) * (Real.sqrt (1 + b) + 1) = b := by
    have := Real.mul_self_sqrt (show 0 ≤ 1 + b by linarith)
    nlinarith
  have h2 : |Real.sqrt (1 + b) - 1| * (Real.sqrt (1 + b) + 1) = |b| := by
    conv_rhs => rw [← h1, abs_mul, abs_of_pos (show 0 < Real.sqrt (1 + b) + 1 by linarith)]
  have := mul_le_mul_of_nonneg_left (show 1 ≤ Real.sqrt (1 + b) + 1 by linarith) (abs_nonneg (Real.sqrt (1 + b) - 1))
  linarith

/-- A relative error of the exponent. -/
theorem exp_near {w α : ℝ} (hw : 0 ≤ w) (hα : |α| ≤ 1 / 2) : |Real.exp (-(w * (1 + α))) - Real.exp (-w)| ≤ |α| := by
  have key : ∀ v β : ℝ, 0 ≤ β → 0 ≤ w → w * Real.exp (-v) ≤ 1 → 0 ≤ Real.exp (-v) - Real.exp (-(v + w * β)) ∧ Real.exp (-v) - Real.exp (-(v + w * β)) ≤ β := by
    intro v β hβ hw h
    have h1 : Real.exp (-(v + w * β)) = Real.exp (-v) * Real.exp (-(w * β)) := by rw [← Real.exp_add]; ring_nf
    have h2 := Real.add_one_le_exp (-(w * β))
    have h3 := Real.exp_pos (-v)
    have h4 : Real.exp (-(w * β)) ≤ 1 := Real.exp_le_one_iff.2 (by have := mul_nonneg hw hβ; linarith)
    rw [h1]
    constructor
    · nlinarith
    · have h5 : Real.exp (-v) - Real.exp (-v) * Real.exp (-(w * β)) = Real.exp (-v) * (1 - Real.exp (-(w * β))) := by ring
      rw [h5]
      have h6 : Real.exp (-v) * (1 - Real.exp (-(w * β))) ≤ Real.exp (-v) * (w * β) := mul_le_mul_of_nonneg_left (by linarith) h3.le
      have h7 := mul_le_mul_of_nonneg_right h hβ
      linarith
  have small : ∀ v : ℝ, w / 2 ≤ v → w * Real.exp (-v) ≤ 1 := by
    intro v hv
    have h1 : Real.exp (-v) ≤ Real.exp (-(w / 2)) := Real.exp_le_exp.2 (by linarith)
    have h2 := Real.quadratic_le_exp_of_nonneg (show 0 ≤ w / 2 by linarith)
    have h3 : Real.exp (-(w / 2)) * Real.exp (w / 2) = 1 := by rw [← Real.exp_add]; simp
    have h4 : w ≤ Real.exp (w / 2) := by nlinarith [sq_nonneg (w - 2)]
    have h5 := mul_le_mul_of_nonneg_left h4 (Real.exp_pos (-(w / 2))).le
    have h6 := mul_le_mul_of_nonneg_left h1 hw
    linarith
  have hl := abs_le.1 hα
  rcases le_total 0 α with h | h
  · obtain ⟨k1, k2⟩ := key w α h hw (small w (by linarith))
    rw [show w * (1 + α) = w + w * α by ring, abs_sub_comm, abs_of_nonneg k1, abs_of_nonneg h]
    exact k2
  · have hv : w / 2 ≤ w * (1 + α) := by nlinarith [hl.1]
    obtain ⟨k1, k2⟩ := key (w * (1 + α)) (-α) (by linarith) hw (small _ hv)
    rw [show w * (1 + α) + w * -α = w by ring] at k1 k2
    rw [abs_of_nonneg k1, abs_of_nonpos h]
    exact k2

/-! ### One component -/

theorem top_nonneg {c : CompQ} (h : Proper c) : 0 ≤ top c := by
  unfold top
  exact div_nonneg (by exact_mod_cast h.1) (Real.sqrt_nonneg _)

/-- The computed value: the exponent and the factor have small relative errors. -/
theorem gaussF_repr (R : Rounding) (hu : R.u ≤ 1 / 1000) (L : Lib R) (c : CompQ) (hs : 0 < c.stddev) (x : ℚ) :
    ∃ α ρ : ℝ, |α| ≤ 8 * (R.u : ℝ) ∧ |ρ| ≤ 12 * (R.u : ℝ) ∧
      (gaussF R L c x : ℝ) = top c * Real.exp (-((((x : ℝ) - c.mean) / c.stddev) ^ 2 / 2 * (1 + α))) * (1 + ρ) := by
  have hu0 := u0 R
  have hu1 : (R.u : ℝ) ≤ 1 / 1000 := by
    have h : ((R.u : ℚ) : ℝ) ≤ ((1 / 1000 : ℚ) : ℝ) := Rat.cast_le.2 hu
    push_cast at h; exact h
  have hσ : (0:ℝ) < (c.stddev : ℝ) := by exact_mod_cast hs
  have hpi := Real.pi_pos
  have one : ∀ {δ : ℝ}, |δ| ≤ (R.u : ℝ) → |δ| ≤ 1 * (R.u : ℝ) := fun h => by rwa [one_mul]
  have sq : ∀ y : ℚ, ∃ θ : ℝ, |θ| ≤ 2 * (R.u : ℝ) ∧ (L.square y : ℝ) = (y : ℝ) ^ 2 * (1 + θ) := by
    intro y
    refine ratio (sq_nonneg _) (by positivity) ?_
    have h : ((|L.square y - y ^ 2| : ℚ) : ℝ) ≤ ((2 * R.u * y ^ 2 : ℚ) : ℝ) := Rat.cast_le.2 (L.square_err y)
    push_cast at h; exact h
  -- the exponent
  obtain ⟨δ1, d1, e1⟩ := relR R (x - c.mean)
  obtain ⟨δ2, d2, e2⟩ := relR R (R.fl (x - c.mean) / c.stddev)
  obtain ⟨t, ht⟩ : ∃ t, t = R.fl (R.fl (x - c.mean) / c.stddev) := ⟨_, rfl⟩
  rw [← ht] at e2
  obtain ⟨θ, d3, e3⟩ := sq t
  obtain ⟨δ4, d4, e4⟩ := relR R (-L.square t / 2)
  obtain ⟨a, ha⟩ : ∃ a, a = R.fl (-L.square t / 2) := ⟨_, rfl⟩
  rw [← ha] at e4
  obtain ⟨c1, k1, f1⟩ := one_mul' (21 / 10) hu0 hu1 (one d1) (one d1) (by norm_num) (by norm_num) (by norm_num)
  obtain ⟨c2, k2, f2⟩ := one_mul' (32 / 10) hu0 hu1 k1 (one d2) (by norm_num) (by norm_num) (by norm_num)
  obtain ⟨c3, k3, f3⟩ := one_mul' (43 / 10) hu0 hu1 k2 (one d2) (by norm_num) (by norm_num) (by norm_num)
  obtain ⟨c4, k4, f4⟩ := one_mul' (64 / 10) hu0 hu1 k3 d3 (by norm_num) (by norm_num) (by norm_num)
  obtain ⟨α, k5, f5⟩ := one_mul' 8 hu0 hu1 k4 (one d4) (by norm_num) (by norm_num) (by norm_num)
  have ea : (a : ℝ) = -((((x : ℝ) - c.mean) / c.stddev) ^ 2 / 2 * (1 + α)) := by
    rw [e4]
    push_cast
    rw [e3, e2]
    push_cast
    rw [e1]
    push_cast
    rw [← f5, ← f4, ← f3, ← f2, ← f1]
    field_simp
  have ha0 : a ≤ 0 := by
    have h1 : (0:ℝ) ≤ 1 + α := by have := abs_le.1 k5; linarith [this.1]
    have h2 : (a : ℝ) ≤ ((0 : ℚ) : ℝ) := by
      rw [ea]; push_cast
      have := mul_nonneg (show (0:ℝ) ≤ (((x : ℝ) - c.mean) / c.stddev) ^ 2 / 2 by positivity) h1
      linarith
    exact_mod_cast h2
  obtain ⟨η, d5, e5⟩ := ratio (Real.exp_pos (a : ℝ)).le (by positivity) (L.exp_err a ha0)
  -- the denominator
  obtain ⟨π', d6, e6⟩ := ratio hpi.le hu0 L.pi_err
  obtain ⟨δ7, d7, e7⟩ := relR R (2 * L.pi)
  obtain ⟨θ8, d8, e8⟩ := sq c.stddev
  obtain ⟨δ9, d9, e9⟩ := relR R (R.fl (2 * L.pi) * L.square c.stddev)
  obtain ⟨q, hq⟩ : ∃ q, q = R.fl (R.fl (2 * L.pi) * L.square c.stddev) := ⟨_, rfl⟩
  rw [← hq] at e9
  obtain ⟨b1, m1, g1⟩ := one_mul' (21 / 10) hu0 hu1 (one d6) (one d7) (by norm_num) (by norm_num) (by norm_num)
  obtain ⟨b2, m2, g2⟩ := one_mul' (42 / 10) hu0 hu1 m1 d8 (by norm_num) (by norm_num) (by norm_num)
  obtain ⟨β, m3, g3⟩ := one_mul' (53 / 10) hu0 hu1 m2 (one d9) (by norm_num) (by norm_num) (by norm_num)
  have hD : 0 < 2 * Real.pi * (c.stddev : ℝ) ^ 2 := by positivity
  have eq : (q : ℝ) = 2 * Real.pi * (c.stddev : ℝ) ^ 2 * (1 + β) := by
    rw [e9]
    push_cast
    rw [e8, e7]
    push_cast
    rw [e6, ← g3, ← g2, ← g1]
    ring
  have hβ := abs_le.1 m3
  have hq0 : 0 ≤ q := by
    have h2 : ((0 : ℚ) : ℝ) ≤ (q : ℝ) := by
      rw [eq]; push_cast
      exact mul_nonneg hD.le (by linarith [hβ.1])
    exact_mod_cast h2
  obtain ⟨δ10, d10, e10⟩ := ratio (Real.sqrt_nonneg (q : ℝ)) hu0 (L.sqrt_err q hq0)
  have hsq := sqrt_one (b := β) (by linarith [hβ.1])
  obtain ⟨γ, m4, g4⟩ := one_mul' (a := Real.sqrt (1 + β) - 1) (13 / 2) hu0 hu1 (hsq.trans m3) (one d10) (by norm_num) (by norm_num) (by norm_num)
  have es : (L.sqrt q : ℝ) = Real.sqrt (2 * Real.pi * (c.stddev : ℝ) ^ 2) * (1 + γ) := by
    rw [e10, eq, Real.sqrt_mul hD.le, ← g4]; ring
  -- the quotient
  obtain ⟨δ11, d11, e11⟩ := relR R (c.amplitude * L.exp a)
  obtain ⟨δ12, d12, e12⟩ := relR R (R.fl (c.amplitude * L.exp a) / L.sqrt q)
  obtain ⟨r1, n1, i1⟩ := one_mul' (31 / 10) hu0 hu1 d5 (one d11) (by norm_num) (by norm_num) (by norm_num)
  obtain ⟨r2, n2, i2⟩ := one_mul' (42 / 10) hu0 hu1 n1 (one d12) (by norm_num) (by norm_num) (by norm_num)
  obtain ⟨r3, n3, i3⟩ := inv' hu0 hu1 m4
  obtain ⟨ρ, n4, i4⟩ := one_mul' 12 hu0 hu1 n2 n3 (by norm_num) (by norm_num) (by norm_num)
  refine ⟨α, ρ, k5, n4, ?_⟩
  have e0 : gaussF R L c x = R.fl (R.fl (c.amplitude * L.exp a) / L.sqrt q) := by rw [ha, hq, ht]; rfl
  rw [e0, e12]
  push_cast
  rw [e11]
  push_cast
  rw [e5, es, ← i4, ← i3, ← i2, ← i1, ← ea]
  unfold top
  have hγ : (1 + γ) ≠ 0 := by have := abs_le.1 m4; linarith [this.1]
  have hD' := (Real.sqrt_pos.2 hD).ne'
  field_simp

/-- **C116** (accuracy).  The computed value of a Gaussian function is within 21 units of rounding of its largest value, everywhere. -/
theorem C116_accuracy (R : Rounding) (hu : R.u ≤ 1 / 1000) (L : Lib R) (c : CompQ) (hc : Proper c) (x : ℚ) :
    |(gaussF R L c x : ℝ) - bell c x| ≤ 21 * (R.u : ℝ) * top c := by
  obtain ⟨α, ρ, h1, h2, h3⟩ := gaussF_repr R hu L c hc.2 x
  have hu0 := u0 R
  have hu1 : (R.u : ℝ) ≤ 1 / 1000 := by
    have h : ((R.u : ℚ) : ℝ) ≤ ((1 / 1000 : ℚ) : ℝ) := Rat.cast_le.2 hu
    push_cast at h; exact h
  have ht := top_nonneg hc
  obtain ⟨w, hw⟩ : ∃ w, w = (((x : ℝ) - c.mean) / c.stddev) ^ 2 / 2 := ⟨_, rfl⟩
  have hw0 : 0 ≤ w := by rw [hw]; positivity
  have h4 := exp_near (α := α) hw0 (by linarith)
  rw [h3, bell, ← hw]
  have h5 : Real.exp (-w) ≤ 1 := Real.exp_le_one_iff.2 (by linarith)
  have h6 := Real.exp_pos (-w)
  have h7 : |1 + ρ| ≤ 1 + 12 / 1000 := by
    have := abs_add_le 1 ρ
    rw [abs_one] at this; linarith
  have h8 : top c * Real.exp (-(w * (1 + α))) * (1 + ρ) - top c * Real.exp (-w) =
      top c * ((Real.exp (-(w * (1 + α))) - Real.exp (-w)) * (1 + ρ) + Real.exp (-w) * ρ) := by ring
  rw [h8, abs_mul, abs_of_nonneg ht]
  have h9 := abs_add_le ((Real.exp (-(w * (1 + α))) - Real.exp (-w)) * (1 + ρ)) (Real.exp (-w) * ρ)
  rw [abs_mul, abs_mul, abs_of_pos h6] at h9
  have h10 : |Real.exp (-(w * (1 + α))) - Real.exp (-w)| * |1 + ρ| ≤ (8 * (R.u : ℝ)) * (1 + 12 / 1000) :=
    mul_le_mul (h4.trans h1) h7 (abs_nonneg _) (by positivity)
  have h11 : Real.exp (-w) * |ρ| ≤ 1 * (12 * (R.u : ℝ)) := mul_le_mul h5 h2 (abs_nonneg _) (by norm_num)
  have h12 := mul_le_mul_of_nonneg_left (show _ ≤ 21 * (R.u : ℝ) by linarith) ht
  linarith [h12]

/-- **C116** (sign).  The computed value is not negative. -/
theorem C116_nonneg (R : Rounding) (hu : R.u ≤ 1 / 1000) (L : Lib R) (c : CompQ) (hc : Proper c) (x : ℚ) : 0 ≤ gaussF R L c x := by
  obtain ⟨α, ρ, h1, h2, h3⟩ := gaussF_repr R hu L c hc.2 x
  have hu1 : (R.u : ℝ) ≤ 1 / 1000 := by
    have h : ((R.u : ℚ) : ℝ) ≤ ((1 / 1000 : ℚ) : ℝ) := Rat.cast_le.2 hu
    push_cast at h; exact h
  have h4 : ((0 : ℚ) : ℝ) ≤ (gaussF R L c x : ℝ) := by
    rw [h3]; push_cast
    have := (abs_le.1 h2).1
    exact mul_nonneg (mul_nonneg (top_nonneg hc) (Real.exp_pos _).le) (by linarith)
  exact_mod_cast h4

theorem square_zero {R : Rounding} (L : Lib R) : L.square 0 = 0 := by
  have := L.square_err 0
  simpa using this

theorem square_nonneg {R : Rounding} (L : Lib R) (x : ℚ) : 0 ≤ L.square x := by
  have h1 := (abs_le.1 (L.square_err x)).1
  have h2 : 2 * R.u * x ^ 2 ≤ 1 * x ^ 2 := mul_le_mul_of_nonneg_right (by linarith [R.u_small]) (sq_nonneg x)
  linarith

theorem fl_nonneg' (R : Floats) {x : ℚ} (h : 0 ≤ x) : 0 ≤ R.fl x := by
  have := R.mono _ _ h
  rwa [fl_zero] at this

/-- **C116** (peak).  No computed value is above the computed value at the mean. -/
theorem C116_peak (R : Floats) (L : Lib R.toRounding) (c : CompQ) (hc : Proper c) (x : ℚ) : gaussF R.toRounding L c x ≤ gaussF R.toRounding L c c.mean := by
  unfold gaussF
  have hden : 0 ≤ L.sqrt (R.fl (R.fl (2 * L.pi) * L.square c.stddev)) := by
    have hpi : 0 ≤ L.pi := by
      have h1 := (abs_le.1 L.pi_err).1
      have h2 : (R.u : ℝ) * Real.pi ≤ 1 * Real.pi := mul_le_mul_of_nonneg_right (by have := u1 R.toRounding; linarith) Real.pi_pos.le
      have h3 : ((0 : ℚ) : ℝ) ≤ (L.pi : ℝ) := by push_cast; linarith
      exact_mod_cast h3
    have hq := fl_nonneg' R (mul_nonneg (fl_nonneg' R (mul_nonneg (by norm_num : (0:ℚ) ≤ 2) hpi)) (square_nonneg L c.stddev))
    have h1 := (abs_le.1 (L.sqrt_err _ hq)).1
    have h2 := Real.sqrt_nonneg ((R.fl (R.fl (2 * L.pi) * L.square c.stddev) : ℚ) : ℝ)
    have h4 := mul_le_mul_of_nonneg_right (show (R.u : ℝ) ≤ 1 by have := u1 R.toRounding; linarith) h2
    have h3 : ((0 : ℚ) : ℝ) ≤ (L.sqrt (R.fl (R.fl (2 * L.pi) * L.square c.stddev)) : ℝ) := by push_cast; linarith
    exact_mod_cast h3
  have hmean : R.fl (-L.square (R.fl (R.fl (c.mean - c.mean) / c.stddev)) / 2) = 0 := by
    rw [sub_self, fl_zero, zero_div, fl_zero, square_zero L, neg_zero, zero_div, fl_zero]
  rw [hmean, L.exp_zero]
  refine R.mono _ _ (div_le_div_of_nonneg_right (R.mono _ _ (mul_le_mul_of_nonneg_left (L.exp_le_one _ ?_) hc.1)) hden)
  have h1 := square_nonneg L (R.fl (R.fl (x - c.mean) / c.stddev))
  have h2 := R.mono _ _ (show -L.square (R.fl (R.fl (x - c.mean) / c.stddev)) / 2 ≤ 0 by linarith)
  rwa [fl_zero] at h2

/-- **C116** (symmetry).  Positions at the same distance on both sides of the mean have exactly the same computed value. -/
theorem C116_symmetric (R : Floats) (L : Lib R.toRounding) (c : CompQ) (d : ℚ) :
    gaussF R.toRounding L c (c.mean - d) = gaussF R.toRounding L c (c.mean + d) := by
  unfold gaussF
  have h : R.fl (R.fl (c.mean - d - c.mean) / c.stddev) = -R.fl (R.fl (c.mean + d - c.mean) / c.stddev) := by
    rw [show c.mean - d - c.mean = -d by ring, show c.mean + d - c.mean = d by ring, R.neg, neg_div, R.neg]
  rw [h, L.square_neg]

/-! ### Mixtures -/

/-- What the computed mixture may be off by: 21 units of rounding for the components, and the error of a sum at most `dd` deep. -/
noncomputable def mixErr (u : ℝ) (dd : ℕ) : ℝ := 21 * u + sumErr u dd * (1 + 21 * u)

theorem bell_le {c : CompQ} (hc : Proper c) (x : ℝ) : 0 ≤ bell c x ∧ bell c x ≤ top c := by
  have ht := top_nonneg hc
  have h1 : Real.exp (-(((x - c.mean) / c.stddev) ^ 2 / 2)) ≤ 1 := Real.exp_le_one_iff.2 (by
    have : 0 ≤ ((x - c.mean) / c.stddev) ^ 2 / 2 := by positivity
    linarith)
  have h2 := Real.exp_pos (-(((x - c.mean) / c.stddev) ^ 2 / 2))
  unfold bell
  exact ⟨mul_nonneg ht h2.le, by nlinarith⟩

/-- **C116** (mixture).  The computed value of a mixture is within `mixErr` times the sum of the largest values of its components. -/
theorem C116_mix (R : Rounding) (hu : R.u ≤ 1 / 1000) (L : Lib R) (dd n : ℕ) (dot : List (ℚ × ℚ) → ℚ) (hdot : IsProd R dd n dot)
    (cs : List CompQ) (hcs : cs ≠ []) (hn : cs.length ≤ n) (hc : ∀ c ∈ cs, Proper c) (x : ℚ) :
    |(mixF R L dot cs x : ℝ) - bells cs x| ≤ mixErr R.u dd * tops cs := by
  have hu0 := u0 R
  have hS : ∀ l : List CompQ, (∀ c ∈ l, Proper c) →
      |(((l.map fun c => gaussF R L c x).sum : ℚ) : ℝ) - bells l x| ≤ 21 * (R.u : ℝ) * tops l ∧
      (((l.map fun c => gaussF R L c x).sum : ℚ) : ℝ) ≤ (1 + 21 * (R.u : ℝ)) * tops l := by
    intro l
    induction l with
    | nil => intro _; simp [bells, tops]
    | cons c l ih =>
      intro h
      obtain ⟨i1, i2⟩ := ih fun e he => h e (List.mem_cons_of_mem _ he)
      have h1 := C116_accuracy R hu L c (h c (by simp)) x
      have h2 := (bell_le (h c (by simp)) x).2
      have h3 := (abs_le.1 h1)
      have h4 := (abs_le.1 i1)
      unfold bells tops at i1 h4 ⊢
      unfold tops at i2
      simp only [List.map_cons, List.sum_cons] at i1 i2 ⊢
      rw [Rat.cast_add]
      constructor
      · rw [abs_le]; constructor <;> linarith [h3.1, h3.2, h4.1, h4.2]
      · linarith [h3.2]
  obtain ⟨h1, h2⟩ := hS cs hc
  have h3 := prod_near R dd _ _ (hdot (cs.map fun c => (gaussF R L c x, 1)) (by simpa using hcs) (by simpa using hn))
  have e1 : ((cs.map fun c => (gaussF R L c x, (1 : ℚ))).map fun p => p.1 * p.2) = cs.map fun c => gaussF R L c x := by
    rw [List.map_map]; apply List.map_congr_left; intro c _; simp
  have e2 : ((cs.map fun c => (gaussF R L c x, (1 : ℚ))).map fun p => |p.1 * p.2|) = cs.map fun c => gaussF R L c x := by
    rw [List.map_map]; apply List.map_congr_left; intro c hc'
    simp only [Function.comp, mul_one]
    exact abs_of_nonneg (C116_nonneg R hu L c (hc c hc') x)
  rw [e1, e2] at h3
  have h4 := (Rat.cast_le (K := ℝ)).2 h3
  rw [Rat.cast_abs, Rat.cast_sub, Rat.cast_mul] at h4
  have h5 : (((1 + R.u) ^ (dd + 1) - 1 : ℚ) : ℝ) = sumErr R.u dd := by unfold sumErr; push_cast; rfl
  rw [h5] at h4
  have h6 : 0 ≤ sumErr (R.u : ℝ) dd := by
    unfold sumErr
    have := one_le_pow₀ (show (1:ℝ) ≤ 1 + R.u by linarith) (n := dd + 1)
    linarith
  have h7 := mul_le_mul_of_nonneg_left h2 h6
  have h8 := abs_sub_le (mixF R L dot cs x : ℝ) (((cs.map fun c => gaussF R L c x).sum : ℚ) : ℝ) (bells cs x)
  have h9 : |(mixF R L dot cs x : ℝ) - (((cs.map fun c => gaussF R L c x).sum : ℚ) : ℝ)| ≤
      sumErr R.u dd * (((cs.map fun c => gaussF R L c x).sum : ℚ) : ℝ) := h4
  unfold mixErr
  linarith

/-! ### The centre -/

theorem peakF_spec (R : Rounding) (L : Lib R) (dot : List (ℚ × ℚ) → ℚ) (cs : List CompQ) (a b : ℚ) :
    ∃ k : ℕ, k ≤ 999 ∧ peakF R L dot cs a b = .ok (gridF R a b 999 k) ∧
      ∀ j : ℕ, j ≤ 999 → mixF R L dot cs (gridF R a b 999 j) ≤ mixF R L dot cs (gridF R a b 999 k) := by
  have hget : ∀ j : ℕ, j ≤ 999 → (linspaceF R a b 999)[j]? = some (gridF R a b 999 j) := by
    intro j hj
    unfold linspaceF
    rw [List.getElem?_map, List.getElem?_range (by omega)]; rfl
  have hlen : ((linspaceF R a b 999).map (mixF R L dot cs)).length = 1000 := by simp [linspaceF]
  obtain ⟨k, hk, hk'⟩ := Gaussian.argBest_some (fun a b => b < a) ((linspaceF R a b 999).map (mixF R L dot cs)) (by
    intro h; rw [h] at hlen; simp at hlen)
  rw [hlen] at hk'
  have hk2 : Gaussian.argmax ((linspaceF R a b 999).map (mixF R L dot cs)) = some k := hk
  obtain ⟨v, hv, hmax, _⟩ := Gaussian.argmax_spec _ _ hk2
  rw [List.getElem?_map, hget k (by omega)] at hv
  refine ⟨k, by omega, ?_, ?_⟩
  · unfold peakF
    rw [hk2]
    simp only [pyGet]
    rw [hget k (by omega)]
  · intro j hj
    have := hmax j (mixF R L dot cs (gridF R a b 999 j)) (by rw [List.getElem?_map, hget j hj]; rfl)
    obtain rfl := Option.some.inj hv
    exact this

theorem foldl_min_mem (l : List ℚ) (a : ℚ) : l.foldl min a ∈ a :: l ∧ ∀ b ∈ a :: l, l.foldl min a ≤ b := by
  induction l generalizing a with
  | nil => simp
  | cons e l ih =>
    obtain ⟨h1, h2⟩ := ih (min a e)
    simp only [List.foldl_cons]
    constructor
    · rcases List.mem_cons.1 h1 with h | h
      · rw [h]; rcases min_choice a e with h' | h' <;> rw [h'] <;> simp
      · simp [h]
    · intro b hb
      have h3 := h2 (min a e) (by simp)
      rcases List.mem_cons.1 hb with rfl | hb
      · exact h3.trans (min_le_left _ _)
      · rcases List.mem_cons.1 hb with rfl | hb
        · exact h3.trans (min_le_right _ _)
        · exact h2 b (List.mem_cons_of_mem _ hb)

theorem foldl_max_mem (l : List ℚ) (a : ℚ) : l.foldl max a ∈ a :: l ∧ ∀ b ∈ a :: l, b ≤ l.foldl max a := by
  induction l generalizing a with
  | nil => simp
  | cons e l ih =>
    obtain ⟨h1, h2⟩ := ih (max a e)
    simp only [List.foldl_cons]
    constructor
    · rcases List.mem_cons.1 h1 with h | h
      · rw [h]; rcases max_choice a e with h' | h' <;> rw [h'] <;> simp
      · simp [h]
    · intro b hb
      have h3 := h2 (max a e) (by simp)
      rcases List.mem_cons.1 hb with rfl | hb
      · exact (le_max_left _ _).trans h3
      · rcases List.mem_cons.1 hb with rfl | hb
        · exact (le_max_right _ _).trans h3
        · exact h2 b (List.mem_cons_of_mem _ hb)

theorem bind_ok {ε α β : Type} (a : α) (f : α → Except ε β) : (Except.ok a).bind f = f a := rfl

theorem centerF_cons (R : Rounding) (L : Lib R) (dot : List (ℚ × ℚ) → ℚ) (c d : CompQ) (rest : List CompQ) :
    centerF R L dot (c :: d :: rest) =
      (peakF R L dot (c :: d :: rest) (((d :: rest).map CompQ.mean).foldl min c.mean) (((d :: rest).map CompQ.mean).foldl max c.mean)).bind fun x =>
        peakF R L dot (c :: d :: rest)
          (R.fl (x - R.fl (R.fl (((d :: rest).map CompQ.mean).foldl max c.mean - ((d :: rest).map CompQ.mean).foldl min c.mean) / 1000)))
          (R.fl (x + R.fl (R.fl (((d :: rest).map CompQ.mean).foldl max c.mean - ((d :: rest).map CompQ.mean).foldl min c.mean) / 1000))) := rfl

/-- A grid of 1000 points from `a` to `b`, each of them off by at most `ε`. -/
def Grid (a b ε : ℚ) (g : ℕ → ℚ) : Prop := ∀ k : ℕ, k < 1000 → |g k - (a + k * ((b - a) / 999))| ≤ ε

/-- **C116** (centre).  For a mixture of two or more proper components with means up to `X`, the centre is found: there are two grids of 1000 points, the
first over the range of the means, the second a thousandth of that range around the best point of the first one; all points are where they belong up to
13 units of rounding of `X`.  The exact mixture has, up to twice the error of its computation, nowhere on the first grid a larger value than at its best
point, and nowhere on the second grid a larger value than at the centre. -/
theorem C116_center (R : Floats) (hu : R.u ≤ 1 / 1000) (L : Lib R.toRounding) (dd n : ℕ) (dot : List (ℚ × ℚ) → ℚ) (hdot : IsProd R.toRounding dd n dot)
    (c d : CompQ) (rest : List CompQ) (hn : (c :: d :: rest).length ≤ n) (hc : ∀ e ∈ c :: d :: rest, Proper e)
    (X : ℚ) (hX : ∀ e ∈ c :: d :: rest, |e.mean| ≤ X) :
    ∃ lo hi : ℚ, ∃ g h : ℕ → ℚ, ∃ i k : ℕ, i < 1000 ∧ k < 1000 ∧
      (∃ e ∈ c :: d :: rest, e.mean = lo) ∧ (∃ e ∈ c :: d :: rest, e.mean = hi) ∧ (∀ e ∈ c :: d :: rest, lo ≤ e.mean ∧ e.mean ≤ hi) ∧
      centerF R.toRounding L dot (c :: d :: rest) = .ok (h k) ∧
      Grid lo hi (13 * R.u * X) g ∧ Grid (g i - (hi - lo) / 1000) (g i + (hi - lo) / 1000) (13 * R.u * X) h ∧
      (∀ j : ℕ, j < 1000 → bells (c :: d :: rest) (g j) ≤ bells (c :: d :: rest) (g i) + 2 * (mixErr R.u dd * tops (c :: d :: rest))) ∧
      (∀ j : ℕ, j < 1000 → bells (c :: d :: rest) (h j) ≤ bells (c :: d :: rest) (h k) + 2 * (mixErr R.u dd * tops (c :: d :: rest))) ∧
      lo - (hi - lo) / 1000 - 26 * R.u * X ≤ h k ∧ h k ≤ hi + (hi - lo) / 1000 + 26 * R.u * X := by
  have hu0 := R.u_nonneg
  obtain ⟨lo, hlo⟩ : ∃ lo, lo = ((d :: rest).map CompQ.mean).foldl min c.mean := ⟨_, rfl⟩
  obtain ⟨hi, hhi⟩ : ∃ hi, hi = ((d :: rest).map CompQ.mean).foldl max c.mean := ⟨_, rfl⟩
  obtain ⟨m1, m2⟩ := foldl_min_mem ((d :: rest).map CompQ.mean) c.mean
  obtain ⟨M1, M2⟩ := foldl_max_mem ((d :: rest).map CompQ.mean) c.mean
  rw [← hlo] at m1 m2
  rw [← hhi] at M1 M2
  rw [← List.map_cons] at m1 m2 M1 M2
  obtain ⟨e1, he1, hm1⟩ := List.mem_map.1 m1
  obtain ⟨e2, he2, hm2⟩ := List.mem_map.1 M1
  have hlX : |lo| ≤ X := hm1 ▸ hX e1 he1
  have hhX : |hi| ≤ X := hm2 ▸ hX e2 he2
  have hX0 : 0 ≤ X := (abs_nonneg _).trans hlX
  have hle : lo ≤ hi := m2 hi M1
  have l1 := abs_le.1 hlX
  have l2 := abs_le.1 hhX
  obtain ⟨i, hi1, hi2, hi3⟩ := peakF_spec R.toRounding L dot (c :: d :: rest) lo hi
  obtain ⟨x, hx⟩ : ∃ x, x = gridF R.toRounding lo hi 999 i := ⟨_, rfl⟩
  obtain ⟨s, hs⟩ : ∃ s, s = R.fl (R.fl (hi - lo) / 1000) := ⟨_, rfl⟩
  obtain ⟨k, hk1, hk2, hk3⟩ := peakF_spec R.toRounding L dot (c :: d :: rest) (R.fl (x - s)) (R.fl (x + s))
  have hUX : 0 ≤ R.u * X := mul_nonneg hu0 hX0
  have hUX' : R.u * X ≤ 1 / 1000 * X := mul_le_mul_of_nonneg_right hu hX0
  -- the first grid
  have G1 : ∀ j : ℕ, j ≤ 999 → |gridF R.toRounding lo hi 999 j - (lo + j * ((hi - lo) / 999))| ≤ 11 * (R.u * X) := by
    intro j hj
    have h := gridF_near R.toRounding hle (n := 999) (by norm_num) j hj
    have h2 : R.u * (|lo| + 5 * (hi - lo)) ≤ R.u * (11 * X) := mul_le_mul_of_nonneg_left (by linarith [l1.1, l2.2]) hu0
    have h3 : ((999 : ℕ) : ℚ) = 999 := by norm_num
    rw [h3] at h
    linarith
  have between : ∀ (a b : ℚ) (j : ℕ), a ≤ b → j ≤ 999 → a ≤ a + j * ((b - a) / 999) ∧ a + j * ((b - a) / 999) ≤ b := by
    intro a b j hab hj
    have h1 : (j : ℚ) ≤ 999 := by exact_mod_cast hj
    have h0 : (0 : ℚ) ≤ j := Nat.cast_nonneg j
    have h2 : 0 ≤ (b - a) / 999 := div_nonneg (by linarith) (by norm_num)
    have h3 := mul_nonneg h0 h2
    have h4 := mul_le_mul_of_nonneg_right h1 h2
    have h5 : 999 * ((b - a) / 999) = b - a := by ring
    constructor <;> linarith
  have hxG := abs_le.1 (hx ▸ G1 i hi1)
  have hxb := between lo hi i hle hi1
  -- the half width of the second grid
  have hs1 : |s - (hi - lo) / 1000| ≤ 1 / 100 * (R.u * X) := by
    have h1 := R.err (hi - lo)
    have h2 := R.err (R.fl (hi - lo) / 1000)
    rw [← hs] at h2
    rw [abs_of_nonneg (show 0 ≤ hi - lo by linarith)] at h1
    have h3 : R.u * (hi - lo) ≤ 2 * (R.u * X) := by
      have := mul_le_mul_of_nonneg_left (show hi - lo ≤ 2 * X by linarith [l1.1, l2.2]) hu0
      linarith
    have h4 := abs_le.1 (h1.trans h3)
    have h5 : |R.fl (hi - lo) / 1000| ≤ 3 / 1000 * X := by
      rw [abs_le]; constructor <;> linarith [h4.1, h4.2, l1.1, l2.2]
    have h6 := h2.trans (mul_le_mul_of_nonneg_left h5 hu0)
    have h7 := abs_le.1 h6
    rw [abs_le]; constructor <;> linarith [h4.1, h4.2, h7.1, h7.2]
  have hs0 : 0 ≤ s := by
    rw [hs]
    exact fl_nonneg' R (div_nonneg (fl_nonneg' R (by linarith)) (by norm_num))
  have hs2 := abs_le.1 hs1
  have end_near : ∀ y : ℚ, |y| ≤ 11 / 10 * X → |R.fl y - y| ≤ 11 / 10 * (R.u * X) := by
    intro y hy
    have := (R.err y).trans (mul_le_mul_of_nonneg_left hy hu0)
    linarith
  have hA := abs_le.1 (end_near (x - s) (by rw [abs_le]; constructor <;> linarith [hxG.1, hxG.2, hxb.1, hxb.2, hs2.1, hs2.2, l1.1, l1.2, l2.1, l2.2]))
  have hB := abs_le.1 (end_near (x + s) (by rw [abs_le]; constructor <;> linarith [hxG.1, hxG.2, hxb.1, hxb.2, hs2.1, hs2.2, l1.1, l1.2, l2.1, l2.2]))
  have hAB : R.fl (x - s) ≤ R.fl (x + s) := R.mono _ _ (by linarith)
  have G2 : ∀ j : ℕ, j ≤ 999 → |gridF R.toRounding (R.fl (x - s)) (R.fl (x + s)) 999 j -
      (x - (hi - lo) / 1000 + j * ((x + (hi - lo) / 1000 - (x - (hi - lo) / 1000)) / 999))| ≤ 13 * (R.u * X) := by
    intro j hj
    have h := gridF_near R.toRounding hAB (n := 999) (by norm_num) j hj
    have h3 : ((999 : ℕ) : ℚ) = 999 := by norm_num
    rw [h3] at h
    have h4 : |R.fl (x - s)| ≤ 11 / 10 * X := by
      rw [abs_le]; constructor <;> linarith [hA.1, hA.2, hxG.1, hxG.2, hxb.1, hxb.2, hs2.1, hs2.2, l1.1, l1.2, l2.1, l2.2]
    have h5 : R.u * (|R.fl (x - s)| + 5 * (R.fl (x + s) - R.fl (x - s))) ≤ R.u * (2 * X) :=
      mul_le_mul_of_nonneg_left (by linarith [hA.1, hA.2, hB.1, hB.2, hs2.1, hs2.2, l1.1, l1.2, l2.1, l2.2]) hu0
    have h6 := abs_le.1 (h.trans h5)
    -- the ends are off by little, so is every point between them
    have hj0 : (0 : ℚ) ≤ j / 999 := by positivity
    have hj1 : (j : ℚ) / 999 ≤ 1 := by
      rw [div_le_one (by norm_num)]; exact_mod_cast hj
    have h7 : (R.fl (x - s) + j * ((R.fl (x + s) - R.fl (x - s)) / 999)) -
        (x - (hi - lo) / 1000 + j * ((x + (hi - lo) / 1000 - (x - (hi - lo) / 1000)) / 999)) =
        (1 - j / 999) * (R.fl (x - s) - (x - (hi - lo) / 1000)) + j / 999 * (R.fl (x + s) - (x + (hi - lo) / 1000)) := by ring
    have h8 : |R.fl (x - s) - (x - (hi - lo) / 1000)| ≤ 2 * (R.u * X) := by
      rw [abs_le]; constructor <;> linarith [hA.1, hA.2, hs2.1, hs2.2]
    have h9 : |R.fl (x + s) - (x + (hi - lo) / 1000)| ≤ 2 * (R.u * X) := by
      rw [abs_le]; constructor <;> linarith [hB.1, hB.2, hs2.1, hs2.2]
    have h8' := abs_le.1 h8
    have h9' := abs_le.1 h9
    have k0 : 0 ≤ 1 - (j : ℚ) / 999 := by linarith
    have q1 := mul_le_mul_of_nonneg_left h8'.1 k0
    have q2 := mul_le_mul_of_nonneg_left h8'.2 k0
    have q3 := mul_le_mul_of_nonneg_left h9'.1 hj0
    have q4 := mul_le_mul_of_nonneg_left h9'.2 hj0
    rw [abs_le]; constructor <;> linarith [h6.1, h6.2]
  have best : ∀ p q : ℚ, mixF R.toRounding L dot (c :: d :: rest) p ≤ mixF R.toRounding L dot (c :: d :: rest) q →
      bells (c :: d :: rest) p ≤ bells (c :: d :: rest) q + 2 * (mixErr R.u dd * tops (c :: d :: rest)) := by
    intro p q hpq
    have a1 := abs_le.1 (C116_mix R.toRounding hu L dd n dot hdot (c :: d :: rest) (by simp) hn hc p)
    have a2 := abs_le.1 (C116_mix R.toRounding hu L dd n dot hdot (c :: d :: rest) (by simp) hn hc q)
    have a3 : (mixF R.toRounding L dot (c :: d :: rest) p : ℝ) ≤ mixF R.toRounding L dot (c :: d :: rest) q := Rat.cast_le.2 hpq
    linarith [a1.1, a2.2]
  refine ⟨lo, hi, gridF R.toRounding lo hi 999, gridF R.toRounding (R.fl (x - s)) (R.fl (x + s)) 999, i, k, by omega, by omega, ⟨e1, he1, hm1⟩, ⟨e2, he2, hm2⟩,
    ?_, ?_, ?_, ?_, ?_, ?_, ?_, ?_⟩
  · intro e he
    exact ⟨m2 _ (List.mem_map.2 ⟨e, he, rfl⟩), M2 _ (List.mem_map.2 ⟨e, he, rfl⟩)⟩
  · rw [centerF_cons, ← hlo, ← hhi, hi2, ← hx, bind_ok, ← hs]
    exact hk2
  · intro j hj
    have := G1 j (by omega)
    linarith
  · intro j hj
    rw [← hx]
    have := G2 j (by omega)
    linarith
  · intro j hj
    exact best _ _ (hi3 j (by omega))
  · intro j hj
    exact best _ _ (hk3 j (by omega))
  · have h1 := abs_le.1 (G2 k hk1)
    have h2 := between (x - (hi - lo) / 1000) (x + (hi - lo) / 1000) k (by linarith) hk1
    linarith [h1.1, h2.1, hxG.1, hxb.1]
  · have h1 := abs_le.1 (G2 k hk1)
    have h2 := between (x - (hi - lo) / 1000) (x + (hi - lo) / 1000) k (by linarith) hk1
    linarith [h1.2, h2.2, hxG.2, hxb.2]

/-- **C116** (centre of one).  The centre of a single component is its mean, without any arithmetic. -/
theorem C116_single (R : Rounding) (L : Lib R) (dot : List (ℚ × ℚ) → ℚ) (c : CompQ) : centerF R L dot [c] = .ok c.mean := rfl

/-- A component, a mixture of two and `np.dot` of doubles meet the hypotheses. -/
example : double.u ≤ 1 / 1000 ∧ IsProd double 1 2 (prodF double) ∧ (∀ e ∈ [(⟨1, 0, 1 / 2⟩ : CompQ), ⟨2, 3, 1⟩], Proper e) ∧
    ∀ e ∈ [(⟨1, 0, 1 / 2⟩ : CompQ), ⟨2, 3, 1⟩], |e.mean| ≤ 3 := by
  refine ⟨by norm_num [double], ?_, ?_, ?_⟩
  · have := prodF_isProd double 2
    simpa using this
  · intro e he
    simp only [List.mem_cons, List.not_mem_nil, or_false] at he
    rcases he with rfl | rfl <;> norm_num [Proper]
  · intro e he
    simp only [List.mem_cons, List.not_mem_nil, or_false] at he
    rcases he with rfl | rfl <;> norm_num

/-- Beside the mean of a unit Gaussian the function is not at its largest value. -/
example : bell ⟨1, 0, 1⟩ 1 < top ⟨1, 0, 1⟩ := by
  unfold bell
  have ht : 0 < top ⟨1, 0, 1⟩ := by
    unfold top
    have := Real.pi_pos
    exact div_pos (by norm_num) (Real.sqrt_pos.2 (by push_cast; positivity))
  have : Real.exp (-(((1 - ((0 : ℚ) : ℝ)) / ((1 : ℚ) : ℝ)) ^ 2 / 2)) < 1 := by
    rw [Real.exp_lt_one_iff]; norm_num
  exact mul_lt_of_lt_one_right ht this

end Verif.Props.FloatGaussian
