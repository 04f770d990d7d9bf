import Verif.Props.GaussianPeak
import Verif.Props.FloatGaussian

/-!
C117 in double precision.
-/

namespace Verif.Props.FloatGaussianPeak

open Verif Verif.Float Verif.Props.FloatGaussian

/-! ### Specification -/

/-- A bound of the curvature of a mixture: the largest values of the components over their variances. -/
noncomputable def curvatures (cs : List CompQ) : ℝ := (cs.map fun c => top c / (c.stddev : ℝ) ^ 2).sum

/-- A bound of the slope of a mixture, but for a factor: the largest values of the components over their deviations. -/
noncomputable def slopes (cs : List CompQ) : ℝ := (cs.map fun c => top c / (c.stddev : ℝ)).sum

/-! ### The exact model -/

/-- The component with real numbers. -/
noncomputable def real (c : CompQ) : Gaussian.Comp := ⟨c.amplitude, c.mean, c.stddev⟩

theorem bell_density (c : CompQ) (x : ℝ) : bell c x = Verif.Gaussian.density (real c) x := by
  unfold bell top Verif.Gaussian.density real
  simp only
  rw [show -((x - (c.mean : ℝ)) / c.stddev) ^ 2 / 2 = -(((x - (c.mean : ℝ)) / c.stddev) ^ 2 / 2) by ring]
  ring

theorem bells_mix (cs : List CompQ) (x : ℝ) : bells cs x = Gaussian.mix (cs.map real) x := by
  unfold bells Gaussian.mix
  rw [List.map_map]
  congr 1
  apply List.map_congr_left
  intro c _
  exact bell_density c x

theorem curvatures_eq (cs : List CompQ) : curvatures cs = GaussianPeak.curvature (cs.map real) := by
  unfold curvatures GaussianPeak.curvature
  rw [List.map_map]
  rfl

theorem real_proper {cs : List CompQ} (hc : ∀ c ∈ cs, Proper c) : ∀ c ∈ cs.map real, GaussianPeak.Proper c := by
  intro c hc'
  obtain ⟨e, he, rfl⟩ := List.mem_map.1 hc'
  have := hc e he
  refine ⟨?_, ?_⟩
  · show (0 : ℝ) ≤ (e.amplitude : ℝ)
    exact_mod_cast this.1
  · show (e.stddev : ℝ) ≠ 0
    exact_mod_cast this.2.ne'

/-! ### A small change of the position -/

theorem exp_slope (z w : ℝ) : Real.exp (-(z ^ 2 / 2)) - Real.exp (-(w ^ 2 / 2)) ≤ 3 / 2 * |w - z| := by
  obtain ⟨t, ht⟩ : ∃ t, t = w - z := ⟨_, rfl⟩
  rw [← ht]
  have h0 := Real.exp_pos (-(z ^ 2 / 2))
  have h1 : Real.exp (-(z ^ 2 / 2)) ≤ 1 := Real.exp_le_one_iff.2 (by have := sq_nonneg z; linarith)
  have h2 := Real.exp_pos (-(w ^ 2 / 2))
  rcases le_total 1 |t| with h | h
  · linarith
  · have e1 : Real.exp (-(w ^ 2 / 2)) = Real.exp (-(z ^ 2 / 2)) * Real.exp (-(z * t + t ^ 2 / 2)) := by
      rw [← Real.exp_add, ht]; ring_nf
    have e2 := mul_le_mul_of_nonneg_left (Real.add_one_le_exp (-(z * t + t ^ 2 / 2))) h0.le
    -- the slope of the exponential is at most 1
    have e3 : |z| * Real.exp (-(z ^ 2 / 2)) ≤ 1 := by
      have q1 := Real.add_one_le_exp (z ^ 2 / 2)
      have q2 : Real.exp (-(z ^ 2 / 2)) * Real.exp (z ^ 2 / 2) = 1 := by rw [← Real.exp_add]; simp
      have q3 : |z| ≤ Real.exp (z ^ 2 / 2) := by
        have : 0 ≤ (|z| - 1) ^ 2 := sq_nonneg _
        have q4 := sq_abs z
        nlinarith
      have := mul_le_mul_of_nonneg_right q3 h0.le
      linarith
    have e4 : Real.exp (-(z ^ 2 / 2)) * (z * t) ≤ |t| := by
      have a1 : z * t ≤ |z| * |t| := by rw [← abs_mul]; exact le_abs_self _
      have a2 := mul_le_mul_of_nonneg_left a1 h0.le
      have a3 := mul_le_mul_of_nonneg_right e3 (abs_nonneg t)
      linarith
    have e5 : Real.exp (-(z ^ 2 / 2)) * (t ^ 2 / 2) ≤ |t| / 2 := by
      have a1 : t ^ 2 ≤ |t| := by rw [← sq_abs]; nlinarith [abs_nonneg t]
      have a2 := mul_le_mul_of_nonneg_right h1 (show 0 ≤ t ^ 2 / 2 by positivity)
      linarith
    rw [e1]
    linarith

theorem bells_slope (cs : List CompQ) (hc : ∀ c ∈ cs, Proper c) (a b : ℝ) : bells cs a ≤ bells cs b + 3 / 2 * slopes cs * |b - a| := by
  induction cs with
  | nil => simp [bells, slopes]
  | cons c cs ih =>
    have h1 := ih fun e he => hc e (List.mem_cons_of_mem _ he)
    have hp := hc c (by simp)
    have hσ : (0 : ℝ) < (c.stddev : ℝ) := by exact_mod_cast hp.2
    have h2 := mul_le_mul_of_nonneg_left (exp_slope ((a - c.mean) / c.stddev) ((b - c.mean) / c.stddev)) (top_nonneg hp)
    have h3 : |(b - c.mean) / c.stddev - (a - c.mean) / c.stddev| = |b - a| / (c.stddev : ℝ) := by
      rw [← sub_div, abs_div, abs_of_pos hσ]; congr 2; ring
    rw [h3] at h2
    have h4 : top c * (3 / 2 * (|b - a| / (c.stddev : ℝ))) = 3 / 2 * (top c / (c.stddev : ℝ)) * |b - a| := by ring
    rw [h4] at h2
    unfold bells slopes at h1 ⊢
    simp only [List.map_cons, List.sum_cons]
    unfold bell at h1 ⊢
    linarith

/-- **C117** (doubles).  Nowhere is a mixture of proper components, with means up to `X` and at most `S` apart, higher than at the centre computed in
doubles by more than `curvatures * S ^ 2 / 1995000`, the effect of positions that are off by 13 units of rounding of `X`, and four times the error of the
computed values. -/
theorem C117_doubles_partial (R : Floats) (hu : R.u ≤ 1 / 1000) (L : Lib R.toRounding) (dd n : ℕ) (dot : List (ℚ × ℚ) → ℚ)
    (hdot : IsProd R.toRounding dd n dot) (c d : CompQ) (rest : List CompQ) (hn : (c :: d :: rest).length ≤ n) (hc : ∀ e ∈ c :: d :: rest, Proper e)
    (X S : ℚ) (hX : ∀ e ∈ c :: d :: rest, |e.mean| ≤ X) (hS : ∀ e ∈ c :: d :: rest, ∀ e' ∈ c :: d :: rest, e.mean - e'.mean ≤ S) :
    ∃ x, centerF R.toRounding L dot (c :: d :: rest) = .ok x ∧
      ∀ y : ℝ, bells (c :: d :: rest) y ≤ bells (c :: d :: rest) x + curvatures (c :: d :: rest) * (S : ℝ) ^ 2 / 1995000 +
        39 * (R.u : ℝ) * X * slopes (c :: d :: rest) + 4 * (mixErr R.u dd * tops (c :: d :: rest)) := by
  obtain ⟨lo, hi, g, h, i, k, hi', hk', ⟨e1, he1, hlo⟩, ⟨e2, he2, hhi⟩, hr, hok, hg, hh, bg, bh, -, -⟩ :=
    C116_center R hu L dd n dot hdot c d rest hn hc X hX
  refine ⟨h k, hok, fun y => ?_⟩
  obtain ⟨cs, hcs⟩ : ∃ cs, cs = c :: d :: rest := ⟨_, rfl⟩
  rw [← hcs] at hc hr bg bh he1 he2 hS ⊢
  have hp := real_proper hc
  have hle : (lo : ℝ) ≤ (hi : ℝ) := by
    have := hr e1 he1
    exact_mod_cast this.1.trans this.2
  have hMS : (hi : ℝ) - lo ≤ S := by
    have := hS e2 he2 e1 he1
    rw [hlo, hhi] at this
    have h' := (Rat.cast_le (K := ℝ)).2 this
    push_cast at h'; exact h'
  have hK : 0 ≤ curvatures cs := by rw [curvatures_eq]; exact GaussianPeak.curvature_nonneg _ hp
  have hL : 0 ≤ slopes cs := by
    unfold slopes
    apply List.sum_nonneg
    intro v hv
    obtain ⟨e, he, rfl⟩ := List.mem_map.1 hv
    exact div_nonneg (top_nonneg (hc e he)) (by exact_mod_cast (hc e he).2.le)
  -- a grid of floats is as good as the grid it stands for
  have move : ∀ (a b : ℚ) (f : ℕ → ℚ), Grid a b (13 * R.u * X) f → ∀ j : ℕ, j < 1000 →
      bells cs ((a : ℝ) + j * (((b : ℝ) - a) / 999)) ≤ bells cs (f j) + 3 / 2 * slopes cs * (13 * (R.u : ℝ) * X) := by
    intro a b f hf j hj
    have h1 := bells_slope cs hc ((a : ℝ) + j * (((b : ℝ) - a) / 999)) (f j)
    have h2 := (Rat.cast_le (K := ℝ)).2 (hf j hj)
    push_cast at h2
    have h3 := mul_le_mul_of_nonneg_left h2 (show 0 ≤ 3 / 2 * slopes cs by positivity)
    linarith
  obtain ⟨z, z1, z2, z3⟩ := GaussianPeak.inside (cs.map real) hp hle (by
    intro e he
    obtain ⟨e', he', rfl⟩ := List.mem_map.1 he
    have := hr e' he'
    show (lo : ℝ) ≤ (e'.mean : ℝ) ∧ (e'.mean : ℝ) ≤ hi
    exact ⟨by exact_mod_cast this.1, by exact_mod_cast this.2⟩) y
  obtain ⟨j, hj, g1⟩ := GaussianPeak.on_grid _ hp z1 z2
  have hw : 0 ≤ ((hi : ℝ) - lo) / 1000 := div_nonneg (by linarith) (by norm_num)
  obtain ⟨l, hl, g3⟩ := GaussianPeak.on_grid _ hp (show (g i : ℝ) - ((hi : ℝ) - lo) / 1000 ≤ g i by linarith)
    (show (g i : ℝ) ≤ (g i : ℝ) + ((hi : ℝ) - lo) / 1000 by linarith)
  rw [← bells_mix, ← bells_mix] at z3 g1 g3
  rw [← curvatures_eq] at g1 g3
  have m1 := move lo hi g hg j hj
  have m2 := move _ _ h hh l hl
  push_cast at m2
  have b1 := bg j hj
  have b2 := bh l hl
  have e : ((g i : ℝ) + ((hi : ℝ) - lo) / 1000 - ((g i : ℝ) - ((hi : ℝ) - lo) / 1000)) = 2 * (((hi : ℝ) - lo) / 1000) := by ring
  have g5 : curvatures cs * ((hi : ℝ) - lo) ^ 2 ≤ curvatures cs * (S : ℝ) ^ 2 :=
    mul_le_mul_of_nonneg_left (pow_le_pow_left₀ (by linarith) hMS 2) hK
  have g6 : 0 ≤ curvatures cs * ((hi : ℝ) - lo) ^ 2 := by positivity
  have e1 : curvatures cs * (((hi : ℝ) - lo) / 999) ^ 2 / 2 = curvatures cs * ((hi : ℝ) - lo) ^ 2 * (1 / (2 * 999 ^ 2)) := by ring
  have e2 : curvatures cs * (((g i : ℝ) + ((hi : ℝ) - lo) / 1000 - ((g i : ℝ) - ((hi : ℝ) - lo) / 1000)) / 999) ^ 2 / 2 =
      curvatures cs * ((hi : ℝ) - lo) ^ 2 * (2 / (1000 ^ 2 * 999 ^ 2)) := by rw [e]; ring
  rw [e1] at g1
  rw [e2] at g3
  linarith

/-- A mixture of two components, doubles and their `np.dot` meet the hypotheses. -/
example : double.u ≤ 1 / 1000 ∧ IsProd double 1 2 (prodF double) ∧
    ∀ e ∈ [(⟨1, 0, 1 / 2⟩ : CompQ), ⟨2, 3, 1⟩], Proper e ∧ |e.mean| ≤ 3 ∧ ∀ e' ∈ [(⟨1, 0, 1 / 2⟩ : CompQ), ⟨2, 3, 1⟩], e.mean - e'.mean ≤ 3 := by
  refine ⟨by norm_num [double], ?_, ?_⟩
  · have := FloatFit.prodF_isProd double 2
    simpa using this
  · intro e he
    simp only [List.mem_cons, List.not_mem_nil, or_false] at he
    rcases he with rfl | rfl <;> norm_num [Proper]

end Verif.Props.FloatGaussianPeak
