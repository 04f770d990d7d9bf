import Verif.Props.Gaussian

/-!
C117: how close the centre of a mixture comes to its highest point.
-/

namespace Verif.Props.GaussianPeak

open Verif Verif.Gaussian Verif.Props.Gaussian

/-! ### Specification -/

/-- A component with a non-negative amplitude and a deviation. -/
def Proper (c : Comp) : Prop := 0 ≤ c.amplitude ∧ c.stddev ≠ 0

/-- A bound of the curvature of a mixture: the largest values of the components over their variances. -/
noncomputable def curvature (cs : List Comp) : ℝ := (cs.map fun c => c.amplitude / Real.sqrt (2 * Real.pi * c.stddev ^ 2) / c.stddev ^ 2).sum

/-! ### A parabola below the mixture -/

/-- The slope of a mixture. -/
noncomputable def slope (cs : List Comp) (a : ℝ) : ℝ := (cs.map fun c => -(density c a * (a - c.mean) / c.stddev ^ 2)).sum

theorem tangent (c : Comp) (hc : Proper c) (a b : ℝ) :
    density c a + -(density c a * (a - c.mean) / c.stddev ^ 2) * (b - a) -
      c.amplitude / Real.sqrt (2 * Real.pi * c.stddev ^ 2) / c.stddev ^ 2 * (b - a) ^ 2 / 2 ≤ density c b := by
  obtain ⟨P, hP⟩ : ∃ P, P = c.amplitude / Real.sqrt (2 * Real.pi * c.stddev ^ 2) := ⟨_, rfl⟩
  have hP0 : 0 ≤ P := by rw [hP]; exact div_nonneg hc.1 (Real.sqrt_nonneg _)
  have hd : ∀ x, density c x = P * Real.exp (-((x - c.mean) / c.stddev) ^ 2 / 2) := by
    intro x; unfold density; rw [hP]; ring
  have hσ := hc.2
  obtain ⟨z, hz⟩ : ∃ z, z = (a - c.mean) / c.stddev := ⟨_, rfl⟩
  obtain ⟨t, ht⟩ : ∃ t, t = (b - a) / c.stddev := ⟨_, rfl⟩
  have hb : (b - c.mean) / c.stddev = z + t := by rw [hz, ht]; ring
  rw [← hP, hd a, hd b, hb, ← hz]
  have e1 : P * Real.exp (-z ^ 2 / 2) * (a - c.mean) / c.stddev ^ 2 * (b - a) = P * Real.exp (-z ^ 2 / 2) * (z * t) := by
    rw [hz, ht]; field_simp
  have e2 : P / c.stddev ^ 2 * (b - a) ^ 2 / 2 = P * (t ^ 2 / 2) := by rw [ht]; field_simp
  have h1 : Real.exp (-(z + t) ^ 2 / 2) = Real.exp (-z ^ 2 / 2) * Real.exp (-(z * t + t ^ 2 / 2)) := by
    rw [← Real.exp_add]; ring_nf
  have h2 := Real.add_one_le_exp (-(z * t + t ^ 2 / 2))
  have h3 := Real.exp_pos (-z ^ 2 / 2)
  have h4 : Real.exp (-z ^ 2 / 2) ≤ 1 := Real.exp_le_one_iff.2 (by have := sq_nonneg z; linarith)
  have h5 := mul_le_mul_of_nonneg_left h2 h3.le
  have h6 := mul_le_mul_of_nonneg_right h4 (show 0 ≤ t ^ 2 / 2 by positivity)
  have h7 : Real.exp (-z ^ 2 / 2) - Real.exp (-z ^ 2 / 2) * (z * t) - t ^ 2 / 2 ≤ Real.exp (-(z + t) ^ 2 / 2) := by rw [h1]; linarith
  have h8 := mul_le_mul_of_nonneg_left h7 hP0
  rw [neg_mul, e1, e2]
  linarith

theorem mix_tangent (cs : List Comp) (hc : ∀ c ∈ cs, Proper c) (a b : ℝ) :
    mix cs a + slope cs a * (b - a) - curvature cs * (b - a) ^ 2 / 2 ≤ mix cs b := by
  induction cs with
  | nil => simp [mix, slope, curvature]
  | cons c cs ih =>
    have h1 := ih fun e he => hc e (List.mem_cons_of_mem _ he)
    have h2 := tangent c (hc c (by simp)) a b
    unfold mix slope curvature at h1 ⊢
    simp only [List.map_cons, List.sum_cons]
    linarith

theorem curvature_nonneg (cs : List Comp) (hc : ∀ c ∈ cs, Proper c) : 0 ≤ curvature cs := by
  unfold curvature
  apply List.sum_nonneg
  intro x hx
  obtain ⟨c, hc', rfl⟩ := List.mem_map.1 hx
  exact div_nonneg (div_nonneg (hc c hc').1 (Real.sqrt_nonneg _)) (sq_nonneg _)

/-- One of two points around `y`, at most `h` apart, has a value that is not much smaller. -/
theorem one_side (cs : List Comp) (hc : ∀ c ∈ cs, Proper c) {a b y h : ℝ} (ha : a ≤ y) (hb : y ≤ b) (hab : b - a ≤ h) :
    mix cs y ≤ mix cs a + curvature cs * h ^ 2 / 2 ∨ mix cs y ≤ mix cs b + curvature cs * h ^ 2 / 2 := by
  have hK := curvature_nonneg cs hc
  have key : ∀ x, |x - y| ≤ h → 0 ≤ slope cs y * (x - y) → mix cs y ≤ mix cs x + curvature cs * h ^ 2 / 2 := by
    intro x hx hs
    have h1 := mix_tangent cs hc y x
    have h2 : (x - y) ^ 2 ≤ h ^ 2 := sq_le_sq' (by linarith [(abs_le.1 hx).1]) (abs_le.1 hx).2
    have h3 := mul_le_mul_of_nonneg_left h2 hK
    linarith
  rcases le_total 0 (slope cs y) with hs | hs
  · right
    exact key b (by rw [abs_le]; constructor <;> linarith) (mul_nonneg hs (by linarith))
  · left
    exact key a (by rw [abs_le]; constructor <;> linarith) (mul_nonneg_of_nonpos_of_nonpos hs (by linarith))

/-- One of 1000 equally spaced points has a value that is not much smaller. -/
theorem on_grid (cs : List Comp) (hc : ∀ c ∈ cs, Proper c) {a b y : ℝ} (ha : a ≤ y) (hb : y ≤ b) :
    ∃ k : ℕ, k < 1000 ∧ mix cs y ≤ mix cs (a + k * ((b - a) / 999)) + curvature cs * ((b - a) / 999) ^ 2 / 2 := by
  have hK := curvature_nonneg cs hc
  obtain ⟨h, hh⟩ : ∃ h, h = (b - a) / 999 := ⟨_, rfl⟩
  rw [← hh]
  have hb' : b = a + 999 * h := by rw [hh]; ring
  have hh0 : 0 ≤ h := by rw [hh]; apply div_nonneg <;> linarith
  have hterm : 0 ≤ curvature cs * h ^ 2 / 2 := by positivity
  rcases hh0.eq_or_lt with h0 | h0
  · refine ⟨0, by norm_num, ?_⟩
    have : y = a := by rw [← h0] at hb'; linarith
    rw [this]; simp; linarith
  · obtain ⟨k, hk⟩ : ∃ k, k = ⌊(y - a) / h⌋₊ := ⟨_, rfl⟩
    have hq : 0 ≤ (y - a) / h := div_nonneg (by linarith) hh0
    have f1 : (k : ℝ) * h ≤ y - a := by
      have := Nat.floor_le hq
      rw [← hk, le_div_iff₀ h0] at this; exact this
    have f2 : y - a < ((k : ℝ) + 1) * h := by
      have := Nat.lt_floor_add_one ((y - a) / h)
      rw [← hk, div_lt_iff₀ h0] at this; exact this
    have f3 : k ≤ 999 := by
      have : (k : ℝ) * h ≤ 999 * h := by linarith
      have := le_of_mul_le_mul_right this h0
      exact_mod_cast this
    rcases f3.eq_or_lt with f4 | f4
    · refine ⟨999, by norm_num, ?_⟩
      have : y = a + ((999 : ℕ) : ℝ) * h := by
        rw [f4] at f1; push_cast at f1 ⊢; linarith
      rw [← this]; linarith
    · rcases one_side cs hc (a := a + k * h) (b := a + ((k + 1 : ℕ) : ℝ) * h) (y := y) (h := h) (by linarith)
        (by push_cast; linarith) (by push_cast; linarith) with g | g
      · exact ⟨k, by omega, g⟩
      · exact ⟨k + 1, by omega, g⟩

/-- Outside of the range of the means a mixture falls. -/
theorem inside (cs : List Comp) (hc : ∀ c ∈ cs, Proper c) {m M : ℝ} (hmM : m ≤ M) (hr : ∀ c ∈ cs, m ≤ c.mean ∧ c.mean ≤ M) (y : ℝ) :
    ∃ z, m ≤ z ∧ z ≤ M ∧ mix cs y ≤ mix cs z := by
  have key : ∀ z, (∀ c ∈ cs, |z - c.mean| ≤ |y - c.mean|) → mix cs y ≤ mix cs z := by
    intro z hz
    unfold mix
    apply List.sum_le_sum
    intro c hc'
    exact (C57_density c (hc c hc').2 (hc c hc').1).2.2.1 z y (hz c hc')
  rcases lt_or_ge y m with h1 | h1
  · refine ⟨m, le_rfl, hmM, key m fun c hc' => ?_⟩
    have := hr c hc'
    rw [abs_of_nonpos (by linarith), abs_of_nonpos (by linarith)]; linarith
  · rcases lt_or_ge M y with h2 | h2
    · refine ⟨M, hmM, le_rfl, key M fun c hc' => ?_⟩
      have := hr c hc'
      rw [abs_of_nonneg (by linarith), abs_of_nonneg (by linarith)]; linarith
    · exact ⟨y, h1, h2, le_rfl⟩

/-! ### The centre -/

/-- **C117** (peak).  Nowhere is a mixture of proper components with means at most `S` apart higher than at its centre by more than
`curvature * S ^ 2 / 1995000`. -/
theorem C117_peak_partial (c d : Comp) (rest : List Comp) (hc : ∀ e ∈ c :: d :: rest, Proper e)
    (S : ℝ) (hS : ∀ e ∈ c :: d :: rest, ∀ e' ∈ c :: d :: rest, e.mean - e'.mean ≤ S) :
    ∃ x, center (c :: d :: rest) = .ok x ∧ ∀ y, mix (c :: d :: rest) y ≤ mix (c :: d :: rest) x + curvature (c :: d :: rest) * S ^ 2 / 1995000 := by
  obtain ⟨x, x0, m, M, h1, h2, ⟨e1, he1, hm⟩, ⟨e2, he2, hM⟩, ⟨k0, hk0, hx0⟩, h3, h4, h5⟩ := C57_center_grid_max c d rest fun e he => (hc e he).2
  have hK := curvature_nonneg _ hc
  have hmM : m ≤ M := by have := h2 e1 he1; linarith
  have hMS : M - m ≤ S := by rw [← hM, ← hm]; exact hS e2 he2 e1 he1
  refine ⟨x, h1, fun y => ?_⟩
  obtain ⟨z, z1, z2, z3⟩ := inside _ hc hmM h2 y
  obtain ⟨k, hk, g1⟩ := on_grid _ hc z1 z2
  have g2 := h3 k hk
  have hw : 0 ≤ (M - m) / 1000 := div_nonneg (by linarith) (by norm_num)
  obtain ⟨j, hj, g3⟩ := on_grid _ hc (show x0 - (M - m) / 1000 ≤ x0 by linarith) (show x0 ≤ x0 + (M - m) / 1000 by linarith)
  have e : (x0 + (M - m) / 1000 - (x0 - (M - m) / 1000)) = 2 * ((M - m) / 1000) := by ring
  rw [e] at g3
  have g4 := h5 j hj
  have g5 : curvature (c :: d :: rest) * (M - m) ^ 2 ≤ curvature (c :: d :: rest) * S ^ 2 :=
    mul_le_mul_of_nonneg_left (pow_le_pow_left₀ (by linarith) hMS 2) hK
  have g6 : 0 ≤ curvature (c :: d :: rest) * (M - m) ^ 2 := by positivity
  have e1 : curvature (c :: d :: rest) * ((M - m) / 999) ^ 2 / 2 = curvature (c :: d :: rest) * (M - m) ^ 2 * (1 / (2 * 999 ^ 2)) := by ring
  have e2 : curvature (c :: d :: rest) * (2 * ((M - m) / 1000) / 999) ^ 2 / 2 = curvature (c :: d :: rest) * (M - m) ^ 2 * (2 / (1000 ^ 2 * 999 ^ 2)) := by ring
  rw [e1] at g1
  rw [e2] at g3
  linarith

/-- A mixture of two components that meets the hypotheses. -/
example : (∀ e ∈ [(⟨1, 0, 1⟩ : Comp), ⟨1, 2, 1⟩], Proper e) ∧ ∀ e ∈ [(⟨1, 0, 1⟩ : Comp), ⟨1, 2, 1⟩], ∀ e' ∈ [(⟨1, 0, 1⟩ : Comp), ⟨1, 2, 1⟩], e.mean - e'.mean ≤ 2 := by
  constructor
  · intro e he
    simp only [List.mem_cons, List.not_mem_nil, or_false] at he
    rcases he with rfl | rfl <;> norm_num [Proper]
  · intro e he e' he'
    simp only [List.mem_cons, List.not_mem_nil, or_false] at he he'
    rcases he with rfl | rfl <;> rcases he' with rfl | rfl <;> norm_num

/-- **C117** (missed peak).  With narrow components the centre can miss the peak: this mixture is 50 times as high elsewhere as at its centre. -/
theorem C117_peak_fails :
    ∃ x y, center [⟨1, 0, 1 / 100⟩, ⟨1, 999, 1 / 100⟩, ⟨100, 1001 / 2, 1 / 100⟩] = .ok x ∧
      50 * mix [⟨1, 0, 1 / 100⟩, ⟨1, 999, 1 / 100⟩, ⟨100, 1001 / 2, 1 / 100⟩] x < mix [⟨1, 0, 1 / 100⟩, ⟨1, 999, 1 / 100⟩, ⟨100, 1001 / 2, 1 / 100⟩] y := by
  obtain ⟨x, x0, m, M, h1, h2, ⟨e1, he1, hm⟩, ⟨e2, he2, hM⟩, ⟨k, hk, hx0⟩, h3, h4, -⟩ :=
    C57_center_grid_max ⟨1, 0, 1 / 100⟩ ⟨1, 999, 1 / 100⟩ [⟨100, 1001 / 2, 1 / 100⟩] (by
      intro e he
      simp only [List.mem_cons, List.not_mem_nil, or_false] at he
      rcases he with rfl | rfl | rfl <;> norm_num)
  have b1 := h2 ⟨1, 0, 1 / 100⟩ (by simp)
  have b2 := h2 ⟨1, 999, 1 / 100⟩ (by simp)
  have hm0 : m = 0 := by
    apply le_antisymm b1.1
    rw [← hm]
    simp only [List.mem_cons, List.not_mem_nil, or_false] at he1
    rcases he1 with rfl | rfl | rfl <;> norm_num
  have hM0 : M = 999 := by
    refine le_antisymm ?_ b2.2
    rw [← hM]
    simp only [List.mem_cons, List.not_mem_nil, or_false] at he2
    rcases he2 with rfl | rfl | rfl <;> norm_num
  subst hm0 hM0
  obtain ⟨P, hP⟩ : ∃ P, P = 1 / Real.sqrt (2 * Real.pi * (1 / 100) ^ 2) := ⟨_, rfl⟩
  have hP0 : 0 < P := by
    rw [hP]
    have := Real.pi_pos
    exact div_pos one_pos (Real.sqrt_pos.2 (by positivity))
  obtain ⟨E, hE⟩ : ∃ E : ℝ → ℝ, E = fun d => Real.exp (-(d / (1 / 100)) ^ 2 / 2) := ⟨_, rfl⟩
  have hmix : ∀ y, mix [⟨1, 0, 1 / 100⟩, ⟨1, 999, 1 / 100⟩, ⟨100, 1001 / 2, 1 / 100⟩] y = P * (E (y - 0) + E (y - 999) + 100 * E (y - 1001 / 2)) := by
    intro y
    simp only [mix, density, List.map_cons, List.map_nil, List.sum_cons, List.sum_nil, hP, hE]
    ring
  have hEpos : ∀ d, 0 < E d := fun d => by rw [hE]; exact Real.exp_pos _
  have hE1 : ∀ d, E d ≤ 1 := fun d => by
    rw [hE]
    refine Real.exp_le_one_iff.2 ?_
    have := sq_nonneg (d / (1 / 100)); linarith
  have hE0 : E 0 = 1 := by rw [hE]; simp
  have hEs : ∀ d, 1 / 2 ≤ |d| → E d ≤ 1 / 1251 := by
    intro d hd
    have q1 : (1 / 2) ^ 2 ≤ d ^ 2 := by rw [← sq_abs d]; exact pow_le_pow_left₀ (by norm_num) hd 2
    have q2 : Real.exp (-(d / (1 / 100)) ^ 2 / 2) ≤ Real.exp (-1250) := Real.exp_le_exp.2 (by
      have : -(d / (1 / 100)) ^ 2 / 2 = -(5000 * d ^ 2) := by ring
      rw [this]; linarith)
    have q3 := Real.add_one_le_exp (1250 : ℝ)
    have q4 : Real.exp (-1250) = 1 / Real.exp 1250 := by rw [Real.exp_neg, one_div]
    rw [hE]
    refine q2.trans ?_
    rw [q4]
    exact one_div_le_one_div_of_le (by norm_num) (by linarith)
  have hx0' : x0 = k := by rw [hx0]; ring
  -- the middle component is between two points of the first grid
  have hmid : 1 / 2 ≤ |(k : ℝ) - 1001 / 2| := by
    rcases Nat.lt_or_ge k 501 with h | h
    · have : (k : ℝ) ≤ 500 := by exact_mod_cast (by omega : k ≤ 500)
      rw [abs_of_nonpos (by linarith)]; linarith
    · have : (501 : ℝ) ≤ k := by exact_mod_cast h
      rw [abs_of_nonneg (by linarith)]; linarith
  have hends : k = 0 ∨ k = 999 := by
    by_contra hcon
    push Not at hcon
    have c1 : (1 : ℝ) ≤ k := by exact_mod_cast (by omega : 1 ≤ k)
    have c2 : (k : ℝ) ≤ 998 := by exact_mod_cast (by omega : k ≤ 998)
    have g := h3 0 (by norm_num)
    rw [hx0', hmix, hmix] at g
    have g' := le_of_mul_le_mul_left g hP0
    have z1 := hEs ((k : ℝ) - 0) (by rw [abs_of_nonneg (by linarith)]; linarith)
    have z2 := hEs ((k : ℝ) - 999) (by rw [abs_of_nonpos (by linarith)]; linarith)
    have z3 := hEs _ hmid
    have z4 : E (0 + ((0 : ℕ) : ℝ) * ((999 - 0) / 999) - 0) = 1 := by rw [← hE0]; norm_num
    have z5 := hEpos (0 + ((0 : ℕ) : ℝ) * ((999 - 0) / 999) - 999)
    have z6 := hEpos (0 + ((0 : ℕ) : ℝ) * ((999 - 0) / 999) - 1001 / 2)
    linarith
  refine ⟨x, 1001 / 2, h1, ?_⟩
  rw [hmix, hmix]
  have y1 : E (1001 / 2 - 1001 / 2) = 1 := by rw [sub_self, hE0]
  have y2 := hEpos (1001 / 2 - 0)
  have y3 := hEpos (1001 / 2 - 999)
  have h4' := abs_le.1 h4
  have sm : E (x - 0) + E (x - 999) + 100 * E (x - 1001 / 2) ≤ 1 + 1 / 1251 + 100 * (1 / 1251) := by
    rcases hends with h | h
    · rw [h] at hx0'
      norm_num at hx0'
      rw [hx0'] at h4'
      have z1 := hE1 (x - 0)
      have z2 := hEs (x - 999) (by rw [abs_of_nonpos (by linarith [h4'.2])]; linarith [h4'.2])
      have z3 := hEs (x - 1001 / 2) (by rw [abs_of_nonpos (by linarith [h4'.2])]; linarith [h4'.2])
      linarith
    · rw [h] at hx0'
      norm_num at hx0'
      rw [hx0'] at h4'
      have z1 := hEs (x - 0) (by rw [abs_of_nonneg (by linarith [h4'.1])]; linarith [h4'.1])
      have z2 := hE1 (x - 999)
      have z3 := hEs (x - 1001 / 2) (by rw [abs_of_nonneg (by linarith [h4'.1])]; linarith [h4'.1])
      linarith
  rw [y1]
  nlinarith

end Verif.Props.GaussianPeak
