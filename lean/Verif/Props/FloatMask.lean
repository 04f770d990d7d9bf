import Verif.Model.FloatMask
import Verif.Props.FloatEye

/-!
C112: masks in floats - conversion to unit intervals and amplitudes, adjustment, and the mask test.
-/

namespace Verif.Props.FloatMask

open Verif Verif.Lines Verif.Mask Verif.Eye Verif.Float Verif.Props.Float Verif.Props.FloatEye Verif.Props.EyeMask Verif.Props.Intersect
  Verif.Props.Mask

/-! ### Specification -/

/-- Two points are no more than `η` apart in each coordinate. -/
def Near (η : ℚ) (p q : Pt) : Prop := |p.1 - q.1| ≤ η ∧ |p.2 - q.2| ≤ η

/-- The same paths with the same number of corners, each corner off by no more than `η`. -/
def NearPaths (η : ℚ) (P Q : List (List Pt)) : Prop := List.Forall₂ (List.Forall₂ (Near η)) P Q

/-- The same hexagon with every parameter off by no more than `ε`. -/
structure NearHex (ε : ℚ) (c' c : Hexagon) : Prop where
  x1 : |c'.x1.v - c.x1.v| ≤ ε
  x2 : |c'.x2.v - c.x2.v| ≤ ε
  y1 : |c'.y1.v - c.y1.v| ≤ ε
  yl : |c'.yl.v - c.yl.v| ≤ ε
  yu : |c'.yu.v - c.yu.v| ≤ ε
  zeroRef : c'.zeroRef = c.zeroRef
  converted : c'.converted = c.converted

/-- No parameter of the hexagon is larger than `M`. -/
def HexWithin (M : ℚ) (c : Hexagon) : Prop := |c.x1.v| ≤ M ∧ |c.x2.v| ≤ M ∧ |c.y1.v| ≤ M ∧ |c.yl.v| ≤ M ∧ |c.yu.v| ≤ M

/-- The same decagon with every parameter off by no more than `ε`. -/
structure NearDec (ε : ℚ) (c' c : Decagon) : Prop where
  x1 : |c'.x1.v - c.x1.v| ≤ ε
  x2 : |c'.x2.v - c.x2.v| ≤ ε
  x3 : |c'.x3.v - c.x3.v| ≤ ε
  y1 : |c'.y1.v - c.y1.v| ≤ ε
  y2 : |c'.y2.v - c.y2.v| ≤ ε
  yl : |c'.yl.v - c.yl.v| ≤ ε
  yu : |c'.yu.v - c.yu.v| ≤ ε
  zeroRef : c'.zeroRef = c.zeroRef
  converted : c'.converted = c.converted

/-- No parameter of the decagon is larger than `M`. -/
def DecWithin (M : ℚ) (c : Decagon) : Prop :=
  |c.x1.v| ≤ M ∧ |c.x2.v| ≤ M ∧ |c.x3.v| ≤ M ∧ |c.y1.v| ≤ M ∧ |c.y2.v| ≤ M ∧ |c.yl.v| ≤ M ∧ |c.yu.v| ≤ M

/-! ### Rounding errors of the single parameters -/

theorem fl_near (R : Rounding) {x y e B : ℚ} (h : |x - y| ≤ e) (hB : |y| ≤ B) : |R.fl x - y| ≤ e + R.u * (B + e) := by
  have h1 := R.err x
  have h2 : |x| ≤ B + e := by
    have := abs_sub_abs_le_abs_sub x y
    linarith
  have h3 := mul_le_mul_of_nonneg_left h2 R.u_nonneg
  have h4 := abs_sub_le (R.fl x) x y
  linarith

theorem mul_near {a a' b b' ea eb A B : ℚ} (ha : |a' - a| ≤ ea) (hb : |b' - b| ≤ eb) (hA : |a| ≤ A) (hB : |b| ≤ B) :
    |a' * b' - a * b| ≤ ea * (B + eb) + A * eb := by
  have h2 : |b'| ≤ B + eb := by
    have := abs_sub_abs_le_abs_sub b' b
    linarith
  have e : a' * b' - a * b = (a' - a) * b' + a * (b' - b) := by ring
  rw [e]
  refine (abs_add_le _ _).trans ?_
  rw [abs_mul, abs_mul]
  have h3 := mul_le_mul ha h2 (abs_nonneg _) ((abs_nonneg _).trans ha)
  have h4 := mul_le_mul hA hb (abs_nonneg _) ((abs_nonneg _).trans hA)
  linarith

/-- What is known about `u * M`. -/
theorem unit_le (R : Rounding) {M : ℚ} (hM : 1 ≤ M) : 0 ≤ R.u * M ∧ R.u ≤ R.u * M ∧ 0 ≤ R.u * (R.u * M) ∧ R.u * (R.u * M) ≤ R.u * M / 100 := by
  have h0 := R.u_nonneg
  have h1 : 0 ≤ R.u * M := by positivity
  have h2 : R.u * 1 ≤ R.u * M := mul_le_mul_of_nonneg_left hM h0
  have h3 := mul_le_mul_of_nonneg_right R.u_small h1
  exact ⟨h1, by linarith, by positivity, by linarith⟩

theorem scaledF_near (R : Rounding) {f f' p p' M : ℚ} (hM : 1 ≤ M) (hf : 0 ≤ f ∧ f ≤ 1) (hf' : |f' - f| ≤ R.u) (hp : |p| ≤ M)
    (hp' : |p' - p| ≤ 3 * (R.u * M)) : |scaledF R f' p' - (1 - f) * p| ≤ 7 * (R.u * M) := by
  obtain ⟨h1, h2, h3, h4⟩ := unit_le R hM
  have h5 := unit_le R (le_refl (1 : ℚ))
  have g0 : |(1 - f') - (1 - f)| ≤ R.u := by rw [show (1 - f') - (1 - f) = -(f' - f) by ring, abs_neg]; exact hf'
  have g1 : |1 - f| ≤ 1 := by rw [abs_le]; constructor <;> linarith
  have g2 := fl_near R g0 g1
  have g3 : |R.fl (1 - f') - (1 - f)| ≤ 201 / 100 * R.u := by linarith [h5.2.2.2]
  have g4 := mul_near g3 hp' g1 hp
  have g5 : |(1 - f) * p| ≤ M := by
    rw [abs_mul]
    have := mul_le_mul g1 hp (abs_nonneg _) zero_le_one
    linarith
  have g6 : |R.fl (1 - f') * p' - (1 - f) * p| ≤ 51 / 10 * (R.u * M) := by
    refine g4.trans ?_
    rw [show 201 / 100 * R.u * (M + 3 * (R.u * M)) + 1 * (3 * (R.u * M)) = 201 / 100 * (R.u * M) + 603 / 100 * (R.u * (R.u * M)) + 3 * (R.u * M) by ring]
    linarith
  have g7 := fl_near R g6 g5
  unfold scaledF
  refine g7.trans ?_
  rw [show 51 / 10 * (R.u * M) + R.u * (M + 51 / 10 * (R.u * M)) = 61 / 10 * (R.u * M) + 51 / 10 * (R.u * (R.u * M)) by ring]
  linarith

theorem scaled_le {f p M : ℚ} (hf : 0 ≤ f ∧ f ≤ 1) (hp : |p| ≤ M) : |(1 - f) * p| ≤ M := by
  have g1 : |1 - f| ≤ 1 := by rw [abs_le]; constructor <;> linarith
  rw [abs_mul]
  have := mul_le_mul g1 hp (abs_nonneg _) zero_le_one
  linarith

theorem towardsF_near (R : Rounding) {f f' M : ℚ} {q q' : Qty} (hM : 1 ≤ M) (hf : 0 ≤ f ∧ f ≤ 1) (hf' : |f' - f| ≤ R.u) (hp : |q.v| ≤ M)
    (hp' : |q'.v - q.v| ≤ 3 * (R.u * M)) : |(towardsF R f' q').v - (towards f q).v| ≤ 10 * (R.u * M) ∧ |(towards f q).v| ≤ 3 / 2 * M := by
  obtain ⟨h1, h2, h3, h4⟩ := unit_le R hM
  have h5 := unit_le R (le_refl (1 : ℚ))
  have s := scaledF_near R hM hf hf' hp hp'
  have s' := scaled_le hf hp
  have a0 : |f' * (1 / 2) - f * (1 / 2)| ≤ R.u / 2 := by
    rw [← sub_mul, abs_mul, abs_of_pos (by norm_num : (0 : ℚ) < 1 / 2)]
    linarith
  have a1 : |f * (1 / 2)| ≤ 1 / 2 := by rw [abs_le]; constructor <;> linarith
  have a2 := fl_near R a0 a1
  have a3 : |R.fl (f' * (1 / 2)) - f * (1 / 2)| ≤ 101 / 100 * R.u := by linarith [h5.2.2.2]
  have b : |(f * (1 / 2) + (1 - f) * q.v)| ≤ 3 / 2 * M := by
    refine (abs_add_le _ _).trans ?_
    linarith
  have b' : |R.fl (f' * (1 / 2)) + scaledF R f' q'.v - (f * (1 / 2) + (1 - f) * q.v)| ≤ 9 * (R.u * M) := by
    rw [show R.fl (f' * (1 / 2)) + scaledF R f' q'.v - (f * (1 / 2) + (1 - f) * q.v) =
      (R.fl (f' * (1 / 2)) - f * (1 / 2)) + (scaledF R f' q'.v - (1 - f) * q.v) by ring]
    refine (abs_add_le _ _).trans ?_
    linarith
  have b'' : |R.fl (f' * (1 / 2)) + scaledF R f' q'.v - (f * (1 / 2) + (1 - f) * q.v)| ≤ 801 / 100 * (R.u * M) := by
    rw [show R.fl (f' * (1 / 2)) + scaledF R f' q'.v - (f * (1 / 2) + (1 - f) * q.v) =
      (R.fl (f' * (1 / 2)) - f * (1 / 2)) + (scaledF R f' q'.v - (1 - f) * q.v) by ring]
    refine (abs_add_le _ _).trans ?_
    linarith
  have c := fl_near R b'' b
  refine ⟨?_, b⟩
  unfold towardsF towards plain
  refine c.trans ?_
  rw [show 801 / 100 * (R.u * M) + R.u * (3 / 2 * M + 801 / 100 * (R.u * M)) = 951 / 100 * (R.u * M) + 801 / 100 * (R.u * (R.u * M)) by ring]
  linarith

/-- What is known about `M` relative to the distance `γ` of the corner from the middle. -/
theorem ratio_le {M γ : ℚ} (hM : 1 ≤ M) (hγ : 0 < γ) (hγ1 : γ ≤ 1) : M ≤ M ^ 2 / γ ∧ M ^ 2 / γ ≤ M ^ 3 / γ ^ 2 ∧ 1 ≤ M ^ 3 / γ ^ 2 ∧ M ≤ M ^ 3 / γ ^ 2 := by
  have h1 : M ≤ M ^ 2 / γ := by
    rw [le_div_iff₀ hγ]
    nlinarith
  have h2 : M ^ 2 / γ ≤ M ^ 3 / γ ^ 2 := by
    rw [div_le_div_iff₀ hγ (by positivity)]
    have : M ^ 2 * γ * γ ≤ M ^ 2 * γ * M := mul_le_mul_of_nonneg_left (hγ1.trans hM) (by positivity)
    nlinarith
  exact ⟨h1, h2, by linarith, by linarith⟩

theorem proportionalF_near (R : Rounding) {a1 a1' b b' a a' M γ : ℚ} (hM : 1 ≤ M) (hγ : 0 < γ) (hγ1 : γ ≤ 1) (hu : 50 * (R.u * M) ≤ γ)
    (h1 : |a1| ≤ M) (h1' : |a1' - a1| ≤ 7 * (R.u * M)) (h2 : |b| ≤ M) (h2' : |b' - b| ≤ 3 * (R.u * M)) (h3 : |a| ≤ M)
    (h3' : |a' - a| ≤ 3 * (R.u * M)) (hg : γ ≤ |1 / 2 - a|) :
    R.fl (1 / 2 - a') ≠ 0 ∧ |proportionalF R a1' b' a' - proportional a1 b a| ≤ 45 * (R.u * (M ^ 3 / γ ^ 2)) ∧
      |proportional a1 b a| ≤ 3 * (M ^ 3 / γ ^ 2) := by
  obtain ⟨u1, u2, u3, u4⟩ := unit_le R hM
  obtain ⟨r1, r2, r3, r4⟩ := ratio_le hM hγ hγ1
  have half : ∀ x : ℚ, |x| ≤ M → |1 / 2 - x| ≤ 3 / 2 * M := by
    intro x hx
    have := abs_sub (1 / 2 : ℚ) x
    rw [abs_of_pos (by norm_num : (0 : ℚ) < 1 / 2)] at this
    linarith
  have move : ∀ x y e : ℚ, |x - y| ≤ e → |(1 / 2 - x) - (1 / 2 - y)| ≤ e := by
    intro x y e h
    rw [show (1 / 2 - x) - (1 / 2 - y) = -(x - y) by ring, abs_neg]
    exact h
  have n1 := fl_near R (move _ _ _ h1') (half _ h1)
  have n2 := fl_near R (move _ _ _ h2') (half _ h2)
  have n3 := fl_near R (move _ _ _ h3') (half _ h3)
  rw [show 7 * (R.u * M) + R.u * (3 / 2 * M + 7 * (R.u * M)) = 17 / 2 * (R.u * M) + 7 * (R.u * (R.u * M)) by ring] at n1
  rw [show 3 * (R.u * M) + R.u * (3 / 2 * M + 3 * (R.u * M)) = 9 / 2 * (R.u * M) + 3 * (R.u * (R.u * M)) by ring] at n2 n3
  have m1 : |R.fl (1 / 2 - a1') - (1 / 2 - a1)| ≤ 86 / 10 * (R.u * M) := by linarith
  have m2 : |R.fl (1 / 2 - b') - (1 / 2 - b)| ≤ 46 / 10 * (R.u * M) := by linarith
  have m3 : |R.fl (1 / 2 - a') - (1 / 2 - a)| ≤ 46 / 10 * (R.u * M) := by linarith
  have w1 := half _ h1
  have w2 := half _ h2
  unfold proportionalF proportional
  generalize R.fl (1 / 2 - a1') = N1 at *
  generalize R.fl (1 / 2 - b') = N2 at *
  generalize R.fl (1 / 2 - a') = A at *
  generalize 1 / 2 - a1 = v1 at *
  generalize 1 / 2 - b = v2 at *
  generalize 1 / 2 - a = v3 at *
  have hA : 9 / 10 * γ ≤ |A| := by
    have := abs_sub_abs_le_abs_sub v3 A
    rw [abs_sub_comm] at this
    linarith
  have hA0 : A ≠ 0 := by
    rintro rfl
    rw [abs_zero] at hA
    linarith
  have hv0 : v3 ≠ 0 := by
    rintro rfl
    rw [abs_zero] at hg
    linarith
  have hM2 : 0 ≤ M ^ 2 := by positivity
  -- the product
  have p0 := mul_near m1 m2 w1 w2
  have uM2 : R.u * M * M = R.u * M ^ 2 := by ring
  have k0 : 0 ≤ R.u * M ^ 2 := mul_nonneg R.u_nonneg hM2
  have k1 : R.u * (R.u * M ^ 2) ≤ R.u * M ^ 2 / 100 := by
    have := mul_le_mul_of_nonneg_right R.u_small k0
    linarith
  have p1 : |N1 * N2 - v1 * v2| ≤ 202 / 10 * (R.u * M ^ 2) := by
    refine p0.trans ?_
    rw [show 86 / 10 * (R.u * M) * (3 / 2 * M + 46 / 10 * (R.u * M)) + 3 / 2 * M * (46 / 10 * (R.u * M)) =
      198 / 10 * (R.u * M ^ 2) + 3956 / 100 * (R.u * (R.u * M ^ 2)) by ring]
    linarith
  have p2 : |v1 * v2| ≤ 9 / 4 * M ^ 2 := by
    rw [abs_mul]
    have := mul_le_mul w1 w2 (abs_nonneg _) (by linarith)
    linarith
  have p3 := fl_near R p1 p2
  have p4 : |R.fl (N1 * N2) - v1 * v2| ≤ 227 / 10 * (R.u * M ^ 2) := by
    refine p3.trans ?_
    rw [show 202 / 10 * (R.u * M ^ 2) + R.u * (9 / 4 * M ^ 2 + 202 / 10 * (R.u * M ^ 2)) =
      2245 / 100 * (R.u * M ^ 2) + 202 / 10 * (R.u * (R.u * M ^ 2)) by ring]
    linarith
  generalize R.fl (N1 * N2) = P at *
  generalize v1 * v2 = v at *
  -- the quotient
  have q0 : P / A - v / v3 = (P - v) / A + v * (v3 - A) / (v3 * A) := by field_simp; ring
  have q1 : |(P - v) / A| ≤ 253 / 10 * (R.u * (M ^ 2 / γ)) := by
    rw [abs_div, div_le_iff₀ (abs_pos.2 hA0)]
    have : 253 / 10 * (R.u * (M ^ 2 / γ)) * (9 / 10 * γ) ≤ 253 / 10 * (R.u * (M ^ 2 / γ)) * |A| :=
      mul_le_mul_of_nonneg_left hA (mul_nonneg (by norm_num) (mul_nonneg R.u_nonneg (div_nonneg hM2 hγ.le)))
    have e : 253 / 10 * (R.u * (M ^ 2 / γ)) * (9 / 10 * γ) = 2277 / 100 * (R.u * M ^ 2) := by field_simp; ring
    linarith
  have q2 : |v * (v3 - A) / (v3 * A)| ≤ 23 / 2 * (R.u * (M ^ 3 / γ ^ 2)) := by
    rw [abs_div, div_le_iff₀ (abs_pos.2 (mul_ne_zero hv0 hA0)), abs_mul, abs_mul, abs_sub_comm]
    have l := mul_le_mul p2 m3 (abs_nonneg _) (by positivity)
    have l2 : γ * (9 / 10 * γ) ≤ |v3| * |A| := mul_le_mul hg hA (by positivity) (abs_nonneg _)
    have l3 := mul_le_mul_of_nonneg_left l2 (mul_nonneg (by norm_num : (0 : ℚ) ≤ 23 / 2) (mul_nonneg R.u_nonneg (by linarith : 0 ≤ M ^ 3 / γ ^ 2)))
    have e : 23 / 2 * (R.u * (M ^ 3 / γ ^ 2)) * (γ * (9 / 10 * γ)) = 9 / 4 * M ^ 2 * (46 / 10 * (R.u * M)) := by field_simp; ring
    linarith
  have q3 := mul_le_mul_of_nonneg_left r2 R.u_nonneg
  have q4 : |P / A - v / v3| ≤ 368 / 10 * (R.u * (M ^ 3 / γ ^ 2)) := by
    rw [q0]
    refine (abs_add_le _ _).trans ?_
    linarith
  have q5 : |v / v3| ≤ 9 / 4 * (M ^ 3 / γ ^ 2) := by
    refine le_trans ?_ (mul_le_mul_of_nonneg_left r2 (by norm_num))
    rw [abs_div, div_le_iff₀ (abs_pos.2 hv0)]
    have : 9 / 4 * (M ^ 2 / γ) * γ ≤ 9 / 4 * (M ^ 2 / γ) * |v3| := mul_le_mul_of_nonneg_left hg (by positivity)
    have e : 9 / 4 * (M ^ 2 / γ) * γ = 9 / 4 * M ^ 2 := by field_simp
    linarith
  obtain ⟨z1, z2, z3, z4⟩ := unit_le R r3
  generalize M ^ 3 / γ ^ 2 = K at *
  have q6 := fl_near R q4 q5
  rw [show 368 / 10 * (R.u * K) + R.u * (9 / 4 * K + 368 / 10 * (R.u * K)) = 3905 / 100 * (R.u * K) + 368 / 10 * (R.u * (R.u * K)) by ring] at q6
  have q7 : |R.fl (P / A) - v / v3| ≤ 395 / 10 * (R.u * K) := by linarith
  have w : |1 / 2 - v / v3| ≤ 11 / 4 * K := by
    have := abs_sub (1 / 2 : ℚ) (v / v3)
    rw [abs_of_pos (by norm_num : (0 : ℚ) < 1 / 2)] at this
    linarith
  have q8 := fl_near R (move _ _ _ q7) w
  rw [show 395 / 10 * (R.u * K) + R.u * (11 / 4 * K + 395 / 10 * (R.u * K)) = 4225 / 100 * (R.u * K) + 395 / 10 * (R.u * (R.u * K)) by ring] at q8
  exact ⟨hA0, by linarith, by linarith⟩

/-- A parameter of an adjusted mask: rounding error and size. -/
def Param (R : Rounding) (K p' p : ℚ) : Prop := |p' - p| ≤ 45 * (R.u * K) ∧ |p| ≤ 3 * K

theorem corner (R : Rounding) {K p p' : ℚ} (hK : 1 ≤ K) (h : Param R K p' p) :
    |p' - p| ≤ 50 * (R.u * K) ∧ |-p' - -p| ≤ 50 * (R.u * K) ∧ |R.fl (1 - p') - (1 - p)| ≤ 50 * (R.u * K) ∧
      |R.fl (1 + p') - (1 + p)| ≤ 50 * (R.u * K) := by
  obtain ⟨h1, h2⟩ := h
  obtain ⟨z1, z2, z3, z4⟩ := unit_le R hK
  have a1 : |(1 - p') - (1 - p)| ≤ 45 * (R.u * K) := by rw [show (1 - p') - (1 - p) = -(p' - p) by ring, abs_neg]; exact h1
  have a2 : |(1 + p') - (1 + p)| ≤ 45 * (R.u * K) := by rw [show (1 + p') - (1 + p) = p' - p by ring]; exact h1
  have b1 : |1 - p| ≤ 4 * K := by
    have := abs_sub (1 : ℚ) p
    rw [abs_one] at this
    linarith
  have b2 : |1 + p| ≤ 4 * K := by
    have := abs_add_le (1 : ℚ) p
    rw [abs_one] at this
    linarith
  have c1 := fl_near R a1 b1
  have c2 := fl_near R a2 b2
  rw [show 45 * (R.u * K) + R.u * (4 * K + 45 * (R.u * K)) = 49 * (R.u * K) + 45 * (R.u * (R.u * K)) by ring] at c1 c2
  refine ⟨by linarith, ?_, by linarith, by linarith⟩
  rw [show -p' - -p = -(p' - p) by ring, abs_neg]
  linarith

theorem corner_size {R : Rounding} {K p p' : ℚ} (hK : 1 ≤ K) (h : Param R K p' p) : |p| ≤ 4 * K ∧ |-p| ≤ 4 * K ∧ |1 - p| ≤ 4 * K ∧ |1 + p| ≤ 4 * K := by
  obtain ⟨h1, h2⟩ := h
  have b1 := abs_sub (1 : ℚ) p
  have b2 := abs_add_le (1 : ℚ) p
  rw [abs_one] at b1 b2
  rw [abs_neg]
  exact ⟨by linarith, by linarith, by linarith, by linarith⟩

/-! ### Conversion -/

theorem convertUnit_near (R : Rounding) (q : Qty) (unit : ℚ) :
    (convertUnit q unit = .error .zeroDivision ∧ convertUnitF R q unit = .error .zeroDivision) ∨
    ∃ x x', convertUnit q unit = .ok x ∧ convertUnitF R q unit = .ok x' ∧ |x'.v - x.v| ≤ R.u * |x.v| := by
  unfold convertUnit convertUnitF
  by_cases h : q.real
  · rw [if_pos h, if_pos h]
    by_cases hu : unit = 0
    · rw [if_pos hu, if_pos hu]
      exact .inl ⟨rfl, rfl⟩
    · rw [if_neg hu, if_neg hu]
      exact .inr ⟨_, _, rfl, rfl, R.err _⟩
  · rw [if_neg h, if_neg h]
    refine .inr ⟨_, _, rfl, rfl, ?_⟩
    rw [sub_self, abs_zero]
    exact mul_nonneg R.u_nonneg (abs_nonneg _)

theorem plain_param (R : Rounding) {M x x' : ℚ} (hM : 1 ≤ M) (h : |x' - x| ≤ R.u * |x|) (hx : |x| ≤ M) : |x' - x| ≤ 3 * (R.u * M) := by
  have := mul_le_mul_of_nonneg_left hx R.u_nonneg
  linarith [(unit_le R hM).1]

theorem flip_param (R : Rounding) {M x x' y y' : ℚ} (hM : 1 ≤ M) (h : |x' - x| ≤ R.u * |x|) (hy : |y| ≤ M)
    (e : (y = 1 / 2 - x ∧ y' = R.fl (1 / 2 - x')) ∨ (y = x - 1 / 2 ∧ y' = R.fl (x' - 1 / 2))) : |y' - y| ≤ 3 * (R.u * M) := by
  obtain ⟨u1, u2, u3, u4⟩ := unit_le R hM
  have hx : |x| ≤ 3 / 2 * M := by
    rw [abs_le] at hy ⊢
    rcases e with ⟨rfl, -⟩ | ⟨rfl, -⟩ <;> constructor <;> linarith
  have h' : |x' - x| ≤ 3 / 2 * (R.u * M) := by
    have := mul_le_mul_of_nonneg_left hx R.u_nonneg
    linarith
  have key : ∀ z : ℚ, |z - y| ≤ 3 / 2 * (R.u * M) → |R.fl z - y| ≤ 3 * (R.u * M) := by
    intro z hz
    have := fl_near R hz hy
    rw [show 3 / 2 * (R.u * M) + R.u * (M + 3 / 2 * (R.u * M)) = 5 / 2 * (R.u * M) + 3 / 2 * (R.u * (R.u * M)) by ring] at this
    linarith
  rcases e with ⟨rfl, rfl⟩ | ⟨rfl, rfl⟩
  · refine key _ ?_
    rw [show 1 / 2 - x' - (1 / 2 - x) = -(x' - x) by ring, abs_neg]
    exact h'
  · refine key _ ?_
    rw [show x' - 1 / 2 - (x - 1 / 2) = x' - x by ring]
    exact h'

/-- **C112 (conversion, hexagon).** In floats `convert_mixed_units` fails exactly when it does in exact arithmetic, with the same exception, and otherwise
every parameter is off by no more than three roundings of the largest one. -/
theorem C112_convert_hexagon (R : Rounding) (m : Hexagon) (ua ui : ℚ) :
    (∀ e, hexConvertF R m ua ui = .error e ↔ m.convert ua ui = .error e) ∧
    ∀ c M, m.convert ua ui = .ok c → 1 ≤ M → HexWithin M c → ∃ c', hexConvertF R m ua ui = .ok c' ∧ NearHex (3 * (R.u * M)) c' c := by
  unfold Hexagon.convert hexConvertF
  simp only [bind, Except.bind, pure, Except.pure]
  rcases convertUnit_near R m.x1 ui with ⟨e1, e1'⟩ | ⟨x1, x1', e1, e1', n1⟩
  · rw [e1, e1']; simp
  rcases convertUnit_near R m.x2 ui with ⟨e2, e2'⟩ | ⟨x2, x2', e2, e2', n2⟩
  · rw [e1, e1', e2, e2']; simp
  rcases convertUnit_near R m.y1 ua with ⟨e3, e3'⟩ | ⟨y1, y1', e3, e3', n3⟩
  · rw [e1, e1', e2, e2', e3, e3']; simp
  rcases convertUnit_near R m.yl ua with ⟨e4, e4'⟩ | ⟨yl, yl', e4, e4', n4⟩
  · rw [e1, e1', e2, e2', e3, e3', e4, e4']; simp
  rcases convertUnit_near R m.yu ua with ⟨e5, e5'⟩ | ⟨yu, yu', e5, e5', n5⟩
  · rw [e1, e1', e2, e2', e3, e3', e4, e4', e5, e5']; simp
  rw [e1, e1', e2, e2', e3, e3', e4, e4', e5, e5']
  simp only
  by_cases hz : m.zeroRef
  · rw [if_pos hz, if_pos hz]
    refine ⟨by simp, ?_⟩
    rintro c M hc hM ⟨w1, w2, w3, w4, w5⟩
    obtain rfl := Except.ok.inj hc
    exact ⟨_, rfl, plain_param R hM n1 w1, plain_param R hM n2 w2, plain_param R hM n3 w3, plain_param R hM n4 w4, plain_param R hM n5 w5, rfl, rfl⟩
  · rw [if_neg hz, if_neg hz]
    refine ⟨by simp, ?_⟩
    rintro c M hc hM ⟨w1, w2, w3, w4, w5⟩
    obtain rfl := Except.ok.inj hc
    exact ⟨_, rfl, plain_param R hM n1 w1, plain_param R hM n2 w2, flip_param R hM n3 w3 (.inl ⟨rfl, rfl⟩), flip_param R hM n4 w4 (.inr ⟨rfl, rfl⟩),
      flip_param R hM n5 w5 (.inr ⟨rfl, rfl⟩), rfl, rfl⟩

/-- **C112 (conversion, decagon).** The same for decagons. -/
theorem C112_convert_decagon (R : Rounding) (m : Decagon) (ua ui : ℚ) :
    (∀ e, decConvertF R m ua ui = .error e ↔ m.convert ua ui = .error e) ∧
    ∀ c M, m.convert ua ui = .ok c → 1 ≤ M → DecWithin M c → ∃ c', decConvertF R m ua ui = .ok c' ∧ NearDec (3 * (R.u * M)) c' c := by
  unfold Decagon.convert decConvertF
  simp only [bind, Except.bind, pure, Except.pure]
  rcases convertUnit_near R m.x1 ui with ⟨e1, e1'⟩ | ⟨x1, x1', e1, e1', n1⟩
  · rw [e1, e1']; simp
  rcases convertUnit_near R m.x2 ui with ⟨e2, e2'⟩ | ⟨x2, x2', e2, e2', n2⟩
  · rw [e1, e1', e2, e2']; simp
  rcases convertUnit_near R m.x3 ui with ⟨e3, e3'⟩ | ⟨x3, x3', e3, e3', n3⟩
  · rw [e1, e1', e2, e2', e3, e3']; simp
  rcases convertUnit_near R m.y1 ua with ⟨e4, e4'⟩ | ⟨y1, y1', e4, e4', n4⟩
  · rw [e1, e1', e2, e2', e3, e3', e4, e4']; simp
  rcases convertUnit_near R m.y2 ua with ⟨e5, e5'⟩ | ⟨y2, y2', e5, e5', n5⟩
  · rw [e1, e1', e2, e2', e3, e3', e4, e4', e5, e5']; simp
  rcases convertUnit_near R m.yl ua with ⟨e6, e6'⟩ | ⟨yl, yl', e6, e6', n6⟩
  · rw [e1, e1', e2, e2', e3, e3', e4, e4', e5, e5', e6, e6']; simp
  rcases convertUnit_near R m.yu ua with ⟨e7, e7'⟩ | ⟨yu, yu', e7, e7', n7⟩
  · rw [e1, e1', e2, e2', e3, e3', e4, e4', e5, e5', e6, e6', e7, e7']; simp
  rw [e1, e1', e2, e2', e3, e3', e4, e4', e5, e5', e6, e6', e7, e7']
  simp only
  by_cases hz : m.zeroRef
  · rw [if_pos hz, if_pos hz]
    refine ⟨by simp, ?_⟩
    rintro c M hc hM ⟨w1, w2, w3, w4, w5, w6, w7⟩
    obtain rfl := Except.ok.inj hc
    exact ⟨_, rfl, plain_param R hM n1 w1, plain_param R hM n2 w2, plain_param R hM n3 w3, plain_param R hM n4 w4, plain_param R hM n5 w5,
      plain_param R hM n6 w6, plain_param R hM n7 w7, rfl, rfl⟩
  · rw [if_neg hz, if_neg hz]
    refine ⟨by simp, ?_⟩
    rintro c M hc hM ⟨w1, w2, w3, w4, w5, w6, w7⟩
    obtain rfl := Except.ok.inj hc
    exact ⟨_, rfl, plain_param R hM n1 w1, plain_param R hM n2 w2, plain_param R hM n3 w3, flip_param R hM n4 w4 (.inl ⟨rfl, rfl⟩),
      flip_param R hM n5 w5 (.inl ⟨rfl, rfl⟩), flip_param R hM n6 w6 (.inr ⟨rfl, rfl⟩), flip_param R hM n7 w7 (.inr ⟨rfl, rfl⟩), rfl, rfl⟩

/-! ### Adjustment -/

theorem small_param (R : Rounding) {M γ p p' : ℚ} (hM : 1 ≤ M) (hγ : 0 < γ) (hγ1 : γ ≤ 1) (h : |p' - p| ≤ 10 * (R.u * M)) (hp : |p| ≤ 3 / 2 * M) :
    Param R (M ^ 3 / γ ^ 2) p' p := by
  obtain ⟨r1, r2, r3, r4⟩ := ratio_le hM hγ hγ1
  have := mul_le_mul_of_nonneg_left r4 R.u_nonneg
  have h0 := (unit_le R hM).1
  exact ⟨by linarith, by linarith⟩

theorem margin_near (R : Rounding) {f : ℚ} (hf : -1 ≤ f ∧ f ≤ 1) : |R.fl f - f| ≤ R.u := by
  have h1 := R.err f
  have h2 := mul_le_mul_of_nonneg_left (abs_le.2 hf) R.u_nonneg
  linarith

theorem hexAdjustF_near (R : Rounding) (c c' : Hexagon) (M γ f : ℚ) (hM : 1 ≤ M) (hγ : 0 < γ) (hγ1 : γ ≤ 1) (hu : 50 * (R.u * M) ≤ γ)
    (hn : NearHex (3 * (R.u * M)) c' c) (hw : HexWithin M c) (hg : γ ≤ |1 / 2 - c.x1.v|) (hf : -1 ≤ f ∧ f ≤ 1) :
    ∃ a a', c.adjust f = .ok a ∧ hexAdjustF R c' (R.fl f) = .ok a' ∧ a.converted = c.converted ∧ a'.converted = c'.converted ∧
      Param R (M ^ 3 / γ ^ 2) a'.x1.v a.x1.v ∧ Param R (M ^ 3 / γ ^ 2) a'.x2.v a.x2.v ∧ Param R (M ^ 3 / γ ^ 2) a'.y1.v a.y1.v ∧
      Param R (M ^ 3 / γ ^ 2) a'.yl.v a.yl.v ∧ Param R (M ^ 3 / γ ^ 2) a'.yu.v a.yu.v := by
  obtain ⟨w1, w2, w3, w4, w5⟩ := hw
  have hm := margin_near R hf
  have u1 := (unit_le R hM).1
  unfold Hexagon.adjust hexAdjustF
  by_cases h : 0 < f
  · have hf' : 0 ≤ f ∧ f ≤ 1 := ⟨h.le, hf.2⟩
    have s := fun {p p' : ℚ} (hp : |p| ≤ M) (hp' : |p' - p| ≤ 3 * (R.u * M)) => scaledF_near R hM hf' hm hp hp'
    have P := proportionalF_near R hM hγ hγ1 hu (scaled_le hf' w1) (s w1 hn.x1) w2 hn.x2 w1 hn.x1 hg
    have hne : 1 / 2 - c.x1.v ≠ 0 := by
      intro e
      rw [e, abs_zero] at hg
      linarith
    have S := fun {p p' : ℚ} (hp : |p| ≤ M) (hp' : |p' - p| ≤ 3 * (R.u * M)) =>
      small_param R hM hγ hγ1 (show |scaledF R (R.fl f) p' - (1 - f) * p| ≤ 10 * (R.u * M) by linarith [s hp hp'])
        (show |(1 - f) * p| ≤ 3 / 2 * M by linarith [scaled_le hf' hp])
    rw [if_pos h, if_pos ((fl_pos R).2 h)]
    simp only
    rw [if_neg hne, if_neg P.1]
    exact ⟨_, _, rfl, rfl, rfl, rfl, S w1 hn.x1, P.2, S w3 hn.y1, S w4 hn.yl, S w5 hn.yu⟩
  · have hf' : 0 ≤ -f ∧ -f ≤ 1 := ⟨by linarith, by linarith⟩
    have hm' : |(-R.fl f) - (-f)| ≤ R.u := by rw [show (-R.fl f) - (-f) = -(R.fl f - f) by ring, abs_neg]; exact hm
    have S := fun {q q' : Qty} (hp : |q.v| ≤ M) (hp' : |q'.v - q.v| ≤ 3 * (R.u * M)) =>
      let t := towardsF_near R hM hf' hm' hp hp'
      small_param R hM hγ hγ1 t.1 t.2
    rw [if_neg h, if_neg (fun h' => h ((fl_pos R).1 h'))]
    exact ⟨_, _, rfl, rfl, rfl, rfl, S w1 hn.x1, S w2 hn.x2, S w3 hn.y1, S w4 hn.yl, S w5 hn.yu⟩

theorem decAdjustF_near (R : Rounding) (c c' : Decagon) (M γ f : ℚ) (hM : 1 ≤ M) (hγ : 0 < γ) (hγ1 : γ ≤ 1) (hu : 50 * (R.u * M) ≤ γ)
    (hn : NearDec (3 * (R.u * M)) c' c) (hw : DecWithin M c) (hg : γ ≤ |1 / 2 - c.x1.v|) (hg' : γ ≤ |1 / 2 - c.y1.v|) (hf : -1 ≤ f ∧ f ≤ 1) :
    ∃ a a', c.adjust f = .ok a ∧ decAdjustF R c' (R.fl f) = .ok a' ∧ a.converted = c.converted ∧ a'.converted = c'.converted ∧
      Param R (M ^ 3 / γ ^ 2) a'.x1.v a.x1.v ∧ Param R (M ^ 3 / γ ^ 2) a'.x2.v a.x2.v ∧ Param R (M ^ 3 / γ ^ 2) a'.x3.v a.x3.v ∧
      Param R (M ^ 3 / γ ^ 2) a'.y1.v a.y1.v ∧ Param R (M ^ 3 / γ ^ 2) a'.y2.v a.y2.v ∧
      Param R (M ^ 3 / γ ^ 2) a'.yl.v a.yl.v ∧ Param R (M ^ 3 / γ ^ 2) a'.yu.v a.yu.v := by
  obtain ⟨w1, w2, w3, w4, w5, w6, w7⟩ := hw
  have hm := margin_near R hf
  have u1 := (unit_le R hM).1
  unfold Decagon.adjust decAdjustF
  by_cases h : 0 < f
  · have hf' : 0 ≤ f ∧ f ≤ 1 := ⟨h.le, hf.2⟩
    have s := fun {p p' : ℚ} (hp : |p| ≤ M) (hp' : |p' - p| ≤ 3 * (R.u * M)) => scaledF_near R hM hf' hm hp hp'
    have P2 := proportionalF_near R hM hγ hγ1 hu (scaled_le hf' w1) (s w1 hn.x1) w2 hn.x2 w1 hn.x1 hg
    have P3 := proportionalF_near R hM hγ hγ1 hu (scaled_le hf' w1) (s w1 hn.x1) w3 hn.x3 w1 hn.x1 hg
    have Q := proportionalF_near R hM hγ hγ1 hu (scaled_le hf' w4) (s w4 hn.y1) w5 hn.y2 w4 hn.y1 hg'
    have hne : 1 / 2 - c.x1.v ≠ 0 := by
      intro e
      rw [e, abs_zero] at hg
      linarith
    have hne' : 1 / 2 - c.y1.v ≠ 0 := by
      intro e
      rw [e, abs_zero] at hg'
      linarith
    have S := fun {p p' : ℚ} (hp : |p| ≤ M) (hp' : |p' - p| ≤ 3 * (R.u * M)) =>
      small_param R hM hγ hγ1 (show |scaledF R (R.fl f) p' - (1 - f) * p| ≤ 10 * (R.u * M) by linarith [s hp hp'])
        (show |(1 - f) * p| ≤ 3 / 2 * M by linarith [scaled_le hf' hp])
    rw [if_pos h, if_pos ((fl_pos R).2 h)]
    simp only
    rw [if_neg (by simp only [not_or]; exact ⟨hne, hne'⟩), if_neg (by simp only [not_or]; exact ⟨P2.1, Q.1⟩)]
    exact ⟨_, _, rfl, rfl, rfl, rfl, S w1 hn.x1, P2.2, P3.2, S w4 hn.y1, Q.2, S w6 hn.yl, S w7 hn.yu⟩
  · have hf' : 0 ≤ -f ∧ -f ≤ 1 := ⟨by linarith, by linarith⟩
    have hm' : |(-R.fl f) - (-f)| ≤ R.u := by rw [show (-R.fl f) - (-f) = -(R.fl f - f) by ring, abs_neg]; exact hm
    have S := fun {q q' : Qty} (hp : |q.v| ≤ M) (hp' : |q'.v - q.v| ≤ 3 * (R.u * M)) =>
      let t := towardsF_near R hM hf' hm' hp hp'
      small_param R hM hγ hγ1 t.1 t.2
    rw [if_neg h, if_neg (fun h' => h ((fl_pos R).1 h'))]
    exact ⟨_, _, rfl, rfl, rfl, rfl, S w1 hn.x1, S w2 hn.x2, S w3 hn.x3, S w4 hn.y1, S w5 hn.y2, S w6 hn.yl, S w7 hn.yu⟩

/-- No coordinate of the corners is larger than `B`. -/
def PathsWithin (B : ℚ) (P : List (List Pt)) : Prop := ∀ path ∈ P, ∀ p ∈ path, |p.1| ≤ B ∧ |p.2| ≤ B

/-- **C112 (adjustment, hexagon).** A mask in unit intervals and amplitudes, known up to the error of the conversion, with parameters of at most
`M ≥ 1` and its first corner at least `γ ≤ 1` away from the middle: at every margin from -1 to 1 it can be adjusted in floats, and its corners are
off by no more than 50 roundings of `M³ / γ²`. -/
theorem C112_adjust_hexagon (R : Rounding) (c c' : Hexagon) (M γ f : ℚ) (hM : 1 ≤ M) (hγ : 0 < γ) (hγ1 : γ ≤ 1) (hu : 50 * (R.u * M) ≤ γ)
    (hc : c.converted = true) (hn : NearHex (3 * (R.u * M)) c' c) (hw : HexWithin M c) (hg : γ ≤ |1 / 2 - c.x1.v|) (hf : -1 ≤ f ∧ f ≤ 1) :
    ∃ a P a' P', c.adjust f = .ok a ∧ a.paths = .ok P ∧ hexAdjustF R c' (R.fl f) = .ok a' ∧ hexPathsF R a' = .ok P' ∧
      NearPaths (50 * (R.u * (M ^ 3 / γ ^ 2))) P' P ∧ PathsWithin (4 * (M ^ 3 / γ ^ 2)) P := by
  obtain ⟨a, a', e, e', h1, h2, p1, p2, p3, p4, p5⟩ := hexAdjustF_near R c c' M γ f hM hγ hγ1 hu hn hw hg hf
  have hK := (ratio_le hM hγ hγ1).2.2.1
  generalize M ^ 3 / γ ^ 2 = K at *
  have hc' : a.converted = true := by rw [h1, hc]
  have hc'' : a'.converted = true := by rw [h2, hn.converted, hc]
  refine ⟨a, _, a', _, e, by rw [Hexagon.paths, if_pos hc'], e', by rw [hexPathsF, if_pos hc''], ?_, ?_⟩
  · have z : ∀ x : ℚ, |x - x| ≤ 50 * (R.u * K) := by
      intro x
      rw [sub_self, abs_zero]
      linarith [(unit_le R hK).1]
    have q1 := corner R hK p1
    have q2 := corner R hK p2
    have q3 := corner R hK p3
    have q4 := corner R hK p4
    have q5 := corner R hK p5
    simp only [NearPaths, hexCenterF, Hexagon.center, pathUpperF, pathUpper, pathLower, List.forall₂_cons, Near, z, q1, q2, q3, q4, q5,
      List.Forall₂.nil, and_self]
  · have q1 := corner_size hK p1
    have q2 := corner_size hK p2
    have q3 := corner_size hK p3
    have q4 := corner_size hK p4
    have q5 := corner_size hK p5
    have n0 : |(0 : ℚ)| ≤ 4 * K := by rw [abs_zero]; linarith
    have n1 : |(1 : ℚ)| ≤ 4 * K := by rw [abs_one]; linarith
    have n2 : |(2 : ℚ)| ≤ 4 * K := by rw [abs_two]; linarith
    have n3 : |(1 / 2 : ℚ)| ≤ 4 * K := by rw [abs_of_pos (by norm_num)]; linarith
    have n4 : |(-1 : ℚ)| ≤ 4 * K := by rw [abs_neg, abs_one]; linarith
    simp only [PathsWithin, Hexagon.center, pathUpper, pathLower, List.forall_mem_cons, q1, q2, q3, q4, q5, n0, n1, n2, n3, n4, and_self,
      List.not_mem_nil, IsEmpty.forall_iff, implies_true]

/-- **C112 (adjustment, decagon).** The same for decagons, whose first horizontal edge is at least `γ` away from the middle, too. -/
theorem C112_adjust_decagon (R : Rounding) (c c' : Decagon) (M γ f : ℚ) (hM : 1 ≤ M) (hγ : 0 < γ) (hγ1 : γ ≤ 1) (hu : 50 * (R.u * M) ≤ γ)
    (hc : c.converted = true) (hn : NearDec (3 * (R.u * M)) c' c) (hw : DecWithin M c) (hg : γ ≤ |1 / 2 - c.x1.v|) (hg' : γ ≤ |1 / 2 - c.y1.v|)
    (hf : -1 ≤ f ∧ f ≤ 1) :
    ∃ a P a' P', c.adjust f = .ok a ∧ a.paths = .ok P ∧ decAdjustF R c' (R.fl f) = .ok a' ∧ decPathsF R a' = .ok P' ∧
      NearPaths (50 * (R.u * (M ^ 3 / γ ^ 2))) P' P ∧ PathsWithin (4 * (M ^ 3 / γ ^ 2)) P := by
  obtain ⟨a, a', e, e', h1, h2, p1, p2, p3, p4, p5, p6, p7⟩ := decAdjustF_near R c c' M γ f hM hγ hγ1 hu hn hw hg hg' hf
  have hK := (ratio_le hM hγ hγ1).2.2.1
  generalize M ^ 3 / γ ^ 2 = K at *
  have hc' : a.converted = true := by rw [h1, hc]
  have hc'' : a'.converted = true := by rw [h2, hn.converted, hc]
  refine ⟨a, _, a', _, e, by rw [Decagon.paths, if_pos hc'], e', by rw [decPathsF, if_pos hc''], ?_, ?_⟩
  · have z : ∀ x : ℚ, |x - x| ≤ 50 * (R.u * K) := by
      intro x
      rw [sub_self, abs_zero]
      linarith [(unit_le R hK).1]
    have q1 := corner R hK p1
    have q2 := corner R hK p2
    have q3 := corner R hK p3
    have q4 := corner R hK p4
    have q5 := corner R hK p5
    have q6 := corner R hK p6
    have q7 := corner R hK p7
    simp only [NearPaths, decCenterF, Decagon.center, pathUpperF, pathUpper, pathLower, List.forall₂_cons, Near, z, q1, q2, q3, q4, q5, q6, q7,
      List.Forall₂.nil, and_self]
  · have q1 := corner_size hK p1
    have q2 := corner_size hK p2
    have q3 := corner_size hK p3
    have q4 := corner_size hK p4
    have q5 := corner_size hK p5
    have q6 := corner_size hK p6
    have q7 := corner_size hK p7
    have n0 : |(0 : ℚ)| ≤ 4 * K := by rw [abs_zero]; linarith
    have n1 : |(1 : ℚ)| ≤ 4 * K := by rw [abs_one]; linarith
    have n2 : |(2 : ℚ)| ≤ 4 * K := by rw [abs_two]; linarith
    have n3 : |(1 / 2 : ℚ)| ≤ 4 * K := by rw [abs_of_pos (by norm_num)]; linarith
    have n4 : |(-1 : ℚ)| ≤ 4 * K := by rw [abs_neg, abs_one]; linarith
    simp only [PathsWithin, Decagon.center, pathUpper, pathLower, List.forall_mem_cons, q1, q2, q3, q4, q5, q6, q7, n0, n1, n2, n3, n4, and_self,
      List.not_mem_nil, IsEmpty.forall_iff, implies_true]

end Verif.Props.FloatMask
