import Verif.Model.FloatLine2D
import Verif.Props.Float
import Verif.Props.FloatMask
import Verif.Props.Line2D
import Mathlib.Algebra.Order.Archimedean.Basic

/-!
C114: `Point2D` and `Line2D` in double precision.
-/

namespace Verif.Props.FloatLine2D

open Verif Verif.Float Verif.Props.Float Verif.Props.FloatMask Verif.Line2D Verif.Props.Line2D

/-! ### Specification -/

/-- Twice the signed area of the triangle: positive iff `p`, `q`, `r` turn clockwise, 0 iff they are collinear. -/
def turn (p q r : PointQ) : ℚ := (q.y - p.y) * (r.x - q.x) - (q.x - p.x) * (r.y - q.y)

/-- The two areas whose difference is `turn`, added up: what the rounding errors scale with. -/
def spread (p q r : PointQ) : ℚ := |q.y - p.y| * |r.x - q.x| + |q.x - p.x| * |r.y - q.y|

/-- The product of the squared distances from the origin. -/
def size (p q r : PointQ) : ℚ := (p.x ^ 2 + p.y ^ 2) * (q.x ^ 2 + q.y ^ 2) * (r.x ^ 2 + r.y ^ 2)

/-- Away from the origin. -/
def Off (p : PointQ) : Prop := ¬ (p.x = 0 ∧ p.y = 0)

/-- The point of the plane with these coordinates. -/
noncomputable def pt (p : PointQ) : Point := ⟨(p.x : ℝ), (p.y : ℝ)⟩

/-- Rounding does not blur the turn of the three points: they are collinear and not too far apart, compared to their distances from
the origin, or the turn exceeds the tolerance (21 half units of precision of the cube root of `size`) and the rounding errors. -/
def Clear (R : Rounding) (p q r : PointQ) : Prop :=
  (turn p q r = 0 ∧ spread p q r ^ 3 ≤ 50 * size p q r) ∨
  (5 * R.u * spread p q r ≤ |turn p q r| ∧ (21 / 2 ^ 53) ^ 3 * size p q r ≤ (|turn p q r| - 5 * R.u * spread p q r) ^ 3)

/-- `z` is on the line through `p` and `q`. -/
def On (p q z : PointQ) : Prop := ∃ s : ℚ, z.x = p.x + s * (q.x - p.x) ∧ z.y = p.y + s * (q.y - p.y)

/-- The area spanned by the directions of two lines: 0 iff they are parallel. -/
def cross (a b p q : PointQ) : ℚ := (b.x - a.x) * (q.y - p.y) - (b.y - a.y) * (q.x - p.x)

/-- The coordinates of the point are at most `M`. -/
def Within (M : ℚ) (p : PointQ) : Prop := |p.x| ≤ M ∧ |p.y| ≤ M

/-- There are such powers in doubles. -/
example : Nonempty (Powers double) := by
  have h : ∀ x : ℚ, ∃ r : ℚ, (x = 0 → r = 0) ∧ (0 ≤ x → 0 ≤ r ∧ |r ^ 3 - x| ≤ 600 * double.u * x) := by
    intro x
    by_cases hx : 0 < x
    · have hu : 0 < double.u := by norm_num [double]
      obtain ⟨r, h0, h1, h2⟩ := exists_rat_pow_btwn (n := 3) (by norm_num) (x := x) (y := x + 600 * double.u * x) (by nlinarith) (by nlinarith)
      refine ⟨r, fun h => absurd h hx.ne', fun _ => ⟨h0.le, ?_⟩⟩
      simp only [Rat.cast_id] at h1 h2
      rw [abs_le]; constructor <;> linarith
    · refine ⟨0, fun _ => rfl, fun h => ⟨le_rfl, ?_⟩⟩
      have : x = 0 := le_antisymm (not_lt.1 hx) h
      subst this; norm_num
  choose f hf using h
  exact ⟨{ square := fun x => x ^ 2, root := f, square_err := fun x => by rw [sub_self, abs_zero]; have := double.u_nonneg; positivity
           root_zero := (hf 0).1 rfl, root_nonneg := fun x hx => ((hf x).2 hx).1, root_err := fun x hx => ((hf x).2 hx).2 }⟩

/-! ### Orientation -/

theorem prod_near (R : Rounding) (a b : ℚ) : |R.fl (R.fl a * R.fl b) - a * b| ≤ 31 / 10 * R.u * (|a| * |b|) := by
  obtain ⟨δ1, h1, e1⟩ := rel R a
  obtain ⟨δ2, h2, e2⟩ := rel R b
  obtain ⟨δ3, h3, e3⟩ := rel R (R.fl a * R.fl b)
  rw [e3, e1, e2]
  have hu := R.u_nonneg
  have hs := R.u_small
  have s1 : |(1 + δ1) - 1| ≤ 1 * R.u := by simpa using h1
  have s2 := step hu hs (by norm_num) s1 h2
  have s3 := step hu hs (by norm_num) s2 h3
  have e : a * (1 + δ1) * (b * (1 + δ2)) * (1 + δ3) - a * b = (a * b) * ((1 + δ1) * (1 + δ2) * (1 + δ3) - 1) := by ring
  rw [e, abs_mul, abs_mul]
  have := mul_le_mul_of_nonneg_left s3 (mul_nonneg (abs_nonneg a) (abs_nonneg b))
  refine this.trans ?_
  have h0 := mul_nonneg (mul_nonneg (abs_nonneg a) (abs_nonneg b)) hu
  nlinarith

/-- The unrounded difference of the rounded products. -/
def raw (R : Rounding) (p q r : PointQ) : ℚ :=
  R.fl (R.fl (q.y - p.y) * R.fl (r.x - q.x)) - R.fl (R.fl (q.x - p.x) * R.fl (r.y - q.y))

theorem raw_near (R : Rounding) (p q r : PointQ) : |raw R p q r - turn p q r| ≤ 31 / 10 * R.u * spread p q r := by
  have h1 := abs_le.1 (prod_near R (q.y - p.y) (r.x - q.x))
  have h2 := abs_le.1 (prod_near R (q.x - p.x) (r.y - q.y))
  unfold raw turn spread
  rw [mul_add, abs_le]
  constructor <;> linarith [h1.1, h1.2, h2.1, h2.2]

theorem spread_nonneg (p q r : PointQ) : 0 ≤ spread p q r := by unfold spread; positivity

theorem turn_le (p q r : PointQ) : |turn p q r| ≤ spread p q r := by
  unfold turn spread
  rw [← abs_mul, ← abs_mul]
  exact abs_sub _ _

theorem val_near (R : Rounding) (p q r : PointQ) : |orientValF R p q r - turn p q r| ≤ 42 / 10 * R.u * spread p q r := by
  have h := fl_near R (raw_near R p q r) (turn_le p q r)
  refine (show |orientValF R p q r - turn p q r| ≤ _ from h).trans ?_
  have h0 := mul_nonneg R.u_nonneg (spread_nonneg p q r)
  have h1 := mul_le_mul_of_nonneg_right R.u_small h0
  nlinarith

theorem size_pos {p q r : PointQ} (hp : Off p) (hq : Off q) (hr : Off r) : 0 < size p q r := by
  have h : ∀ z : PointQ, Off z → 0 < z.x ^ 2 + z.y ^ 2 := by
    intro z hz
    by_contra hc
    have h1 := sq_nonneg z.x
    have h2 := sq_nonneg z.y
    exact hz ⟨by have : z.x ^ 2 = 0 := by linarith
                 simpa using this, by have : z.y ^ 2 = 0 := by linarith
                                      simpa using this⟩
  exact mul_pos (mul_pos (h p hp) (h q hq)) (h r hr)

/-- One factor of the norm. -/
theorem dist_near (R : Rounding) (W : Powers R) (x y : ℚ) :
    ∃ θ, |θ| ≤ 4 * R.u ∧ R.fl (W.square x + W.square y) = (x ^ 2 + y ^ 2) * (1 + θ) := by
  have h1 := W.square_err x
  have h2 := W.square_err y
  have hn : 0 ≤ x ^ 2 + y ^ 2 := by positivity
  have h3 : |W.square x + W.square y - (x ^ 2 + y ^ 2)| ≤ 2 * R.u * (x ^ 2 + y ^ 2) := by
    rw [abs_le] at h1 h2 ⊢
    constructor <;> linarith [h1.1, h1.2, h2.1, h2.2]
  have h4 := fl_near R h3 (abs_of_nonneg hn).le
  have h5 : |R.fl (W.square x + W.square y) - (x ^ 2 + y ^ 2)| ≤ 4 * R.u * (x ^ 2 + y ^ 2) := by
    refine h4.trans ?_
    have h0 := mul_nonneg R.u_nonneg hn
    have h1 := mul_le_mul_of_nonneg_right R.u_small h0
    nlinarith
  rcases hn.eq_or_lt with h | h
  · rw [← h] at h5 ⊢
    refine ⟨0, by have := R.u_nonneg; simp; positivity, ?_⟩
    have : |R.fl (W.square x + W.square y) - 0| ≤ 0 := by simpa using h5
    simpa using this
  · refine ⟨R.fl (W.square x + W.square y) / (x ^ 2 + y ^ 2) - 1, ?_, by field_simp; ring⟩
    rw [show R.fl (W.square x + W.square y) / (x ^ 2 + y ^ 2) - 1 = (R.fl (W.square x + W.square y) - (x ^ 2 + y ^ 2)) / (x ^ 2 + y ^ 2) by field_simp,
      abs_div, abs_of_pos h, div_le_iff₀ h]
    exact h5

theorem cross_one {a b α β : ℚ} (ha : |a| ≤ α) (hb : |b| ≤ β) : |(1 + a) * (1 + b) - 1| ≤ α + β + α * β := by
  have h1 : (1 + a) * (1 + b) - 1 = a + b + a * b := by ring
  have h2 : |a * b| ≤ α * β := by rw [abs_mul]; exact mul_le_mul ha hb (abs_nonneg _) ((abs_nonneg _).trans ha)
  rw [h1]
  have h3 := abs_add_le (a + b) (a * b)
  have h4 := abs_add_le a b
  linarith

theorem norm_near (R : Rounding) (hu : R.u ≤ 1 / 2 ^ 53) (W : Powers R) {p q r : PointQ} (hp : Off p) (hq : Off q) (hr : Off r) :
    0 < orientNormF R W p q r ∧ |orientNormF R W p q r ^ 3 - size p q r| ≤ 1 / 10 ^ 6 * size p q r := by
  have hS := size_pos hp hq hr
  have hu0 := R.u_nonneg
  have hu' : R.u ≤ 1 / 10 ^ 12 := hu.trans (by norm_num)
  obtain ⟨θ1, t1, e1⟩ := dist_near R W p.x p.y
  obtain ⟨θ2, t2, e2⟩ := dist_near R W q.x q.y
  obtain ⟨θ3, t3, e3⟩ := dist_near R W r.x r.y
  obtain ⟨δ1, d1, f1⟩ := rel R (R.fl (W.square p.x + W.square p.y) * R.fl (W.square q.x + W.square q.y))
  obtain ⟨δ2, d2, f2⟩ := rel R (R.fl (R.fl (W.square p.x + W.square p.y) * R.fl (W.square q.x + W.square q.y)) * R.fl (W.square r.x + W.square r.y))
  unfold orientNormF
  set A := R.fl (R.fl (R.fl (W.square p.x + W.square p.y) * R.fl (W.square q.x + W.square q.y)) * R.fl (W.square r.x + W.square r.y)) with hA
  have hAe : A = size p q r * ((1 + θ1) * (1 + θ2) * (1 + θ3) * (1 + δ1) * (1 + δ2)) := by
    rw [f2, f1, e1, e2, e3]; unfold size; ring
  set κ : ℚ := 1 / 10 ^ 11
  have b : ∀ x : ℚ, |x| ≤ 4 * R.u → |x| ≤ κ := fun x hx => hx.trans (by simp only [κ]; linarith)
  have c1 := cross_one (b _ t1) (b _ t2)
  have c2 := cross_one (a := (1 + θ1) * (1 + θ2) - 1) c1 (b _ t3)
  have c3 := cross_one (a := (1 + ((1 + θ1) * (1 + θ2) - 1)) * (1 + θ3) - 1) c2 (b _ (d1.trans (by linarith)))
  have c4 := cross_one (a := (1 + ((1 + ((1 + θ1) * (1 + θ2) - 1)) * (1 + θ3) - 1)) * (1 + δ1) - 1) c3 (b _ (d2.trans (by linarith)))
  have hAn : |A - size p q r| ≤ 1 / 10 ^ 8 * size p q r := by
    rw [hAe]
    have e : size p q r * ((1 + θ1) * (1 + θ2) * (1 + θ3) * (1 + δ1) * (1 + δ2)) - size p q r =
        size p q r * ((1 + ((1 + ((1 + ((1 + θ1) * (1 + θ2) - 1)) * (1 + θ3) - 1)) * (1 + δ1) - 1)) * (1 + δ2) - 1) := by ring
    rw [e, abs_mul, abs_of_pos hS, mul_comm]
    refine mul_le_mul_of_nonneg_right (c4.trans ?_) hS.le
    simp only [κ]; norm_num
  have hAl := abs_le.1 hAn
  have hA0 : 0 < A := by linarith [hAl.1]
  have hr := W.root_err A hA0.le
  have hr' : |W.root A ^ 3 - A| ≤ 1 / 10 ^ 8 * A := by
    refine hr.trans (mul_le_mul_of_nonneg_right ?_ hA0.le)
    linarith
  have hrl := abs_le.1 hr'
  have hpos : 0 < W.root A ^ 3 := by linarith [hrl.1]
  refine ⟨?_, ?_⟩
  · have h0 := W.root_nonneg A hA0.le
    rcases h0.eq_or_lt with h | h
    · rw [← h] at hpos; norm_num at hpos
    · exact h
  · rw [abs_le]
    constructor <;> linarith [hrl.1, hrl.2, hAl.1, hAl.2]

/-- **C114 (orientation).** In double precision, for three points away from the origin, `Point2D.orientation` does not raise; it never reports the
wrong turn if the turn exceeds the rounding errors (it may report "collinear"), it reports "collinear" if turn and rounding errors
are well below the tolerance, and it reports the turn if that exceeds rounding errors and tolerance. -/
theorem C114_orientation (R : Rounding) (hu : R.u ≤ 1 / 2 ^ 53) (W : Powers R) {p q r : PointQ} (hp : Off p) (hq : Off q) (hr : Off r) :
    ∃ s, orientationF R W p q r = .ok s ∧
      (4 * R.u * spread p q r < |turn p q r| → s = 0 ∨ s = SignType.sign (turn p q r)) ∧
      ((|turn p q r| + 5 * R.u * spread p q r) ^ 3 ≤ (19 / 2 ^ 53) ^ 3 * size p q r → s = 0) ∧
      (5 * R.u * spread p q r ≤ |turn p q r| → (21 / 2 ^ 53) ^ 3 * size p q r ≤ (|turn p q r| - 5 * R.u * spread p q r) ^ 3 →
        s = SignType.sign (turn p q r)) := by
  obtain ⟨hn, hN⟩ := norm_near R hu W hp hq hr
  have hS := size_pos hp hq hr
  have hu0 := R.u_nonneg
  have hsp := spread_nonneg p q r
  have hus := mul_nonneg hu0 hsp
  unfold orientationF
  rw [if_neg hn.ne']
  simp only
  set n := orientNormF R W p q r
  set V := orientValF R p q r with hV
  have hNl := abs_le.1 hN
  have hval := val_near R p q r
  rw [← hV] at hval
  have habs : |V / n| = |V| / n := by rw [abs_div, abs_of_pos hn]
  have herr := R.err (V / n)
  rw [habs] at herr
  have hq0 : 0 ≤ |V| / n := div_nonneg (abs_nonneg _) hn.le
  have hdiff : |(|R.fl (V / n)|) - |V| / n| ≤ 1 / 10 ^ 6 * (|V| / n) := by
    rw [← habs]
    refine (abs_abs_sub_abs_le _ _).trans ?_
    rw [habs]
    refine herr.trans (mul_le_mul_of_nonneg_right (hu.trans (by norm_num)) hq0)
  have hdl := abs_le.1 hdiff
  -- the sign of the computed value
  have hsign : 4 * R.u * spread p q r < |turn p q r| → SignType.sign (R.fl (V / n)) = SignType.sign (turn p q r) := by
    intro h
    have hraw := abs_le.1 (raw_near R p q r)
    have hVr : V = R.fl (raw R p q r) := rfl
    rcases lt_trichotomy (turn p q r) 0 with ht | ht | ht
    · rw [abs_of_neg ht] at h
      have : raw R p q r < 0 := by nlinarith [hraw.1, hraw.2]
      have hV0 : V < 0 := by rw [hVr]; exact (fl_neg R).2 this
      rw [sign_neg ht, sign_neg ((fl_neg R).2 (div_neg_of_neg_of_pos hV0 hn))]
    · rw [ht, abs_zero] at h; nlinarith
    · rw [abs_of_pos ht] at h
      have : 0 < raw R p q r := by nlinarith [hraw.1, hraw.2]
      have hV0 : 0 < V := by rw [hVr]; exact (fl_pos R).2 this
      rw [sign_pos ht, sign_pos ((fl_pos R).2 (div_pos hV0 hn))]
  have hVt := abs_abs_sub_abs_le V (turn p q r)
  have hVt' := abs_le.1 (hVt.trans hval)
  by_cases hc : |R.fl (V / n)| < 10 / 2 ^ 52
  · rw [if_pos hc]
    refine ⟨0, rfl, fun _ => Or.inl rfl, fun _ => rfl, fun h1 h2 => ?_⟩
    exfalso
    have hT : (20 + 1 / 2) / 2 ^ 53 * n < |turn p q r| - 5 * R.u * spread p q r := by
      refine lt_of_pow_lt_pow_left₀ 3 (by linarith) (lt_of_lt_of_le ?_ h2)
      rw [mul_pow]
      have : n ^ 3 ≤ (1 + 1 / 10 ^ 6) * size p q r := by linarith [hNl.2]
      calc ((20 + 1 / 2 : ℚ) / 2 ^ 53) ^ 3 * n ^ 3 ≤ ((20 + 1 / 2 : ℚ) / 2 ^ 53) ^ 3 * ((1 + 1 / 10 ^ 6) * size p q r) :=
            mul_le_mul_of_nonneg_left this (by norm_num)
        _ = (((20 + 1 / 2 : ℚ) / 2 ^ 53) ^ 3 * (1 + 1 / 10 ^ 6)) * size p q r := by ring
        _ < (21 / 2 ^ 53) ^ 3 * size p q r := mul_lt_mul_of_pos_right (by norm_num) hS
    have hV1 : (20 + 1 / 2) / 2 ^ 53 * n < |V| := by linarith [hVt'.1]
    have hV2 : (20 + 1 / 2) / 2 ^ 53 < |V| / n := (lt_div_iff₀ hn).2 hV1
    have : (20:ℚ) / 2 ^ 53 < |R.fl (V / n)| := by
      have := hdl.1
      norm_num at hV2 ⊢
      linarith
    norm_num at this hc
    linarith
  · rw [if_neg hc]
    refine ⟨_, rfl, fun h => Or.inr (hsign h), fun h => ?_, fun h1 h2 => ?_⟩
    · exfalso
      have hT : |turn p q r| + 5 * R.u * spread p q r < (19 + 1 / 2) / 2 ^ 53 * n := by
        refine lt_of_pow_lt_pow_left₀ 3 (by positivity) (lt_of_le_of_lt h ?_)
        rw [mul_pow]
        have : (1 - 1 / 10 ^ 6) * size p q r ≤ n ^ 3 := by linarith [hNl.1]
        calc (19 / 2 ^ 53) ^ 3 * size p q r < (((19 + 1 / 2 : ℚ) / 2 ^ 53) ^ 3 * (1 - 1 / 10 ^ 6)) * size p q r :=
              mul_lt_mul_of_pos_right (by norm_num) hS
          _ = ((19 + 1 / 2 : ℚ) / 2 ^ 53) ^ 3 * ((1 - 1 / 10 ^ 6) * size p q r) := by ring
          _ ≤ _ := mul_le_mul_of_nonneg_left this (by norm_num)
      have hV1 : |V| < (19 + 1 / 2) / 2 ^ 53 * n := by linarith [hVt'.2]
      have hV2 : |V| / n < (19 + 1 / 2) / 2 ^ 53 := (div_lt_iff₀ hn).2 hV1
      apply hc
      have := hdl.2
      norm_num at hV2 ⊢
      linarith
    · apply hsign
      have hpos : 0 < (|turn p q r| - 5 * R.u * spread p q r) ^ 3 := lt_of_lt_of_le (by positivity) h2
      have : 0 < |turn p q r| - 5 * R.u * spread p q r := by
        rcases (sub_nonneg.2 h1).eq_or_lt with h | h
        · rw [← h] at hpos; norm_num at hpos
        · exact h
      nlinarith

/-- The hypotheses are met, in doubles, by a clear turn and by three collinear points. -/
example : Off ⟨1, 1⟩ ∧ Off ⟨3, 3⟩ ∧ Off ⟨1, 3⟩ ∧ Clear double ⟨1, 1⟩ ⟨3, 3⟩ ⟨1, 3⟩ ∧ Clear double ⟨1, 1⟩ ⟨2, 2⟩ ⟨4, 4⟩ ∧
    turn ⟨1, 1⟩ ⟨3, 3⟩ ⟨1, 3⟩ = -4 := by
  refine ⟨by norm_num [Off], by norm_num [Off], by norm_num [Off], Or.inr ?_, Or.inl ?_, by norm_num [turn]⟩ <;>
    norm_num [turn, spread, size, double, abs_of_pos, abs_of_neg]

/-! ### Segments -/

theorem orientation_clear (R : Rounding) (hu : R.u ≤ 1 / 2 ^ 53) (W : Powers R) {p q r : PointQ} (hp : Off p) (hq : Off q) (hr : Off r)
    (h : Clear R p q r) : orientationF R W p q r = .ok (SignType.sign (turn p q r)) := by
  obtain ⟨s, h1, -, h3, h4⟩ := C114_orientation R hu W hp hq hr
  rw [h1]
  rcases h with ⟨h0, h⟩ | ⟨ha, hb⟩
  · rw [h3, h0, sign_zero]
    rw [h0, abs_zero, zero_add, mul_pow]
    have hs := pow_nonneg (spread_nonneg p q r) 3
    have h5 : (5 * R.u) ^ 3 ≤ (5 * (1 / 2 ^ 53)) ^ 3 := pow_le_pow_left₀ (by have := R.u_nonneg; positivity) (by linarith) 3
    have hS := (size_pos hp hq hr).le
    calc (5 * R.u) ^ 3 * spread p q r ^ 3 ≤ (5 * (1 / 2 ^ 53)) ^ 3 * (50 * size p q r) := mul_le_mul h5 h hs (by norm_num)
      _ = ((5 * (1 / 2 ^ 53)) ^ 3 * 50) * size p q r := by ring
      _ ≤ _ := mul_le_mul_of_nonneg_right (by norm_num) hS
  · rw [h4 ha hb]

theorem turn_cast (p q r : PointQ) : orientVal (pt p) (pt q) (pt r) = (turn p q r : ℝ) := by
  unfold orientVal turn pt; push_cast; ring

theorem rect_cast (p q r : PointQ) : (pt p).inRect (pt q) (pt r) ↔ inRectF p q r = true := by
  unfold Point.inRect inRectF pt
  simp only [Bool.and_eq_true, decide_eq_true_eq]
  norm_cast
  tauto

theorem sign_cast (x : ℚ) : SignType.sign (x : ℝ) = SignType.sign x := by
  rcases lt_trichotomy x 0 with h | h | h
  · rw [sign_neg h, sign_neg (by exact_mod_cast h)]
  · rw [h]; simp
  · rw [sign_pos h, sign_pos (by exact_mod_cast h)]

theorem off_cast {p : PointQ} (h : Off p) : NotOrigin (pt p) := by
  rintro ⟨h1, h2⟩
  exact h ⟨by simpa [pt] using h1, by simpa [pt] using h2⟩

/-- Points that rounding does not blur are resolved in exact arithmetic. -/
theorem resolved_cast (R : Rounding) {p q r : PointQ} (hp : Off p) (hq : Off q) (hr : Off r) (h : Clear R p q r) : Resolved (pt p) (pt q) (pt r) := by
  rw [resolved_iff, turn_cast]
  rcases h with ⟨h0, -⟩ | ⟨ha, hb⟩
  · left; rw [h0]; norm_num
  right
  have hS := (size_pos hp hq hr).le
  have hn : orientNorm (pt p) (pt q) (pt r) = (size p q r : ℝ) ^ (1 / 3 : ℝ) := by
    unfold orientNorm size pt; push_cast; rfl
  have hSr : (0:ℝ) ≤ (size p q r : ℝ) := by exact_mod_cast hS
  have hus := mul_nonneg R.u_nonneg (spread_nonneg p q r)
  have h1 : (21 / 2 ^ 53) ^ 3 * size p q r ≤ |turn p q r| ^ 3 :=
    hb.trans (pow_le_pow_left₀ (by linarith) (by linarith) 3)
  have h2 : ((21 / 2 ^ 53) ^ 3 * (size p q r : ℝ)) ≤ |(turn p q r : ℝ)| ^ 3 := by
    have h : (((21 / 2 ^ 53) ^ 3 * size p q r : ℚ) : ℝ) ≤ ((|turn p q r| ^ 3 : ℚ) : ℝ) := Rat.cast_le.2 h1
    push_cast at h
    exact h
  rw [hn]
  refine le_of_pow_le_pow_left₀ (n := 3) (by norm_num) (abs_nonneg _) (le_trans ?_ h2)
  rw [mul_pow, ← Real.rpow_natCast ((size p q r : ℝ) ^ (1 / 3 : ℝ)) 3, ← Real.rpow_mul hSr]
  norm_num [tol]
  exact mul_le_mul_of_nonneg_right (by norm_num) hSr

/-- **C114 (partial: away from the origin and where rounding does not blur the turns).** In double precision `Line2D.intersecting` is true iff the two closed
segments share a point.  Missing: a touching point can be missed if one of the points is much nearer to the origin than
the others (`C114_touching_fails`). -/
theorem C114_intersecting_partial (R : Rounding) (hu : R.u ≤ 1 / 2 ^ 53) (W : Powers R) (a b p q : PointQ) (ha : Off a) (hb : Off b) (hp : Off p)
    (hq : Off q) (r1 : Clear R a b p) (r2 : Clear R a b q) (r3 : Clear R p q a) (r4 : Clear R p q b) :
    ∃ v, intersectingF R W a b p q = .ok v ∧ (v = true ↔ ∃ z, OnSeg (pt a) (pt b) z ∧ OnSeg (pt p) (pt q) z) := by
  have a' := off_cast ha
  have b' := off_cast hb
  have p' := off_cast hp
  have q' := off_cast hq
  have c1 := resolved_cast R ha hb hp r1
  have c2 := resolved_cast R ha hb hq r2
  have c3 := resolved_cast R hp hq ha r3
  have c4 := resolved_cast R hp hq hb r4
  obtain ⟨v, h1, h2⟩ := C11_intersecting_partial (pt a) (pt b) (pt p) (pt q) a' b' p' q' c1 c2 c3 c4
  refine ⟨v, ?_, h2⟩
  rw [← h1]
  unfold intersectingF intersecting
  rw [orientation_clear R hu W ha hb hp r1, orientation_clear R hu W ha hb hq r2, orientation_clear R hu W hp hq ha r3,
    orientation_clear R hu W hp hq hb r4, orientation_eq a' b' p' c1, orientation_eq a' b' q' c2, orientation_eq p' q' a' c3,
    orientation_eq p' q' b' c4]
  simp only [bind, Except.bind, pure, Except.pure, turn_cast, sign_cast, rect_cast]

/-- Two crossing segments, and two that touch, meet the hypotheses in doubles. -/
example : Off ⟨1, 1⟩ ∧ Off ⟨3, 3⟩ ∧ Off ⟨1, 3⟩ ∧ Off ⟨3, 1⟩ ∧ Off ⟨2, 2⟩ ∧
    Clear double ⟨1, 1⟩ ⟨3, 3⟩ ⟨1, 3⟩ ∧ Clear double ⟨1, 1⟩ ⟨3, 3⟩ ⟨3, 1⟩ ∧ Clear double ⟨1, 3⟩ ⟨3, 1⟩ ⟨1, 1⟩ ∧ Clear double ⟨1, 3⟩ ⟨3, 1⟩ ⟨3, 3⟩ ∧
    Clear double ⟨1, 1⟩ ⟨3, 3⟩ ⟨2, 2⟩ ∧ Clear double ⟨2, 2⟩ ⟨1, 3⟩ ⟨1, 1⟩ ∧ Clear double ⟨2, 2⟩ ⟨1, 3⟩ ⟨3, 3⟩ := by
  refine ⟨by norm_num [Off], by norm_num [Off], by norm_num [Off], by norm_num [Off], by norm_num [Off], Or.inr ?_, Or.inr ?_, Or.inr ?_,
    Or.inr ?_, Or.inl ?_, Or.inr ?_, Or.inr ?_⟩ <;>
    norm_num [turn, spread, size, double, abs_of_pos, abs_of_neg]

/-! ### Lines -/

theorem diff_near (R : Rounding) {M x y : ℚ} (hx : |x| ≤ M) (hy : |y| ≤ M) : |R.fl (x - y) - (x - y)| ≤ 2 * R.u * M ∧ |x - y| ≤ 2 * M := by
  have h : |x - y| ≤ 2 * M := (abs_sub _ _).trans (by linarith)
  refine ⟨(R.err _).trans ?_, h⟩
  have := mul_le_mul_of_nonneg_left h R.u_nonneg
  linarith

theorem prod_bound {x y A B : ℚ} (hx : |x| ≤ A) (hy : |y| ≤ B) : |x * y| ≤ A * B := by
  rw [abs_mul]; exact mul_le_mul hx hy (abs_nonneg _) ((abs_nonneg _).trans hx)

/-- `fl (fl (a b) - fl (c d))` for approximated factors of size up to `A` and `B`. -/
theorem two_products (R : Rounding) {a b c d a' b' c' d' A B α β : ℚ} (hA : 0 ≤ A) (hB : 0 ≤ B) (hα : 0 ≤ α) (hα5 : α ≤ 5) (hβ5 : β ≤ 5)
    (ha : |a' - a| ≤ α * R.u * A) (hb : |b' - b| ≤ β * R.u * B) (hc : |c' - c| ≤ α * R.u * A) (hd : |d' - d| ≤ β * R.u * B)
    (ka : |a| ≤ A) (kb : |b| ≤ B) (kc : |c| ≤ A) (kd : |d| ≤ B) :
    |R.fl (R.fl (a' * b') - R.fl (c' * d')) - (a * b - c * d)| ≤ (2 * (α + β) + 4 + 11 / 10) * R.u * (A * B) ∧ |a * b - c * d| ≤ 2 * (A * B) := by
  have hu := R.u_nonneg
  have hs := R.u_small
  have hAB : 0 ≤ A * B := mul_nonneg hA hB
  have huAB := mul_nonneg hu hAB
  have hαβ : α * β ≤ 25 := by nlinarith
  have h2 : R.u * R.u * (A * B) ≤ 1 / 100 * (R.u * (A * B)) := by rw [mul_assoc]; exact mul_le_mul_of_nonneg_right hs huAB
  have h20 : 0 ≤ R.u * R.u * (A * B) := by positivity
  have key : ∀ x y x' y' : ℚ, |x' - x| ≤ α * R.u * A → |y' - y| ≤ β * R.u * B → |x| ≤ A → |y| ≤ B →
      |R.fl (x' * y') - x * y| ≤ (α + β + 1 + 36 / 100) * R.u * (A * B) := by
    intro x y x' y' hx hy kx ky
    have h1 := mul_near hx hy kx ky
    have h1' : |x' * y' - x * y| ≤ (α + β + 25 / 100) * (R.u * (A * B)) := by
      refine h1.trans ?_
      have e : α * R.u * A * (B + β * R.u * B) + A * (β * R.u * B) = (α + β) * (R.u * (A * B)) + (α * β) * (R.u * R.u * (A * B)) := by ring
      rw [e]
      have := mul_le_mul hαβ h2 h20 (by norm_num)
      linarith
    have h3 := fl_near R h1' (prod_bound kx ky)
    refine h3.trans ?_
    have e : R.u * (A * B + (α + β + 25 / 100) * (R.u * (A * B))) = R.u * (A * B) + (α + β + 25 / 100) * (R.u * R.u * (A * B)) := by ring
    rw [e]
    have h4 : (α + β + 25 / 100) * (R.u * R.u * (A * B)) ≤ (11 : ℚ) * (1 / 100 * (R.u * (A * B))) :=
      mul_le_mul (by linarith) h2 h20 (by norm_num)
    linarith
  have k1 := key a b a' b' ha hb ka kb
  have k2 := key c d c' d' hc hd kc kd
  have hdl : |a * b - c * d| ≤ 2 * (A * B) := (abs_sub _ _).trans (by linarith [prod_bound ka kb, prod_bound kc kd])
  refine ⟨?_, hdl⟩
  have h5 : |R.fl (a' * b') - R.fl (c' * d') - (a * b - c * d)| ≤ (2 * (α + β) + 2 + 72 / 100) * (R.u * (A * B)) := by
    rw [abs_le] at k1 k2 ⊢
    constructor <;> linarith [k1.1, k1.2, k2.1, k2.2]
  have h6 := fl_near R h5 hdl
  refine h6.trans ?_
  have e : R.u * (2 * (A * B) + (2 * (α + β) + 2 + 72 / 100) * (R.u * (A * B))) =
      2 * (R.u * (A * B)) + (2 * (α + β) + 2 + 72 / 100) * (R.u * R.u * (A * B)) := by ring
  rw [e]
  have h7 : (2 * (α + β) + 2 + 72 / 100) * (R.u * R.u * (A * B)) ≤ (23 : ℚ) * (1 / 100 * (R.u * (A * B))) :=
    mul_le_mul (by linarith) h2 h20 (by norm_num)
  linarith

/-- The determinants of `intersection_points`: how far the computed ones are from the exact ones. -/
theorem dets (R : Rounding) {M : ℚ} {a b p q : PointQ} (hM : 0 ≤ M) (ha : Within M a) (hb : Within M b) (hp : Within M p) (hq : Within M q) :
    (|R.fl (R.fl ((lineParamsF R a b).1 * (lineParamsF R p q).2.1) - R.fl ((lineParamsF R a b).2.1 * (lineParamsF R p q).1)) - cross a b p q| ≤
      37 * R.u * M ^ 2) ∧
    (|R.fl (R.fl ((lineParamsF R p q).2.1 * (lineParamsF R a b).2.2) - R.fl ((lineParamsF R p q).2.2 * (lineParamsF R a b).2.1)) -
      ((q.x - p.x) * -(a.x * b.y - b.x * a.y) - (b.x - a.x) * -(p.x * q.y - q.x * p.y))| ≤ 49 * R.u * M ^ 3) ∧
    (|R.fl (R.fl ((lineParamsF R a b).1 * (lineParamsF R p q).2.2) - R.fl ((lineParamsF R a b).2.2 * (lineParamsF R p q).1)) -
      ((a.y - b.y) * -(p.x * q.y - q.x * p.y) - (p.y - q.y) * -(a.x * b.y - b.x * a.y))| ≤ 49 * R.u * M ^ 3) ∧
    |cross a b p q| ≤ 8 * M ^ 2 := by
  have hu := R.u_nonneg
  obtain ⟨y1, y1'⟩ := diff_near R ha.2 hb.2
  obtain ⟨x1, x1'⟩ := diff_near R hb.1 ha.1
  obtain ⟨y2, y2'⟩ := diff_near R hp.2 hq.2
  obtain ⟨x2, x2'⟩ := diff_near R hq.1 hp.1
  have h2M : 0 ≤ 2 * M := by linarith
  have hM2 : 0 ≤ 2 * M ^ 2 := by positivity
  have e1 : 2 * R.u * M = 1 * R.u * (2 * M) := by ring
  rw [e1] at y1 x1 y2 x2
  have c : ∀ s t : PointQ, Within M s → Within M t →
      |-R.fl (R.fl (s.x * t.y) - R.fl (t.x * s.y)) - -(s.x * t.y - t.x * s.y)| ≤ 255 / 100 * R.u * (2 * M ^ 2) ∧ |-(s.x * t.y - t.x * s.y)| ≤ 2 * M ^ 2 := by
    intro s t hs ht
    have h := two_products R (α := 0) (β := 0) hM hM le_rfl (by norm_num) (by norm_num) (a := s.x) (b := t.y) (c := t.x) (d := s.y) (a' := s.x) (b' := t.y)
      (c' := t.x) (d' := s.y) (by simp) (by simp) (by simp) (by simp) hs.1 ht.2 ht.1 hs.2
    refine ⟨?_, by rw [abs_neg]; refine h.2.trans (le_of_eq (by ring))⟩
    rw [show -R.fl (R.fl (s.x * t.y) - R.fl (t.x * s.y)) - -(s.x * t.y - t.x * s.y) = -(R.fl (R.fl (s.x * t.y) - R.fl (t.x * s.y)) - (s.x * t.y - t.x * s.y)) by ring,
      abs_neg]
    exact h.1.trans (le_of_eq (by ring))
  obtain ⟨c1, c1'⟩ := c a b ha hb
  obtain ⟨c2, c2'⟩ := c p q hp hq
  have hD := two_products R h2M h2M (α := 1) (β := 1) (by norm_num) (by norm_num) (by norm_num) y1 x2 x1 y2 y1' x2' x1' y2'
  have hX := two_products R h2M hM2 (α := 1) (β := 255 / 100) (by norm_num) (by norm_num) (by norm_num) x2 c1 x1 c2 x2' c1' x1' c2'
  have hY := two_products R h2M hM2 (α := 1) (β := 255 / 100) (by norm_num) (by norm_num) (by norm_num) y1 c2 y2 c1 y1' c2' y2' c1'
  have w2 : 0 ≤ R.u * M ^ 2 := by positivity
  have w3 : 0 ≤ R.u * M ^ 3 := by positivity
  have ec : cross a b p q = (a.y - b.y) * (q.x - p.x) - (b.x - a.x) * (p.y - q.y) := by unfold cross; ring
  refine ⟨?_, ?_, ?_, ?_⟩
  · rw [ec]
    refine hD.1.trans ?_
    linarith
  · simp only [lineParamsF]
    rw [mul_comm (-R.fl (R.fl (p.x * q.y) - R.fl (q.x * p.y)))]
    refine hX.1.trans ?_
    linarith
  · simp only [lineParamsF]
    rw [mul_comm (-R.fl (R.fl (a.x * b.y) - R.fl (b.x * a.y)))]
    refine hY.1.trans ?_
    linarith
  · rw [ec]
    refine hD.2.trans (le_of_eq (by ring))

/-- One coordinate of the quotient. -/
theorem quotient_near (R : Rounding) {M D D' N N' X : ℚ} (hM : 0 ≤ M) (hN : |N' - N| ≤ 49 * R.u * M ^ 3) (hD : |D' - D| ≤ 37 * R.u * M ^ 2)
    (hX : X * D = N) (hb : |D| ≤ 8 * M ^ 2) (hl : 3700 * R.u * M ^ 2 ≤ |D|) (h0 : D' ≠ 0) :
    |R.fl (N' / D') - X| * |D| ≤ 60 * R.u * M ^ 2 * (M + |X|) := by
  have hu := R.u_nonneg
  have hs := R.u_small
  have he := R.err (N' / D')
  have h1 : |R.fl (N' / D') * D' - N'| ≤ R.u * |N'| := by
    have e : R.fl (N' / D') * D' - N' = (R.fl (N' / D') - N' / D') * D' := by field_simp
    rw [e, abs_mul]
    calc |R.fl (N' / D') - N' / D'| * |D'| ≤ R.u * |N' / D'| * |D'| := mul_le_mul_of_nonneg_right he (abs_nonneg _)
      _ = R.u * |N'| := by rw [abs_div]; field_simp
  have w2 : 0 ≤ R.u * M ^ 2 := by positivity
  have w3 : 0 ≤ R.u * M ^ 3 := by positivity
  have hM3 : 0 ≤ M ^ 3 := by positivity
  have hXX := abs_nonneg X
  have h2 : |N'| ≤ 8 * M ^ 2 * |X| + 49 / 100 * M ^ 3 := by
    have ha := abs_sub_abs_le_abs_sub N' N
    have hb' : |N| ≤ 8 * M ^ 2 * |X| := by
      rw [← hX, abs_mul, mul_comm]; exact mul_le_mul_of_nonneg_right hb hXX
    have := mul_le_mul_of_nonneg_right hs hM3
    linarith
  have h3 : |X * (D - D')| ≤ |X| * (37 * R.u * M ^ 2) := by
    rw [abs_mul, abs_sub_comm]; exact mul_le_mul_of_nonneg_left hD hXX
  have h4 : |R.fl (N' / D') - X| * |D'| ≤ 50 * (R.u * M ^ 3) + 45 * (R.u * M ^ 2 * |X|) := by
    have e : (R.fl (N' / D') - X) * D' = (R.fl (N' / D') * D' - N') + (N' - N) + X * (D - D') := by rw [← hX]; ring
    rw [← abs_mul, e]
    have t1 := abs_add_le ((R.fl (N' / D') * D' - N') + (N' - N)) (X * (D - D'))
    have t2 := abs_add_le (R.fl (N' / D') * D' - N') (N' - N)
    have t3 := mul_le_mul_of_nonneg_left h2 hu
    nlinarith
  have h5 : 99 / 100 * |D| ≤ |D'| := by
    have := abs_sub_abs_le_abs_sub D D'
    rw [abs_sub_comm] at this
    linarith
  have h6 := mul_le_mul_of_nonneg_left h5 (abs_nonneg (R.fl (N' / D') - X))
  have w4 : 0 ≤ R.u * M ^ 2 * |X| := by positivity
  nlinarith

/-- **C114 (lines).** In double precision, for coordinates up to `M` and lines that are not nearly parallel, `Line2D.intersection` returns a
point whose coordinates are off by at most `60 u M² (M + |z|)` over the area spanned by the directions of the lines, where `z`
is the common point of the two lines. -/
theorem C114_intersection (R : Rounding) {M : ℚ} {a b p q z : PointQ} (hM : 0 ≤ M) (ha : Within M a) (hb : Within M b) (hp : Within M p)
    (hq : Within M q) (hc : cross a b p q ≠ 0) (hl : 3700 * R.u * M ^ 2 ≤ |cross a b p q|) (h1 : On a b z) (h2 : On p q z) :
    ∃ w, intersectionPointsF R a b p q = some w ∧
      |w.x - z.x| * |cross a b p q| ≤ 60 * R.u * M ^ 2 * (M + |z.x|) ∧ |w.y - z.y| * |cross a b p q| ≤ 60 * R.u * M ^ 2 * (M + |z.y|) := by
  obtain ⟨hD, hX, hY, hB⟩ := dets R hM ha hb hp hq
  have hC := abs_pos.2 hc
  have h0 : R.fl (R.fl ((lineParamsF R a b).1 * (lineParamsF R p q).2.1) - R.fl ((lineParamsF R a b).2.1 * (lineParamsF R p q).1)) ≠ 0 := by
    intro h
    rw [h, zero_sub, abs_neg] at hD
    have w2 : 0 ≤ R.u * M ^ 2 := mul_nonneg R.u_nonneg (sq_nonneg M)
    linarith
  obtain ⟨s, sx, sy⟩ := h1
  obtain ⟨t, tx, ty⟩ := h2
  have l1 : (a.y - b.y) * z.x + (b.x - a.x) * z.y = -(a.x * b.y - b.x * a.y) := by rw [sx, sy]; ring
  have l2 : (p.y - q.y) * z.x + (q.x - p.x) * z.y = -(p.x * q.y - q.x * p.y) := by rw [tx, ty]; ring
  refine ⟨⟨_, _⟩, by simp only [intersectionPointsF]; rw [if_neg h0], ?_, ?_⟩
  · refine quotient_near R hM hX hD ?_ hB hl h0
    rw [← l1, ← l2]; unfold cross; ring
  · refine quotient_near R hM hY hD ?_ hB hl h0
    rw [← l1, ← l2]; unfold cross; ring

/-- Two lines meet the hypotheses in doubles. -/
example : Within 3 ⟨1, 1⟩ ∧ Within 3 ⟨3, 3⟩ ∧ Within 3 ⟨1, 3⟩ ∧ Within 3 ⟨3, 2⟩ ∧ cross ⟨1, 1⟩ ⟨3, 3⟩ ⟨1, 3⟩ ⟨3, 2⟩ ≠ 0 ∧
    3700 * double.u * 3 ^ 2 ≤ |cross ⟨1, 1⟩ ⟨3, 3⟩ ⟨1, 3⟩ ⟨3, 2⟩| ∧ On ⟨1, 1⟩ ⟨3, 3⟩ ⟨7 / 3, 7 / 3⟩ ∧ On ⟨1, 3⟩ ⟨3, 2⟩ ⟨7 / 3, 7 / 3⟩ := by
  refine ⟨?_, ?_, ?_, ?_, ?_, ?_, ⟨2 / 3, ?_⟩, ⟨2 / 3, ?_⟩⟩ <;> norm_num [Within, cross, double, abs_of_pos, abs_of_neg]

/-- **C114 (nearly parallel).** `Line2D.intersection` returns `None` only for lines that are parallel up to rounding. -/
theorem C114_none (R : Rounding) {M : ℚ} {a b p q : PointQ} (hM : 0 ≤ M) (ha : Within M a) (hb : Within M b) (hp : Within M p) (hq : Within M q)
    (h : intersectionPointsF R a b p q = none) : |cross a b p q| ≤ 37 * R.u * M ^ 2 := by
  obtain ⟨hD, -, -, -⟩ := dets R hM ha hb hp hq
  simp only [intersectionPointsF] at h
  split_ifs at h with h0
  rw [h0, zero_sub, abs_neg] at hD
  exact hD

/-- **C114 (partial: differences of coordinates that are floats).** `Line2D.intersection` returns `None` for parallel lines.  Missing: if a difference
is rounded, a far away point can be returned (`C114_parallel_fails`). -/
theorem C114_parallel_partial (R : Rounding) {a b p q : PointQ} (h : cross a b p q = 0) (h1 : R.fl (b.x - a.x) = b.x - a.x)
    (h2 : R.fl (a.y - b.y) = a.y - b.y) (h3 : R.fl (q.x - p.x) = q.x - p.x) (h4 : R.fl (p.y - q.y) = p.y - q.y) :
    intersectionPointsF R a b p q = none := by
  simp only [intersectionPointsF, lineParamsF, h1, h2, h3, h4]
  have e : (a.y - b.y) * (q.x - p.x) = (b.x - a.x) * (p.y - q.y) := by unfold cross at h; linarith
  rw [e, sub_self, fl_zero, if_pos rfl]

/-- Parallel lines meet the hypotheses in doubles, and the conclusion of `C114_none`. -/
example : cross ⟨1, 1⟩ ⟨3, 3⟩ ⟨1, 2⟩ ⟨2, 3⟩ = 0 ∧ nearest (3 - 1) = 3 - 1 ∧ nearest (1 - 3) = 1 - 3 ∧ nearest (2 - 1) = 2 - 1 ∧ nearest (2 - 3) = 2 - 3 ∧
    intersectionPointsF double ⟨1, 1⟩ ⟨3, 3⟩ ⟨1, 2⟩ ⟨2, 3⟩ = none := by decide +kernel

/-! ### Where rounding shows -/

/-- A double a little above `2 ^ -20`. -/
def e : ℚ := 1 / 2 ^ 20 + 5 / 2 ^ 55

/-- **C114 (fails).** Parallel lines through points with double coordinates for which `Line2D.intersection` returns a point in double precision: from `(3 e, e)`
to `(6, 2)` and from `(0, 1)` to `(3, 2)`. -/
theorem C114_parallel_fails : nearest e = e ∧ nearest (3 * e) = 3 * e ∧ cross ⟨3 * e, e⟩ ⟨6, 2⟩ ⟨0, 1⟩ ⟨3, 2⟩ = 0 ∧
    (intersectionPointsF double ⟨3 * e, e⟩ ⟨6, 2⟩ ⟨0, 1⟩ ⟨3, 2⟩).isSome = true := by decide +kernel

theorem orientation_val (R : Rounding) (hu : R.u ≤ 1 / 2 ^ 53) (W : Powers R) {p q r : PointQ} (hp : Off p) (hq : Off q) (hr : Off r)
    (h : (21 / 2 ^ 53) ^ 3 * size p q r ≤ |orientValF R p q r| ^ 3) : orientationF R W p q r = .ok (SignType.sign (orientValF R p q r)) := by
  obtain ⟨hn, hN⟩ := norm_near R hu W hp hq hr
  have hS := size_pos hp hq hr
  have hNl := abs_le.1 hN
  unfold orientationF
  rw [if_neg hn.ne']
  simp only
  set n := orientNormF R W p q r
  set V := orientValF R p q r
  have hV1 : (20 + 1 / 2) / 2 ^ 53 * n < |V| := by
    refine lt_of_pow_lt_pow_left₀ 3 (abs_nonneg _) (lt_of_lt_of_le ?_ h)
    rw [mul_pow]
    have : n ^ 3 ≤ (1 + 1 / 10 ^ 6) * size p q r := by linarith [hNl.2]
    calc ((20 + 1 / 2 : ℚ) / 2 ^ 53) ^ 3 * n ^ 3 ≤ ((20 + 1 / 2 : ℚ) / 2 ^ 53) ^ 3 * ((1 + 1 / 10 ^ 6) * size p q r) :=
          mul_le_mul_of_nonneg_left this (by norm_num)
      _ = (((20 + 1 / 2 : ℚ) / 2 ^ 53) ^ 3 * (1 + 1 / 10 ^ 6)) * size p q r := by ring
      _ < (21 / 2 ^ 53) ^ 3 * size p q r := mul_lt_mul_of_pos_right (by norm_num) hS
  have hV2 : (20 + 1 / 2) / 2 ^ 53 < |V| / n := (lt_div_iff₀ hn).2 hV1
  have habs : |V / n| = |V| / n := by rw [abs_div, abs_of_pos hn]
  have herr := R.err (V / n)
  rw [abs_sub_comm] at herr
  have h1 := abs_sub_abs_le_abs_sub (V / n) (R.fl (V / n))
  rw [habs] at herr h1
  have h2 := mul_le_mul_of_nonneg_right (hu.trans (show (1:ℚ) / 2 ^ 53 ≤ 1 / 10 ^ 6 by norm_num)) (div_nonneg (abs_nonneg V) hn.le)
  rw [if_neg (by norm_num at hV2 ⊢; linarith)]
  congr 1
  have hV0 : V ≠ 0 := by
    rintro h0
    rw [h0, abs_zero] at hV1
    have : 0 < (20 + 1 / 2) / 2 ^ 53 * n := by positivity
    linarith
  rcases lt_or_gt_of_ne hV0 with h0 | h0
  · rw [sign_neg h0, sign_neg ((fl_neg R).2 (div_neg_of_neg_of_pos h0 hn))]
  · rw [sign_pos h0, sign_pos ((fl_pos R).2 (div_pos h0 hn))]

/-- **C114 (fails).** Two segments with double coordinates that share the point `(3, 1)`, for which `Line2D.intersecting` is false in double precision, however the powers
are rounded: from `(3 e, e)` to `(6, 2)` and from `(3, 1)` to `(3, 1/4)`. -/
theorem C114_touching_fails (W : Powers double) :
    OnSeg (pt ⟨3 * e, e⟩) (pt ⟨6, 2⟩) (pt ⟨3, 1⟩) ∧ OnSeg (pt ⟨3, 1⟩) (pt ⟨3, 1 / 4⟩) (pt ⟨3, 1⟩) ∧
    intersectingF double W ⟨3 * e, e⟩ ⟨6, 2⟩ ⟨3, 1⟩ ⟨3, 1 / 4⟩ = .ok false := by
  refine ⟨⟨(1 - (e : ℝ)) / (2 - e), ?_⟩, ⟨0, le_rfl, zero_le_one, by ring, by ring⟩, ?_⟩
  · norm_num [e, pt]
  have v1 : orientValF double ⟨3 * e, e⟩ ⟨6, 2⟩ ⟨3, 1⟩ = 4 / 2 ^ 52 := by decide +kernel
  have k2 : 1 < orientValF double ⟨3 * e, e⟩ ⟨6, 2⟩ ⟨3, 1 / 4⟩ := by decide +kernel
  have k3 : 1 < orientValF double ⟨3, 1⟩ ⟨3, 1 / 4⟩ ⟨3 * e, e⟩ := by decide +kernel
  have k4 : orientValF double ⟨3, 1⟩ ⟨3, 1 / 4⟩ ⟨6, 2⟩ < -1 := by decide +kernel
  have hu : double.u ≤ 1 / 2 ^ 53 := le_rfl
  have oa : Off ⟨3 * e, e⟩ := by norm_num [Off, e]
  have ob : Off ⟨6, 2⟩ := by norm_num [Off]
  have op : Off ⟨3, 1⟩ := by norm_num [Off]
  have oq : Off ⟨3, 1 / 4⟩ := by norm_num [Off]
  have o1 := orientation_val double hu W oa ob op (by rw [v1]; norm_num [size, e])
  have o2 := orientation_val double hu W oa ob oq
    (le_trans (by norm_num [size, e]) (one_le_pow₀ (k2.le.trans (le_abs_self _))))
  have o3 := orientation_val double hu W op oq oa
    (le_trans (by norm_num [size, e]) (one_le_pow₀ (k3.le.trans (le_abs_self _))))
  have o4 := orientation_val double hu W op oq ob
    (le_trans (by norm_num [size, e]) (one_le_pow₀ (by have := neg_le_abs (orientValF double ⟨3, 1⟩ ⟨3, 1 / 4⟩ ⟨6, 2⟩); linarith)))
  rw [v1, sign_pos (by norm_num)] at o1
  rw [sign_pos (by linarith)] at o2 o3
  rw [sign_neg (by linarith)] at o4
  unfold intersectingF
  rw [o1, o2, o3, o4]
  rfl

end Verif.Props.FloatLine2D
