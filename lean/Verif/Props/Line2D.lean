import Verif.Model.Line2D
import Mathlib.Tactic.Linarith
import Mathlib.Tactic.LinearCombination
import Mathlib.Tactic.FieldSimp

/-!
C10, C11: `Point2D`, `Line2D`.
-/

namespace Verif.Props.Line2D

open Verif Verif.Line2D

/-! ### Specification -/

/-- `z` is on the line through `p` and `q`. -/
def OnLine (p q z : Point) : Prop := ∃ s : ℝ, z.x = p.x + s * (q.x - p.x) ∧ z.y = p.y + s * (q.y - p.y)

/-- `z` is on the closed segment from `p` to `q`. -/
def OnSeg (p q z : Point) : Prop :=
  ∃ s : ℝ, 0 ≤ s ∧ s ≤ 1 ∧ z.x = p.x + s * (q.x - p.x) ∧ z.y = p.y + s * (q.y - p.y)

/-- Parallel directions (or a degenerate line). -/
def Parallel (a b p q : Point) : Prop := (b.x - a.x) * (q.y - p.y) = (b.y - a.y) * (q.x - p.x)

/-- The three points are exactly collinear, or far enough from it: twice the area of their triangle is at least ten times the precision of a float,
relative to the cube root of the product of the squared distances from the origin. -/
def Resolved (p q r : Point) : Prop :=
  (q.y - p.y) * (r.x - q.x) - (q.x - p.x) * (r.y - q.y) = 0 ∨
  10 / 2 ^ 52 * ((p.x ^ 2 + p.y ^ 2) * (q.x ^ 2 + q.y ^ 2) * (r.x ^ 2 + r.y ^ 2)) ^ (1 / 3 : ℝ) ≤
    |(q.y - p.y) * (r.x - q.x) - (q.x - p.x) * (r.y - q.y)|

theorem resolved_iff (p q r : Point) : Resolved p q r ↔ orientVal p q r = 0 ∨ tol * orientNorm p q r ≤ |orientVal p q r| := by
  have h : tol = 10 / 2 ^ 52 := by unfold tol; rw [inv_pow]; ring
  unfold Resolved orientVal orientNorm
  rw [h]

/-- Not the origin. -/
def NotOrigin (p : Point) : Prop := ¬ (p.x = 0 ∧ p.y = 0)

/-! ### C10 -/

/-- **C10.** `Line2D.intersection` returns a point iff the lines are not parallel, and then it is the unique common
point of the two lines. -/
theorem C10_line_intersection (a b p q z : Point) :
    intersectionPoints a b p q = some z ↔ ¬ Parallel a b p q ∧ OnLine a b z ∧ OnLine p q z := by
  unfold intersectionPoints lineParams Parallel
  simp only
  by_cases hd : (a.y - b.y) * (q.x - p.x) - (b.x - a.x) * (p.y - q.y) = 0
  · rw [if_pos hd]
    constructor
    · intro h; exact absurd h (by simp)
    · rintro ⟨h, _⟩; exact absurd (by linarith) h
  · rw [if_neg hd]
    have hnp : ¬ ((b.x - a.x) * (q.y - p.y) = (b.y - a.y) * (q.x - p.x)) := fun h => hd (by linarith)
    simp only [hnp, not_false_eq_true, true_and]
    constructor
    · intro h
      obtain rfl := Option.some.inj h
      have hd' : (b.x - a.x) * (q.y - p.y) - (b.y - a.y) * (q.x - p.x) ≠ 0 := fun h => hnp (by linarith)
      refine ⟨⟨((p.x - a.x) * (q.y - p.y) - (p.y - a.y) * (q.x - p.x)) /
          ((b.x - a.x) * (q.y - p.y) - (b.y - a.y) * (q.x - p.x)), ?_, ?_⟩,
        ⟨((p.x - a.x) * (b.y - a.y) - (p.y - a.y) * (b.x - a.x)) /
          ((b.x - a.x) * (q.y - p.y) - (b.y - a.y) * (q.x - p.x)), ?_, ?_⟩⟩ <;>
      · simp only
        rw [← sub_eq_zero, ← mul_right_inj' hd']
        have e0 : (a.y - b.y) * (q.x - p.x) - (b.x - a.x) * (p.y - q.y) =
            (b.x - a.x) * (q.y - p.y) - (b.y - a.y) * (q.x - p.x) := by ring
        rw [e0, mul_sub, mul_add, mul_div_cancel₀ _ hd', mul_comm (_ / _) (_ : ℝ), mul_left_comm,
          mul_div_cancel₀ _ hd']
        ring
    · rintro ⟨⟨s, hx, hy⟩, ⟨u, hx', hy'⟩⟩
      congr 1
      have e : ∀ z w : Point, z.x = w.x → z.y = w.y → z = w := by
        rintro ⟨_, _⟩ ⟨_, _⟩ rfl rfl; rfl
      apply e
      · simp only
        rw [div_eq_iff hd]
        have e1 : (a.y - b.y) * (z.x - a.x) + (b.x - a.x) * (z.y - a.y) = 0 := by rw [hx, hy]; ring
        have e2 : (p.y - q.y) * (z.x - p.x) + (q.x - p.x) * (z.y - p.y) = 0 := by rw [hx', hy']; ring
        linear_combination (-(q.x - p.x)) * e1 + (b.x - a.x) * e2
      · simp only
        rw [div_eq_iff hd]
        have e1 : (a.y - b.y) * (z.x - a.x) + (b.x - a.x) * (z.y - a.y) = 0 := by rw [hx, hy]; ring
        have e2 : (p.y - q.y) * (z.x - p.x) + (q.x - p.x) * (z.y - p.y) = 0 := by rw [hx', hy']; ring
        linear_combination (p.y - q.y) * e1 - (a.y - b.y) * e2

/-- **C10.** `None` iff parallel. -/
theorem C10_none_iff (a b p q : Point) : intersectionPoints a b p q = none ↔ Parallel a b p q := by
  unfold intersectionPoints lineParams Parallel
  simp only
  by_cases hd : (a.y - b.y) * (q.x - p.x) - (b.x - a.x) * (p.y - q.y) = 0
  · rw [if_pos hd]; simp only [true_iff]; linarith
  · rw [if_neg hd]
    simp only [reduceCtorEq, false_iff]
    intro h; exact hd (by linarith)

/-- **C10.** `in_rect` does not depend on the order of the corners, nor on which diagonal is given. -/
theorem C10_in_rect (z a b : Point) :
    (z.inRect a b ↔ z.inRect b a) ∧ (z.inRect a b ↔ z.inRect ⟨a.x, b.y⟩ ⟨b.x, a.y⟩) := by
  unfold Point.inRect
  constructor
  · rw [max_comm a.x, min_comm a.x, max_comm a.y, min_comm a.y]
  · rw [max_comm a.y, min_comm a.y]

/-- **C10.** A point is in the rectangle iff each coordinate lies between those of the corners. -/
theorem C10_in_rect_iff (z a b : Point) :
    z.inRect a b ↔ ((a.x ≤ z.x ∧ z.x ≤ b.x) ∨ (b.x ≤ z.x ∧ z.x ≤ a.x)) ∧
      ((a.y ≤ z.y ∧ z.y ≤ b.y) ∨ (b.y ≤ z.y ∧ z.y ≤ a.y)) := by
  unfold Point.inRect
  rcases le_total a.x b.x with h | h <;> rcases le_total a.y b.y with h' | h' <;>
    simp only [max_eq_left, max_eq_right, min_eq_left, min_eq_right, h, h'] <;>
  · constructor
    · rintro ⟨h1, h2, h3, h4⟩
      constructor
      · first | exact Or.inl ⟨h2, h1⟩ | exact Or.inr ⟨h2, h1⟩
      · first | exact Or.inl ⟨h4, h3⟩ | exact Or.inr ⟨h4, h3⟩
    · rintro ⟨h1 | h1, h2 | h2⟩ <;> refine ⟨?_, ?_, ?_, ?_⟩ <;> linarith [h1.1, h1.2, h2.1, h2.2]

example : ¬ Parallel ⟨0, 0⟩ ⟨1, 1⟩ ⟨0, 1⟩ ⟨1, 0⟩ := by unfold Parallel; norm_num

/-! ### C11 -/

theorem norm_pos {p q r : Point} (hp : NotOrigin p) (hq : NotOrigin q) (hr : NotOrigin r) : 0 < orientNorm p q r := by
  have key : ∀ p : Point, NotOrigin p → 0 < p.x ^ 2 + p.y ^ 2 := by
    intro p hp
    rcases eq_or_ne p.x 0 with hx | hx
    · have hy : p.y ≠ 0 := fun h => hp ⟨hx, h⟩
      positivity
    · positivity
  unfold orientNorm
  exact Real.rpow_pos_of_pos (mul_pos (mul_pos (key p hp) (key q hq)) (key r hr)) _

/-- On resolved points away from the origin `orientation` is the sign of the cross product. -/
theorem orientation_eq {p q r : Point} (hp : NotOrigin p) (hq : NotOrigin q) (hr : NotOrigin r)
    (h : Resolved p q r) : orientation p q r = .ok (SignType.sign (orientVal p q r)) := by
  have hn := norm_pos hp hq hr
  unfold orientation
  rw [if_neg hn.ne']
  simp only
  have habs : |orientVal p q r / orientNorm p q r| = |orientVal p q r| / orientNorm p q r := by
    rw [abs_div, abs_of_pos hn]
  have htol : 0 < tol := by unfold tol; positivity
  rw [resolved_iff] at h
  rcases h with h | h
  · rw [if_pos]
    · rw [h]; simp
    · rw [h]; simpa using htol
  · rw [if_neg]
    · congr 1
      rcases lt_trichotomy (orientVal p q r) 0 with hv | hv | hv
      · rw [sign_neg (div_neg_of_neg_of_pos hv hn), sign_neg hv]
      · rw [hv]; simp
      · rw [sign_pos (div_pos hv hn), sign_pos hv]
    · rw [habs, not_lt, le_div_iff₀ hn]; exact h

theorem val_convex {a b p q z : Point} {s : ℝ} (hx : z.x = p.x + s * (q.x - p.x)) (hy : z.y = p.y + s * (q.y - p.y)) :
    orientVal a b z = (1 - s) * orientVal a b p + s * orientVal a b q := by
  unfold orientVal; rw [hx, hy]; ring

theorem val_onSeg {a b z : Point} {s : ℝ} (hx : z.x = a.x + s * (b.x - a.x)) (hy : z.y = a.y + s * (b.y - a.y)) :
    orientVal a b z = 0 := by
  unfold orientVal; rw [hx, hy]; ring

/-- collinear and in the bounding rectangle means on the segment -/
theorem onSeg_of_rect {a b z : Point} (h0 : orientVal a b z = 0) (hr : z.inRect a b) : OnSeg a b z := by
  rw [C10_in_rect_iff] at hr
  unfold orientVal at h0
  by_cases hx : b.x - a.x = 0
  · have hxe : z.x = a.x := by rcases hr.1 with h | h <;> linarith [h.1, h.2]
    by_cases hy : b.y - a.y = 0
    · have hye : z.y = a.y := by rcases hr.2 with h | h <;> linarith [h.1, h.2]
      exact ⟨0, le_refl _, zero_le_one, by rw [hxe]; ring, by rw [hye]; ring⟩
    · refine ⟨(z.y - a.y) / (b.y - a.y), ?_, ?_, by rw [hx, hxe]; ring, by field_simp; ring⟩
      · rcases hr.2 with h | h
        · exact div_nonneg (by linarith [h.1]) (by linarith [h.1, h.2])
        · exact div_nonneg_of_nonpos (by linarith [h.2]) (by linarith [h.1, h.2])
      · rcases hr.2 with h | h
        · exact div_le_one_of_le₀ (by linarith [h.2]) (by linarith [h.1, h.2])
        · rw [div_le_one_of_neg (lt_of_le_of_ne (by linarith [h.1, h.2]) hy)]; linarith [h.1]
  · refine ⟨(z.x - a.x) / (b.x - a.x), ?_, ?_, by field_simp; ring, ?_⟩
    · rcases hr.1 with h | h
      · exact div_nonneg (by linarith [h.1]) (by linarith [h.1, h.2])
      · exact div_nonneg_of_nonpos (by linarith [h.2]) (by linarith [h.1, h.2])
    · rcases hr.1 with h | h
      · exact div_le_one_of_le₀ (by linarith [h.2]) (by linarith [h.1, h.2])
      · rw [div_le_one_of_neg (lt_of_le_of_ne (by linarith [h.1, h.2]) hx)]; linarith [h.1]
    · field_simp
      linear_combination -h0

theorem rect_of_onSeg {a b z : Point} (h : OnSeg a b z) : z.inRect a b := by
  obtain ⟨s, h0, h1, hx, hy⟩ := h
  rw [C10_in_rect_iff, hx, hy]
  constructor
  · rcases le_total a.x b.x with h | h
    · left; constructor <;> nlinarith
    · right; constructor <;> nlinarith
  · rcases le_total a.y b.y with h | h
    · left; constructor <;> nlinarith
    · right; constructor <;> nlinarith

theorem sign_ne_cases {u v : ℝ} (h : SignType.sign u ≠ SignType.sign v) :
    u ≠ v ∧ 0 ≤ u / (u - v) ∧ u / (u - v) ≤ 1 := by
  have hne : u ≠ v := fun e => h (by rw [e])
  refine ⟨hne, ?_⟩
  rcases lt_trichotomy u 0 with hu | hu | hu <;> rcases lt_trichotomy v 0 with hv | hv | hv
  · exact absurd (by rw [sign_neg hu, sign_neg hv]) h
  · subst hv; rw [sub_zero, div_self hu.ne]; norm_num
  · have : u - v < 0 := by linarith
    exact ⟨div_nonneg_of_nonpos hu.le this.le, by rw [div_le_one_of_neg this]; linarith⟩
  · subst hu; simp
  · exact absurd (by rw [hu, hv]) hne
  · subst hu; simp
  · have : 0 < u - v := by linarith
    exact ⟨div_nonneg hu.le this.le, by rw [div_le_one this]; linarith⟩
  · subst hv; rw [sub_zero, div_self hu.ne']; norm_num
  · exact absurd (by rw [sign_pos hu, sign_pos hv]) h

theorem both_zero_of_sign_eq {u v s : ℝ} (h0 : 0 ≤ s) (h1 : s ≤ 1) (h : (1 - s) * u + s * v = 0)
    (he : SignType.sign u = SignType.sign v) : u = 0 ∧ v = 0 := by
  rcases lt_trichotomy u 0 with hu | hu | hu <;> rcases lt_trichotomy v 0 with hv | hv | hv
  · exfalso
    rcases eq_or_lt_of_le h0 with hs | hs
    · subst hs; linarith
    · nlinarith [mul_neg_of_pos_of_neg hs hv, mul_nonneg (sub_nonneg.2 h1) (neg_nonneg.2 hu.le)]
  · rw [sign_neg hu, hv, sign_zero] at he; exact absurd he (by decide)
  · rw [sign_neg hu, sign_pos hv] at he; exact absurd he (by decide)
  · rw [hu, sign_zero, sign_neg hv] at he; exact absurd he (by decide)
  · exact ⟨hu, hv⟩
  · rw [hu, sign_zero, sign_pos hv] at he; exact absurd he (by decide)
  · rw [sign_pos hu, sign_neg hv] at he; exact absurd he (by decide)
  · rw [sign_pos hu, hv, sign_zero] at he; exact absurd he (by decide)
  · exfalso
    rcases eq_or_lt_of_le h0 with hs | hs
    · subst hs; linarith
    · nlinarith [mul_pos hs hv, mul_nonneg (sub_nonneg.2 h1) hu.le]

/-- the collinear case: overlapping segments contain an end point of each other -/
theorem collinear_case {a b p q z : Point} (h1 : orientVal a b p = 0) (h2 : orientVal a b q = 0)
    (hz1 : OnSeg a b z) (hz2 : OnSeg p q z) :
    (orientVal a b p = 0 ∧ p.inRect a b) ∨ (orientVal a b q = 0 ∧ q.inRect a b) ∨
    (orientVal p q a = 0 ∧ a.inRect p q) := by
  obtain ⟨s, hs0, hs1, hsx, hsy⟩ := hz1
  obtain ⟨u, hu0, hu1, hux, huy⟩ := hz2
  by_cases hab : b.x - a.x = 0 ∧ b.y - a.y = 0
  · -- `a = b = z`
    right; right
    have hzx : z.x = a.x := by rw [hsx, hab.1]; ring
    have hzy : z.y = a.y := by rw [hsy, hab.2]; ring
    have : OnSeg p q a := ⟨u, hu0, hu1, by rw [← hzx, hux], by rw [← hzy, huy]⟩
    exact ⟨val_onSeg (by rw [← hzx, hux]) (by rw [← hzy, huy]), rect_of_onSeg this⟩
  · -- parameters of `p` and `q` on the line `a b`
    have par : ∀ w : Point, orientVal a b w = 0 →
        ∃ α : ℝ, w.x = a.x + α * (b.x - a.x) ∧ w.y = a.y + α * (b.y - a.y) := by
      intro w hw
      unfold orientVal at hw
      by_cases hx : b.x - a.x = 0
      · have hy : b.y - a.y ≠ 0 := fun h => hab ⟨hx, h⟩
        refine ⟨(w.y - a.y) / (b.y - a.y), ?_, by field_simp; ring⟩
        rw [hx]
        have : (b.y - a.y) * (w.x - b.x) = 0 := by rw [hx] at hw; linarith
        have := (mul_eq_zero.1 this).resolve_left hy
        linarith
      · refine ⟨(w.x - a.x) / (b.x - a.x), by field_simp; ring, ?_⟩
        field_simp
        linear_combination -hw
    obtain ⟨α, hpx, hpy⟩ := par p h1
    obtain ⟨β, hqx, hqy⟩ := par q h2
    -- the parameter of `z`
    have hsab : s = α + u * (β - α) := by
      rcases not_and_or.1 hab with hx | hy
      · have : (s - (α + u * (β - α))) * (b.x - a.x) = 0 := by
          have : a.x + s * (b.x - a.x) = p.x + u * (q.x - p.x) := by rw [← hsx, hux]
          rw [hpx, hqx] at this
          linear_combination this
        have := (mul_eq_zero.1 this).resolve_right hx
        linarith
      · have : (s - (α + u * (β - α))) * (b.y - a.y) = 0 := by
          have : a.y + s * (b.y - a.y) = p.y + u * (q.y - p.y) := by rw [← hsy, huy]
          rw [hpy, hqy] at this
          linear_combination this
        have := (mul_eq_zero.1 this).resolve_right hy
        linarith
    by_cases hα : 0 ≤ α ∧ α ≤ 1
    · exact Or.inl ⟨h1, rect_of_onSeg ⟨α, hα.1, hα.2, hpx, hpy⟩⟩
    by_cases hβ : 0 ≤ β ∧ β ≤ 1
    · exact Or.inr (Or.inl ⟨h2, rect_of_onSeg ⟨β, hβ.1, hβ.2, hqx, hqy⟩⟩)
    right; right
    have hne : β - α ≠ 0 := by
      intro h
      rw [h] at hsab
      exact hα ⟨by linarith, by linarith⟩
    have hw : 0 ≤ -α / (β - α) ∧ -α / (β - α) ≤ 1 := by
      rcases not_and_or.1 hα with h | h
      · push Not at h
        -- α < 0, so β > 1
        have hb : 0 < β := by
          by_contra hc
          push Not at hc
          rcases not_and_or.1 hβ with h' | h'
          · push Not at h'
            rcases le_total α β with hle | hle
            · nlinarith [mul_nonneg (sub_nonneg.2 hu1) (sub_nonneg.2 hle)]
            · nlinarith [mul_nonneg hu0 (sub_nonneg.2 hle)]
          · linarith
        have : 0 < β - α := by linarith
        exact ⟨div_nonneg (by linarith) this.le, by rw [div_le_one this]; linarith⟩
      · push Not at h
        have hb : β < 0 := by
          by_contra hc
          push Not at hc
          rcases not_and_or.1 hβ with h' | h'
          · linarith
          · push Not at h'
            rcases le_total α β with hle | hle
            · nlinarith [mul_nonneg hu0 (sub_nonneg.2 hle)]
            · nlinarith [mul_nonneg (sub_nonneg.2 hu1) (sub_nonneg.2 hle)]
        have : β - α < 0 := by linarith
        exact ⟨div_nonneg_of_nonpos (by linarith) this.le, by rw [div_le_one_of_neg this]; linarith⟩
    have hax : a.x = p.x + (-α / (β - α)) * (q.x - p.x) := by
      rw [hpx, hqx]; field_simp; ring
    have hay : a.y = p.y + (-α / (β - α)) * (q.y - p.y) := by
      rw [hpy, hqy]; field_simp; ring
    exact ⟨val_onSeg hax hay, rect_of_onSeg ⟨_, hw.1, hw.2, hax, hay⟩⟩

/-- **C11 (partial: away from the origin and outside of the rounding tolerance).** `Line2D.intersecting` is true iff
the two closed segments share a point.  Missing: a segment with an end point in the origin raises
(`C11_origin_fails`), and nearly collinear points count as collinear (`C11_tolerance_fails`). -/
theorem C11_intersecting_partial (a b p q : Point) (ha : NotOrigin a) (hb : NotOrigin b) (hp : NotOrigin p)
    (hq : NotOrigin q) (r1 : Resolved a b p) (r2 : Resolved a b q) (r3 : Resolved p q a) (r4 : Resolved p q b) :
    ∃ v, intersecting a b p q = .ok v ∧ (v = true ↔ ∃ z, OnSeg a b z ∧ OnSeg p q z) := by
  unfold intersecting
  rw [orientation_eq ha hb hp r1, orientation_eq ha hb hq r2, orientation_eq hp hq ha r3, orientation_eq hp hq hb r4]
  simp only [bind, Except.bind, pure, Except.pure]
  by_cases hg : SignType.sign (orientVal a b p) ≠ SignType.sign (orientVal a b q) ∧
      SignType.sign (orientVal p q a) ≠ SignType.sign (orientVal p q b)
  · rw [if_pos hg]
    refine ⟨true, rfl, ?_⟩
    simp only [true_iff]
    obtain ⟨hn1, hl1, hu1⟩ := sign_ne_cases hg.1
    obtain ⟨hn2, hl2, hu2⟩ := sign_ne_cases hg.2
    -- common point
    have hd1 : orientVal a b p - orientVal a b q ≠ 0 := sub_ne_zero.2 hn1
    have hd2 : orientVal p q a - orientVal p q b ≠ 0 := sub_ne_zero.2 hn2
    have hdd : orientVal p q a - orientVal p q b = -(orientVal a b p - orientVal a b q) := by
      unfold orientVal; ring
    refine ⟨⟨a.x + (orientVal p q a / (orientVal p q a - orientVal p q b)) * (b.x - a.x),
      a.y + (orientVal p q a / (orientVal p q a - orientVal p q b)) * (b.y - a.y)⟩,
      ⟨_, hl2, hu2, rfl, rfl⟩, ⟨_, hl1, hu1, ?_, ?_⟩⟩
    · simp only
      apply mul_right_cancel₀ hd1
      rw [add_mul, add_mul, mul_right_comm, mul_right_comm (orientVal a b p / _)]
      rw [div_mul_cancel₀ _ hd1, hdd, div_neg, neg_mul, div_mul_cancel₀ _ hd1]
      unfold orientVal
      ring
    · simp only
      apply mul_right_cancel₀ hd1
      rw [add_mul, add_mul, mul_right_comm, mul_right_comm (orientVal a b p / _)]
      rw [div_mul_cancel₀ _ hd1, hdd, div_neg, neg_mul, div_mul_cancel₀ _ hd1]
      unfold orientVal
      ring
  · rw [if_neg hg]
    by_cases c1 : orientVal a b p = 0 ∧ p.inRect a b
    · rw [if_pos ⟨sign_eq_zero_iff.2 c1.1, c1.2⟩]
      exact ⟨true, rfl, by simp only [true_iff]; exact ⟨p, onSeg_of_rect c1.1 c1.2, 0, le_refl _, zero_le_one, by ring, by ring⟩⟩
    rw [if_neg fun h => c1 ⟨sign_eq_zero_iff.1 h.1, h.2⟩]
    by_cases c2 : orientVal a b q = 0 ∧ q.inRect a b
    · rw [if_pos ⟨sign_eq_zero_iff.2 c2.1, c2.2⟩]
      exact ⟨true, rfl, by simp only [true_iff]; exact ⟨q, onSeg_of_rect c2.1 c2.2, 1, zero_le_one, le_refl _, by ring, by ring⟩⟩
    rw [if_neg fun h => c2 ⟨sign_eq_zero_iff.1 h.1, h.2⟩]
    by_cases c3 : orientVal p q a = 0 ∧ a.inRect p q
    · rw [if_pos ⟨sign_eq_zero_iff.2 c3.1, c3.2⟩]
      exact ⟨true, rfl, by simp only [true_iff]; exact ⟨a, ⟨0, le_refl _, zero_le_one, by ring, by ring⟩, onSeg_of_rect c3.1 c3.2⟩⟩
    rw [if_neg fun h => c3 ⟨sign_eq_zero_iff.1 h.1, h.2⟩]
    by_cases c4 : orientVal p q b = 0 ∧ b.inRect p q
    · rw [if_pos ⟨sign_eq_zero_iff.2 c4.1, c4.2⟩]
      exact ⟨true, rfl, by simp only [true_iff]; exact ⟨b, ⟨1, zero_le_one, le_refl _, by ring, by ring⟩, onSeg_of_rect c4.1 c4.2⟩⟩
    rw [if_neg fun h => c4 ⟨sign_eq_zero_iff.1 h.1, h.2⟩]
    refine ⟨false, rfl, ?_⟩
    simp only [Bool.false_eq_true, false_iff]
    rintro ⟨z, hz1, hz2⟩
    obtain ⟨s, hs0, hs1, hsx, hsy⟩ := hz1
    obtain ⟨u, hu0, hu1, hux, huy⟩ := hz2
    rcases not_and_or.1 hg with h | h
    · push Not at h
      have hz0 : (1 - u) * orientVal a b p + u * orientVal a b q = 0 := by
        rw [← val_convex hux huy, val_onSeg hsx hsy]
      obtain ⟨e1, e2⟩ := both_zero_of_sign_eq hu0 hu1 hz0 h
      rcases collinear_case e1 e2 ⟨s, hs0, hs1, hsx, hsy⟩ ⟨u, hu0, hu1, hux, huy⟩ with h | h | h
      · exact c1 h
      · exact c2 h
      · exact c3 h
    · push Not at h
      have hz0 : (1 - s) * orientVal p q a + s * orientVal p q b = 0 := by
        rw [← val_convex hsx hsy, val_onSeg hux huy]
      obtain ⟨e1, e2⟩ := both_zero_of_sign_eq hs0 hs1 hz0 h
      rcases collinear_case e1 e2 ⟨u, hu0, hu1, hux, huy⟩ ⟨s, hs0, hs1, hsx, hsy⟩ with h | h | h
      · exact c3 h
      · exact c4 h
      · exact c1 h

/-- The hypotheses are met by two crossing segments. -/
example : NotOrigin ⟨1, 1⟩ ∧ NotOrigin ⟨3, 3⟩ ∧ NotOrigin ⟨1, 3⟩ ∧ NotOrigin ⟨3, 1⟩ ∧
    Resolved ⟨1, 1⟩ ⟨3, 3⟩ ⟨1, 3⟩ ∧ OnSeg ⟨1, 1⟩ ⟨3, 3⟩ ⟨2, 2⟩ ∧ OnSeg ⟨1, 3⟩ ⟨3, 1⟩ ⟨2, 2⟩ := by
  refine ⟨by simp [NotOrigin], by simp [NotOrigin], by simp [NotOrigin], by simp [NotOrigin], ?_,
    ⟨1/2, by norm_num⟩, ⟨1/2, by norm_num⟩⟩
  rw [resolved_iff]
  right
  unfold orientVal
  have : orientNorm ⟨1, 1⟩ ⟨3, 3⟩ ⟨1, 3⟩ ≤ 512 := by
    unfold orientNorm
    have : ((1:ℝ) ^ 2 + 1 ^ 2) * (3 ^ 2 + 3 ^ 2) * (1 ^ 2 + 3 ^ 2) = 360 := by norm_num
    simp only [this]
    calc (360:ℝ) ^ (1/3:ℝ) ≤ 360 ^ (1:ℝ) := by
          apply Real.rpow_le_rpow_of_exponent_le <;> norm_num
      _ ≤ 512 := by norm_num
  have ht : tol ≤ 1 / 512 := by unfold tol; norm_num
  have h0 : 0 ≤ tol := by unfold tol; positivity
  calc tol * orientNorm ⟨1, 1⟩ ⟨3, 3⟩ ⟨1, 3⟩ ≤ 1 / 512 * 512 := by
        apply mul_le_mul ht this _ (by norm_num)
        unfold orientNorm
        positivity
    _ ≤ _ := by norm_num

/-- **C11 fails at the origin**: a segment starting in the origin raises ZeroDivisionError, whatever the other
segment is. -/
theorem C11_origin_fails (b p q : Point) : intersecting ⟨0, 0⟩ b p q = .error .zeroDivision := by
  have : orientation ⟨0, 0⟩ b p = .error .zeroDivision := by
    unfold orientation
    rw [if_pos]
    unfold orientNorm
    simp
  unfold intersecting
  rw [this]
  rfl

/-- **C11 fails within the tolerance**: two parallel segments a few 1e-16 apart are reported as intersecting. -/
theorem C11_tolerance_fails :
    ∃ a b p q : Point, intersecting a b p q = .ok true ∧ ¬ ∃ z, OnSeg a b z ∧ OnSeg p q z := by
  let d : ℝ := (2 : ℝ)⁻¹ ^ 52
  have hd : 0 < d := by positivity
  have hd1 : d ≤ 1 / 4 := by
    simp only [d]
    norm_num
  refine ⟨⟨1, 1⟩, ⟨2, 2⟩, ⟨3/2, 3/2 + d⟩, ⟨7/4, 7/4 + d⟩, ?_, ?_⟩
  · have small : ∀ p q r : Point, 1 ≤ p.x → 1 ≤ q.x → 1 ≤ r.x → |orientVal p q r| ≤ d →
        orientation p q r = .ok 0 := by
      intro p q r hp hq hr h
      have hn1 : 1 ≤ orientNorm p q r := by
        unfold orientNorm
        apply Real.one_le_rpow _ (by norm_num)
        have key : ∀ p : Point, 1 ≤ p.x → 1 ≤ p.x ^ 2 + p.y ^ 2 := by
          intro p hp; nlinarith [sq_nonneg p.y]
        exact one_le_mul_of_one_le_of_one_le (one_le_mul_of_one_le_of_one_le (key p hp) (key q hq)) (key r hr)
      unfold orientation
      rw [if_neg (by linarith)]
      simp only
      rw [if_pos]
      rw [abs_div, abs_of_pos (by linarith : (0:ℝ) < orientNorm p q r)]
      calc |orientVal p q r| / orientNorm p q r ≤ |orientVal p q r| := div_le_self (abs_nonneg _) hn1
        _ ≤ d := h
        _ < tol := by unfold tol; linarith
    unfold intersecting
    rw [small _ _ _ (by norm_num) (by norm_num) (by norm_num), small _ _ _ (by norm_num) (by norm_num) (by norm_num),
      small _ _ _ (by norm_num) (by norm_num) (by norm_num), small _ _ _ (by norm_num) (by norm_num) (by norm_num)]
    · simp only [bind, Except.bind, pure, Except.pure]
      rw [if_neg (by simp), if_pos]
      refine ⟨rfl, ?_⟩
      rw [C10_in_rect_iff]
      simp only
      constructor <;> left <;> constructor <;> linarith
    all_goals
      unfold orientVal
      simp only
      rw [abs_le]
      constructor <;> nlinarith
  · rintro ⟨z, ⟨s, _, _, hx, hy⟩, ⟨u, _, _, hx', hy'⟩⟩
    simp only at hx hy hx' hy'
    have : z.x = z.y := by rw [hx, hy]
    rw [hx', hy'] at this
    have : d = 0 := by linarith
    linarith

end Verif.Props.Line2D
