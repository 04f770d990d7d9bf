import Verif.Model.FloatAutoscale
import Verif.Props.Autoscale
import Verif.Props.Float

/-!
C100: autoscale converges on an instrument that rounds its settings and digitises the signal, in double precision.
-/

namespace Verif.Props.AutoscaleReal

open Verif Verif.Autoscale Verif.Float
open Verif.Props.Autoscale (height Extremes)

/-! ### Specification -/

/-- The height on the screen (-1/2 is the lower edge, 1/2 the upper one) of the level `v` after the history `h`: the scale is in units per division, the
position in divisions. -/
def level (dev : Dev) (h : List Ev) (v : ℚ) : ℚ := (v / dev.scale h + dev.position h) / dev.nDiv

/-- The signal between `lo` and `hi` is on the screen. -/
def OnScreen (dev : Dev) (h : List Ev) (lo hi : ℚ) : Prop := -(1 / 2) ≤ level dev h lo ∧ level dev h hi ≤ 1 / 2

/-- An instrument with a steady signal between `lo` and `hi`: it takes the scale with a relative error of at most `ε` and the position with an error of
at most `δ` divisions, it keeps them, and what it records of a signal on the screen has extremes that are off by at most `q` of the screen (noise,
digitising). -/
structure Steady (dev : Dev) (lo hi q ε δ : ℚ) : Prop where
  nDiv_pos : 0 < dev.nDiv
  scale_pos : ∀ h, 0 < dev.scale h
  keeps : ∀ h, (∀ v, dev.scale (h ++ [.setPoints v]) = dev.scale h ∧ dev.position (h ++ [.setPoints v]) = dev.position h) ∧
    dev.scale (h ++ [.acquire]) = dev.scale h ∧ dev.position (h ++ [.acquire]) = dev.position h
  takes : ∀ h s p, 0 < s → |dev.scale (h ++ [.setScale s, .setPosition p]) - s| ≤ ε * s ∧
    |dev.position (h ++ [.setScale s, .setPosition p]) - p| ≤ δ
  sees : ∀ h, OnScreen dev h lo hi → ∃ a l u, dev.acquire h = .ok a ∧ a.clipMin < a.clipMax ∧ Extremes a.y l u ∧
    |height a l - level dev h lo| ≤ q ∧ |height a u - level dev h hi| ≤ q

/-- A picture as it should be: the signal covers 80% ± 5.6% of the screen, its middle is at the middle of the screen within 10.4%. -/
def Fits (dev : Dev) (h : List Ev) (lo hi : ℚ) : Prop :=
  744 / 1000 ≤ level dev h hi - level dev h lo ∧ level dev h hi - level dev h lo ≤ 856 / 1000 ∧
  |(level dev h lo + level dev h hi) / 2| ≤ 104 / 1000

/-! ### One acquisition -/

/-- The part of the screen that is covered. -/
def span (dev : Dev) (h : List Ev) (lo hi : ℚ) : ℚ := level dev h hi - level dev h lo

/-- The middle of the picture. -/
def mid (dev : Dev) (h : List Ev) (lo hi : ℚ) : ℚ := (level dev h lo + level dev h hi) / 2

theorem fl_bounds (R : Rounding) (hu : R.u ≤ 1 / 10 ^ 6) (x : ℚ) (hx : 0 ≤ x) :
    x * (999999 / 1000000) ≤ R.fl x ∧ R.fl x ≤ x * (1000001 / 1000000) := by
  have h := R.err x
  rw [abs_le, abs_of_nonneg hx] at h
  have : R.u * x ≤ 1 / 10 ^ 6 * x := mul_le_mul_of_nonneg_right hu hx
  norm_num at this
  constructor <;> linarith [h.1, h.2]

theorem fl_near (R : Rounding) (hu : R.u ≤ 1 / 10 ^ 6) (x B : ℚ) (hx : |x| ≤ B) : |R.fl x - x| ≤ B / 1000000 := by
  refine (R.err x).trans ?_
  have := mul_le_mul hu hx (abs_nonneg _) (by norm_num)
  linarith

/-- A screen unit in floats. -/
theorem screenF_near (R : Rounding) (hu : R.u ≤ 1 / 10 ^ 6) (a : Acq) (hc : a.clipMin < a.clipMax) (v : ℚ) (h1 : |height a v| ≤ 6 / 10) :
    |screenF R a v - height a v| ≤ 5 / 1000000 := by
  unfold screenF
  set d := a.clipMax - a.clipMin with hd
  have hd0 : 0 < d := by rw [hd]; linarith
  set w := v - a.clipMin with hw
  have hh : height a v = w / d - 1 / 2 := by unfold height; rw [hw, hd]
  obtain ⟨a1, b1, e1⟩ := Props.Float.rel R w
  obtain ⟨a2, b2, e2⟩ := Props.Float.rel R d
  rw [e1, e2]
  rw [hh, abs_le] at h1
  set z := w / d with hz
  have k1 : |a1| ≤ 1 / 10 ^ 6 := b1.trans hu
  have k2 : |a2| ≤ 1 / 10 ^ 6 := b2.trans hu
  rw [abs_le] at k1 k2
  have p2 : (0 : ℚ) < 1 + a2 := by norm_num at k2; linarith
  have e3 : w * (1 + a1) / (d * (1 + a2)) = z * ((1 + a1) / (1 + a2)) := by
    rw [hz]; field_simp
  rw [e3]
  set r := (1 + a1) / (1 + a2) with hr
  have hr1 : |r - 1| ≤ 21 / 10000000 := by
    have : r - 1 = (a1 - a2) / (1 + a2) := by rw [hr]; field_simp; ring
    rw [this, abs_div, abs_of_pos p2, div_le_iff₀ p2, abs_le]
    norm_num at k1 k2
    constructor <;> linarith
  have hz1 : |z| ≤ 11 / 10 := by rw [abs_le]; constructor <;> linarith
  have h3 : |z * r - z| ≤ 11 / 10 * (21 / 10000000) := by
    rw [show z * r - z = z * (r - 1) by ring, abs_mul]
    exact mul_le_mul hz1 hr1 (abs_nonneg _) (by norm_num)
  have h4 : |z * r| ≤ 12 / 10 := by
    rw [abs_le] at h3 hz1 ⊢
    norm_num at h3
    constructor <;> linarith
  have h5 := fl_near R hu (z * r) (12 / 10) h4
  have h6 : |R.fl (z * r) - 1 / 2| ≤ 7 / 10 := by
    rw [abs_le] at h3 h5 ⊢
    norm_num at h3 h5
    constructor <;> linarith
  have h7 := fl_near R hu _ _ h6
  rw [hh]
  rw [abs_le] at h3 h5 h7 ⊢
  norm_num at h3 h5 h7
  constructor <;> linarith

theorem minMax_ok (l : List ℚ) (h : l ≠ []) : ∃ x y, minMax l = .ok (x, y) ∧ x ∈ l ∧ y ∈ l ∧ ∀ v ∈ l, x ≤ v ∧ v ≤ y := by
  obtain ⟨x, y, e, h1, h2, h3⟩ := Props.Autoscale.minMax_spec l h
  exact ⟨x, y, e, h1, h2, h3⟩

/-- What one acquisition of a signal on the screen gives. -/
theorem seen (R : Rounding) (hu : R.u ≤ 1 / 10 ^ 6) {dev : Dev} {lo hi q ε δ : ℚ} (H : Steady dev lo hi q ε δ) (hq : q ≤ 1 / 512) (hlh : lo ≤ hi)
    (log : List Ev) (hs : OnScreen dev log lo hi) :
    ∃ x y, |x - level dev log lo| ≤ 1 / 500 ∧ |y - level dev log hi| ≤ 1 / 500 ∧
      ∀ k, loopF R dev (k + 1) log = match decisionF R dev.nDiv (dev.scale log) (dev.position log) x y with
        | none => (.ok k, log ++ [.acquire])
        | some (s, p) => loopF R dev k (log ++ [.acquire] ++ [.setScale s] ++ [.setPosition p]) := by
  obtain ⟨a, l, u, ha, hc, hx, hl, hu'⟩ := H.sees log hs
  have hn := H.nDiv_pos
  have hsp := H.scale_pos log
  have hmono : level dev log lo ≤ level dev log hi := by
    unfold level
    gcongr
  obtain ⟨h1, h2⟩ := hs
  have hd0 : 0 < a.clipMax - a.clipMin := by linarith
  have hm : ∀ v w : ℚ, v ≤ w → height a v ≤ height a w := by
    intro v w h
    unfold height
    gcongr
  have hall : ∀ v ∈ a.y, |screenF R a v - height a v| ≤ 5 / 1000000 := by
    intro v hv
    refine screenF_near R hu a hc v ?_
    have b1 := hm _ _ (hx.bound v hv).1
    have b2 := hm _ _ (hx.bound v hv).2
    rw [abs_le] at hl hu' ⊢
    constructor <;> linarith
  obtain ⟨x, y, e, mx, my, hb⟩ := minMax_ok (a.y.map (screenF R a)) (by
    intro h
    rw [List.map_eq_nil_iff] at h
    have := hx.lo_mem
    rw [h] at this
    simp at this)
  refine ⟨x, y, ?_, ?_, ?_⟩
  · obtain ⟨v, hv, rfl⟩ := List.mem_map.1 mx
    have b1 := (hb _ (List.mem_map_of_mem hx.lo_mem)).1
    have b2 := hall v hv
    have b3 := hall l hx.lo_mem
    have b4 := hm _ _ (hx.bound v hv).1
    rw [abs_le] at hl b2 b3 ⊢
    constructor <;> linarith
  · obtain ⟨v, hv, rfl⟩ := List.mem_map.1 my
    have b1 := (hb _ (List.mem_map_of_mem hx.hi_mem)).2
    have b2 := hall v hv
    have b3 := hall u hx.hi_mem
    have b4 := hm _ _ (hx.bound v hv).2
    rw [abs_le] at hu' b2 b3 ⊢
    constructor <;> linarith
  · intro k
    rw [loopF]
    simp only [ha, adjustF, e, bind, Except.bind, pure, Except.pure]
    cases decisionF R dev.nDiv (dev.scale log) (dev.position log) x y with
    | none => rfl
    | some r => rfl

/-- The rounding of the new position. -/
theorem position_near (R : Rounding) (hu : R.u ≤ 1 / 10 ^ 6) (n s f p0 c : ℚ) (hs : 0 < s) (hf : 0 < f) :
    |R.fl (R.fl (R.fl (p0 - R.fl (n * c)) * s) / (s * f)) * f - (p0 - n * c)| ≤ 31 / 10 * R.u * |p0 - n * c| + 101 / 100 * R.u * |n * c| := by
  obtain ⟨a1, b1, e1⟩ := Props.Float.rel R (n * c)
  obtain ⟨a2, b2, e2⟩ := Props.Float.rel R (p0 - R.fl (n * c))
  obtain ⟨a3, b3, e3⟩ := Props.Float.rel R (R.fl (p0 - R.fl (n * c)) * s)
  obtain ⟨a4, b4, e4⟩ := Props.Float.rel R (R.fl (R.fl (p0 - R.fl (n * c)) * s) / (s * f))
  have hu0 := R.u_nonneg
  set u := R.u with hudef
  set w := p0 - n * c with hw
  have hval : R.fl (R.fl (R.fl (p0 - R.fl (n * c)) * s) / (s * f)) * f = (w - n * c * a1) * ((1 + a2) * (1 + a3) * (1 + a4)) := by
    rw [e4, e3, e2, e1, hw]
    field_simp
    ring
  rw [hval]
  set θ := (1 + a2) * (1 + a3) * (1 + a4) - 1 with hθ
  have hθ' : θ = a2 + a3 + a4 + a2 * a3 + a2 * a4 + a3 * a4 + a2 * a3 * a4 := by rw [hθ]; ring
  have m : ∀ x y : ℚ, |x| ≤ u → |y| ≤ u → |x * y| ≤ u / 1000000 := by
    intro x y hx hy
    rw [abs_mul]
    have := mul_le_mul hx (hy.trans hu) (abs_nonneg _) hu0
    linarith
  have m23 := m a2 a3 b2 b3
  have m24 := m a2 a4 b2 b4
  have m34 := m a3 a4 b3 b4
  have m234 : |a2 * a3 * a4| ≤ u / 1000000 := by
    rw [abs_mul]
    have h1 : |a2 * a3| ≤ u := by linarith
    have := mul_le_mul h1 (b4.trans hu) (abs_nonneg _) hu0
    linarith
  have hθb : |θ| ≤ 31 / 10 * u := by
    rw [hθ']
    rw [abs_le] at b2 b3 b4 m23 m24 m34 m234 ⊢
    constructor <;> linarith [b2.1, b2.2, b3.1, b3.2, b4.1, b4.2, m23.1, m23.2, m24.1, m24.2, m34.1, m34.2, m234.1, m234.2]
  have hθ1 : |1 + θ| ≤ 101 / 100 := by
    rw [abs_le] at hθb ⊢
    constructor <;> linarith
  have e5 : (w - n * c * a1) * ((1 + a2) * (1 + a3) * (1 + a4)) - w = θ * w - n * c * a1 * (1 + θ) := by
    rw [hθ]; ring
  rw [e5]
  refine (abs_sub _ _).trans ?_
  rw [abs_mul, abs_mul, abs_mul (n * c) a1]
  have q1 : |θ| * |w| ≤ 31 / 10 * u * |w| := mul_le_mul_of_nonneg_right hθb (abs_nonneg _)
  have q2 : |n * c| * |a1| * |1 + θ| ≤ 101 / 100 * u * |n * c| := by
    have := mul_le_mul (mul_le_mul_of_nonneg_left b1 (abs_nonneg (n * c))) hθ1 (abs_nonneg _) (by positivity)
    linarith
  linarith

/-- The new picture in numbers. -/
theorem moved_core (R : Rounding) (hu : R.u ≤ 1 / 10 ^ 6) {n s f lo hi p0 p1 c e d ε : ℚ} (hn : 0 < n) (hs : 0 < s) (hf : 0 < f) (hlh : lo ≤ hi)
    (he : |e| ≤ ε) (hε : ε ≤ 1 / 100) (hd : |d| ≤ n / 200) (hoff : ε * |lo + hi| ≤ (hi - lo) / 100) (huo : R.u * |lo + hi| ≤ (hi - lo) / 10 ^ 4)
    (hp : p1 = R.fl (R.fl (R.fl (p0 - R.fl (n * c)) * s) / (s * f)) + d)
    (hc : |c - ((lo / s + p0) / n + (hi / s + p0) / n) / 2| ≤ 1 / 490) (hmid : |((lo / s + p0) / n + (hi / s + p0) / n) / 2| ≤ 1 / 2)
    {s1 : ℚ} (hs1 : s1 = s * f * (1 + e)) :
    0 ≤ (hi - lo) / (n * s1) ∧ (hi - lo) / (n * s) = (hi - lo) / (n * s1) * f * (1 + e) ∧
    |((lo / s1 + p1) / n + (hi / s1 + p1) / n) / 2| * f ≤ 1 / 489 + f * ((hi - lo) / (n * s1) / 190 + 1 / 200) := by
  have hu0 := R.u_nonneg
  have he2 : |e| ≤ 1 / 100 := he.trans hε
  rw [abs_le] at he2
  have h1e : 0 < 1 + e := by linarith
  have hs10 : 0 < s1 := by rw [hs1]; positivity
  set σ1 := (hi - lo) / (n * s1) with hσ1
  have hhl : 0 ≤ hi - lo := by linarith
  have hσ0 : 0 ≤ σ1 := by rw [hσ1]; positivity
  refine ⟨hσ0, ?_, ?_⟩
  · rw [hσ1, hs1]; field_simp
  set m := ((lo / s + p0) / n + (hi / s + p0) / n) / 2 with hm
  set P := R.fl (R.fl (R.fl (p0 - R.fl (n * c)) * s) / (s * f)) with hP
  have hpos := position_near R hu n s f p0 c hs hf
  rw [← hP] at hpos
  set w := p0 - n * c with hw
  set C := (lo + hi) / 2 / s1 with hC
  have key : n * (((lo / s1 + p1) / n + (hi / s1 + p1) / n) / 2 * f) = n * (m - c) - e * (C * f) + (P * f - w) + d * f := by
    rw [hm, hC, hw, hp, hs1]
    field_simp
    ring
  -- the middle of the signal in the new picture
  have hCb : ∀ z : ℚ, 0 ≤ z → ∀ B, z * |lo + hi| ≤ (hi - lo) / B → 0 < B → z * |C| ≤ n * σ1 / (2 * B) := by
    intro z hz B hB hB0
    have e1 : |C| = |lo + hi| / (2 * s1) := by
      rw [hC, abs_div, abs_div, abs_of_pos hs10, abs_two]
      field_simp
    have e2 : n * σ1 / (2 * B) = (hi - lo) / B / (2 * s1) := by
      rw [hσ1]; field_simp
    rw [e1, e2, ← mul_div_assoc]
    gcongr
  have hε0 : 0 ≤ ε := (abs_nonneg _).trans he
  have c1 := hCb ε hε0 100 hoff (by norm_num)
  have c2 := hCb R.u hu0 (10 ^ 4) huo (by norm_num)
  have c3 : |e * (C * f)| ≤ f * (n * σ1 / 200) := by
    rw [abs_mul, abs_mul, abs_of_pos hf]
    have := mul_le_mul_of_nonneg_right he (by positivity : 0 ≤ |C| * f)
    have := mul_le_mul_of_nonneg_right c1 hf.le
    linarith
  have hcb : |c| ≤ 6 / 10 := by
    rw [abs_le] at hc hmid ⊢
    constructor <;> linarith
  have hnc : |n * c| ≤ n * (6 / 10) := by
    rw [abs_mul, abs_of_pos hn]
    exact mul_le_mul_of_nonneg_left hcb hn.le
  have hmc : |n * (m - c)| ≤ n / 490 := by
    rw [abs_mul, abs_of_pos hn, abs_sub_comm]
    have := mul_le_mul_of_nonneg_left hc hn.le
    linarith
  have hwb : |w| ≤ n / 490 + 101 / 100 * (|C| * f) := by
    have e1 : w = n * (m - c) - (1 + e) * (C * f) := by
      rw [hw, hm, hC, hs1]
      field_simp
      ring
    rw [e1]
    refine (abs_sub _ _).trans ?_
    have : |(1 + e) * (C * f)| ≤ 101 / 100 * (|C| * f) := by
      rw [abs_mul, abs_mul, abs_of_pos hf, abs_of_pos h1e]
      exact mul_le_mul_of_nonneg_right (by linarith) (by positivity)
    linarith
  have hπ : |P * f - w| ≤ n / 10 ^ 6 + f * (n * σ1 * (32 / 200000)) := by
    have q1 := mul_le_mul_of_nonneg_left hwb (by positivity : 0 ≤ 31 / 10 * R.u)
    have q2 := mul_le_mul_of_nonneg_left hnc (by positivity : 0 ≤ 101 / 100 * R.u)
    have q3 := mul_le_mul_of_nonneg_right hu hn.le
    have q4 := mul_le_mul_of_nonneg_right c2 hf.le
    have q5 : 31 / 10 * R.u * (n / 490 + 101 / 100 * (|C| * f)) = 31 / 4900 * (R.u * n) + 3131 / 1000 * (R.u * |C| * f) := by ring
    rw [q5] at q1
    have q6 : 101 / 100 * R.u * (n * (6 / 10)) = 606 / 1000 * (R.u * n) := by ring
    rw [q6] at q2
    have q7 : f * (n * σ1 * (32 / 200000)) = 32 / 10 * (n * σ1 / (2 * 10 ^ 4) * f) := by ring
    have q8 : 0 ≤ n * σ1 / (2 * 10 ^ 4) * f := by positivity
    rw [q7]
    norm_num at q3 q4 q8 ⊢
    linarith
  have hdf : |d * f| ≤ n / 200 * f := by
    rw [abs_mul, abs_of_pos hf]
    exact mul_le_mul_of_nonneg_right hd hf.le
  have fin : n * (|((lo / s1 + p1) / n + (hi / s1 + p1) / n) / 2| * f) ≤ n * (1 / 489 + f * (σ1 / 190 + 1 / 200)) := by
    have e1 : n * (|((lo / s1 + p1) / n + (hi / s1 + p1) / n) / 2| * f) =
        |n * (((lo / s1 + p1) / n + (hi / s1 + p1) / n) / 2 * f)| := by
      rw [abs_mul, abs_of_pos hn, abs_mul, abs_of_pos hf]
    rw [e1, key]
    have h3 := abs_add_le (n * (m - c) - e * (C * f) + (P * f - w)) (d * f)
    have h4 := abs_add_le (n * (m - c) - e * (C * f)) (P * f - w)
    have h5 := abs_sub (n * (m - c)) (e * (C * f))
    have h6 : 0 ≤ f * (n * σ1) := by positivity
    have h7 : n * (1 / 489 + f * (σ1 / 190 + 1 / 200)) = n / 489 + f * (n * σ1) / 190 + n / 200 * f := by ring
    rw [h7]
    have h8 : f * (n * σ1 / 200) = f * (n * σ1) / 200 := by ring
    have h9 : f * (n * σ1 * (32 / 200000)) = f * (n * σ1) * (32 / 200000) := by ring
    rw [h8] at c3
    rw [h9] at hπ
    norm_num at hπ
    linarith
  exact le_of_mul_le_mul_left fin hn

/-- The new picture after the scale was multiplied by `f` and the position set for the seen middle `c`. -/
theorem moved (R : Rounding) (hu : R.u ≤ 1 / 10 ^ 6) {dev : Dev} {lo hi q ε δ : ℚ} (H : Steady dev lo hi q ε δ) (hε : ε ≤ 1 / 100)
    (hδ : δ ≤ dev.nDiv / 200) (hoff : ε * |lo + hi| ≤ (hi - lo) / 100) (huo : R.u * |lo + hi| ≤ (hi - lo) / 10 ^ 4) (hlh : lo ≤ hi)
    (log : List Ev) (f c : ℚ) (hf : 0 < f) (hc : |c - mid dev log lo hi| ≤ 1 / 490) (hmid : |mid dev log lo hi| ≤ 1 / 2) :
    let p := R.fl (R.fl (R.fl (dev.position log - R.fl (dev.nDiv * c)) * dev.scale log) / (dev.scale log * f))
    let log' := log ++ [.acquire] ++ [.setScale (dev.scale log * f)] ++ [.setPosition p]
    0 ≤ span dev log' lo hi ∧ span dev log' lo hi * f * (99 / 100) ≤ span dev log lo hi ∧
    span dev log lo hi ≤ span dev log' lo hi * f * (101 / 100) ∧
    |mid dev log' lo hi| * f ≤ 1 / 489 + f * (span dev log' lo hi / 190 + 1 / 200) := by
  intro p log'
  have hpe : p = R.fl (R.fl (R.fl (dev.position log - R.fl (dev.nDiv * c)) * dev.scale log) / (dev.scale log * f)) := rfl
  clear_value p
  have hn := H.nDiv_pos
  have hs0 := H.scale_pos log
  have hsf : 0 < dev.scale log * f := by positivity
  have hlog : log' = log ++ [.acquire] ++ [.setScale (dev.scale log * f), .setPosition p] := by
    simp [log']
  have ht := H.takes (log ++ [.acquire]) (dev.scale log * f) p hsf
  rw [← hlog] at ht
  have hs1 := H.scale_pos log'
  obtain ⟨t1, t2⟩ := ht
  have hdiff : ∀ (z q : ℚ), 0 < z → (hi / z + q) / dev.nDiv - (lo / z + q) / dev.nDiv = (hi - lo) / (dev.nDiv * z) := by
    intro z q hz
    field_simp
    ring
  unfold span mid level at *
  rw [hdiff _ _ hs1, hdiff _ _ hs0]
  generalize hz1 : dev.scale log' = s1 at *
  generalize hz2 : dev.position log' = p1 at *
  generalize dev.scale log = s at *
  generalize dev.position log = p0 at *
  generalize dev.nDiv = n at *
  set e := s1 / (s * f) - 1 with he
  have es1 : s1 = s * f * (1 + e) := by rw [he]; field_simp; ring
  have he1 : |e| ≤ ε := by
    have : s1 - s * f = s * f * e := by rw [es1]; ring
    rw [this, abs_mul, abs_of_pos hsf] at t1
    exact le_of_mul_le_mul_left (by linarith) hsf
  obtain ⟨r1, r2, r3⟩ := moved_core R hu hn hs0 hf hlh he1 hε (t2.trans hδ) hoff huo (show p1 = _ + (p1 - p) by rw [← hpe]; ring) hc hmid es1
  have he2 := he1.trans hε
  rw [abs_le] at he2
  have r4 : 0 ≤ (hi - lo) / (n * s1) * f := by positivity
  refine ⟨r1, ?_, ?_, r3⟩
  · rw [r2]
    exact mul_le_mul_of_nonneg_left (by linarith) r4
  · rw [r2]
    exact mul_le_mul_of_nonneg_left (by linarith) r4

/-! ### The decision -/

/-- The new factor of the scale for a picture from `x` to `y` with the computed span `z` and middle `c`. -/
inductive Factor (x y z c f : ℚ) : Prop
  | out : (449 / 1000 < y ∨ x < -(449 / 1000)) → 599 / 1000 < z → 399 / 100 ≤ f → f ≤ 401 / 100 → Factor x y z c f
  | quarter : (449 / 1000 < y ∨ x < -(449 / 1000)) → z < 101 / 1000 → 249 / 1000 ≤ f → f ≤ 251 / 1000 → Factor x y z c f
  | same : (449 / 1000 < y ∨ x < -(449 / 1000)) → 99 / 1000 ≤ z → z ≤ 601 / 1000 → f = 1 → Factor x y z c f
  | tenth : z < 51 / 1000 → 99 / 1000 ≤ f → f ≤ 101 / 1000 → Factor x y z c f
  | fit : 49 / 1000 ≤ z → (z < 751 / 1000 ∨ 849 / 1000 < z) → z * (999 / 1000) ≤ f * (8 / 10) → f * (8 / 10) ≤ z * (1001 / 1000) → Factor x y z c f
  | centre : 749 / 1000 ≤ z → z ≤ 851 / 1000 → 99 / 1000 < |c| → f = 1 → Factor x y z c f

theorem decision_cases (R : Rounding) (hu : R.u ≤ 1 / 10 ^ 6) (n s p x y : ℚ) (hs : 0 < s) :
    let z := R.fl (y - x)
    let c := R.fl (R.fl (x + y) / 2)
    (decisionF R n s p x y = none ∧ 749 / 1000 ≤ z ∧ z ≤ 851 / 1000 ∧ |c| ≤ 101 / 1000) ∨
    ∃ f, 0 < f ∧ decisionF R n s p x y = some (s * f, R.fl (R.fl (R.fl (p - R.fl (n * c)) * s) / (s * f))) ∧ Factor x y z c f := by
  intro z c
  have t45 := fl_bounds R hu (45 / 100) (by norm_num)
  have t6 := fl_bounds R hu (6 / 10) (by norm_num)
  have t1 := fl_bounds R hu (1 / 10) (by norm_num)
  have t5 := fl_bounds R hu (5 / 100) (by norm_num)
  have t75 := fl_bounds R hu (75 / 100) (by norm_num)
  have t85 := fl_bounds R hu (85 / 100) (by norm_num)
  have t8 := fl_bounds R hu (8 / 10) (by norm_num)
  norm_num at t45 t6 t1 t5 t75 t85 t8
  have scaled : ∀ g : ℚ, 0 < g → ∃ f, 0 < f ∧ R.fl (s * g) = s * f ∧ g * (999999 / 1000000) ≤ f ∧ f ≤ g * (1000001 / 1000000) := by
    intro g hg
    have h := fl_bounds R hu (s * g) (by positivity)
    have h0 : 0 < R.fl (s * g) := lt_of_lt_of_le (by positivity) h.1
    refine ⟨R.fl (s * g) / s, by positivity, by field_simp, ?_, ?_⟩
    · rw [le_div_iff₀ hs]; linarith [h.1]
    · rw [div_le_iff₀ hs]; linarith [h.2]
  obtain ⟨f4, p4, e4, l4, u4⟩ := scaled 4 (by norm_num)
  obtain ⟨fq, pq, eq, lq, uq⟩ := scaled (1 / 4) (by norm_num)
  obtain ⟨ft, pt, et, lt, ut⟩ := scaled (1 / 10) (by norm_num)
  rw [show s * (1 / 4) = s / 4 by ring] at eq
  rw [show s * (1 / 10) = s / 10 by ring] at et
  norm_num at l4 u4 lq uq lt ut
  have clip : (449 / 1000 < y ∨ x < -(449 / 1000)) → ∃ f, 0 < f ∧
      (if R.fl (6 / 10) < z then R.fl (s * 4) else if z < R.fl (1 / 10) then R.fl (s / 4) else s) = s * f ∧ Factor x y z c f := by
    intro hcl
    split_ifs with h1 h2
    · exact ⟨f4, p4, e4, .out hcl (by norm_num at h1; linarith) (by linarith) (by linarith)⟩
    · exact ⟨fq, pq, eq, .quarter hcl (by norm_num at h2; linarith) (by linarith) (by linarith)⟩
    · push Not at h1 h2
      norm_num at h1 h2
      exact ⟨1, one_pos, by ring, .same hcl (by linarith) (by linarith) rfl⟩
  unfold decisionF
  simp only [Bool.or_eq_true, decide_eq_true_eq]
  change (if R.fl (45 / 100) < y then _ else _ : Option (ℚ × ℚ)) = none ∧ _ ∨ _
  by_cases h1 : R.fl (45 / 100) < y
  · right
    obtain ⟨f, hf, ef, hF⟩ := clip (.inl (by norm_num at h1; linarith))
    refine ⟨f, hf, ?_, hF⟩
    rw [if_pos h1, ef]
  · simp only [if_neg h1]
    by_cases h2 : x < -R.fl (45 / 100)
    · right
      obtain ⟨f, hf, ef, hF⟩ := clip (.inr (by norm_num at h2; linarith))
      refine ⟨f, hf, ?_, hF⟩
      rw [if_pos h2, ef]
    · simp only [if_neg h2]
      by_cases h3 : z < R.fl (5 / 100)
      · right
        refine ⟨ft, pt, ?_, .tenth (by norm_num at h3; linarith) (by linarith) (by linarith)⟩
        rw [if_pos h3, et]
      · have h3' : 49 / 1000 ≤ z := by push Not at h3; norm_num at h3; linarith
        by_cases h4 : z < R.fl (75 / 100) ∨ R.fl (85 / 100) < z
        · right
          have hz0 : 0 < z := by linarith
          have h4' : z < 751 / 1000 ∨ 849 / 1000 < z := by
            rcases h4 with h4 | h4
            · left; norm_num at h4; linarith
            · right; norm_num at h4; linarith
          -- the new scale
          have ha0 : 0 < R.fl (8 / 10) / z := div_pos (by norm_num; linarith) hz0
          have hb := fl_bounds R hu (R.fl (8 / 10) / z) ha0.le
          set b := R.fl (R.fl (8 / 10) / z) with hbdef
          have hb0 : 0 < b := lt_of_lt_of_le (by positivity) hb.1
          have hc' := fl_bounds R hu (s / b) (by positivity)
          set S := R.fl (s / b) with hS
          have hS0 : 0 < S := lt_of_lt_of_le (by positivity) hc'.1
          have b1 : b * z * (8 / 10) ≤ 64001 / 100000 := by
            have h := mul_le_mul_of_nonneg_right hb.2 hz0.le
            rw [show R.fl (8 / 10) / z * (1000001 / 1000000) * z = R.fl (8 / 10) * (1000001 / 1000000) by field_simp] at h
            norm_num at h ⊢
            linarith
          have b2 : 63999 / 100000 ≤ b * z * (8 / 10) := by
            have h := mul_le_mul_of_nonneg_right hb.1 hz0.le
            rw [show R.fl (8 / 10) / z * (999999 / 1000000) * z = R.fl (8 / 10) * (999999 / 1000000) by field_simp] at h
            norm_num at h ⊢
            linarith
          have hf1 : S / s * b ≤ 1000001 / 1000000 := by
            rw [div_mul_eq_mul_div, div_le_iff₀ hs]
            have h := mul_le_mul_of_nonneg_right hc'.2 hb0.le
            rw [show s / b * (1000001 / 1000000) * b = s * (1000001 / 1000000) by field_simp] at h
            linarith
          have hf2 : 999999 / 1000000 ≤ S / s * b := by
            rw [div_mul_eq_mul_div, le_div_iff₀ hs]
            have h := mul_le_mul_of_nonneg_right hc'.1 hb0.le
            rw [show s / b * (999999 / 1000000) * b = s * (999999 / 1000000) by field_simp] at h
            linarith
          set f := S / s with hf
          have hf0 : 0 < f := by positivity
          have hSf : S = s * f := by rw [hf]; field_simp
          have r1 : z * (999 / 1000) ≤ f * (8 / 10) := by
            have h1 := mul_le_mul_of_nonneg_left b1 hf0.le
            have h2 := mul_le_mul_of_nonneg_right hf2 hz0.le
            linarith
          have r2 : f * (8 / 10) ≤ z * (1001 / 1000) := by
            have h1 := mul_le_mul_of_nonneg_left b2 hf0.le
            have h2 := mul_le_mul_of_nonneg_right hf1 hz0.le
            linarith
          have hne : S ≠ s := by
            intro h
            have : f = 1 := by rw [hf, h, div_self hs.ne']
            rw [this] at r1 r2
            rcases h4' with h | h <;> linarith
          refine ⟨f, hf0, ?_, .fit h3' h4' r1 r2⟩
          rw [if_neg h3, if_pos h4, if_pos (.inr (.inr hne)), hSf]
        · rw [if_neg h3, if_neg h4]
          have h4o := h4
          push Not at h4
          norm_num at h4
          by_cases h5 : R.fl (1 / 10) < c ∨ c < -R.fl (1 / 10) ∨ s ≠ s
          · right
            refine ⟨1, one_pos, ?_, .centre (by linarith) (by linarith) ?_ rfl⟩
            · rw [if_pos h5, mul_one]
            · rw [lt_abs]
              norm_num at h5
              rcases h5 with h5 | h5
              · left; linarith
              · right; linarith
          · left
            rw [if_neg h5, if_neg h4o]
            push Not at h5
            norm_num at h5
            refine ⟨rfl, by linarith, by linarith, ?_⟩
            rw [abs_le]
            constructor <;> linarith

/-! ### Convergence -/

section converge
variable (R : Rounding) (hu : R.u ≤ 1 / 10 ^ 6) {dev : Dev} {lo hi q ε δ : ℚ} (H : Steady dev lo hi q ε δ) (hq : q ≤ 1 / 512) (hε : ε ≤ 1 / 100)
  (hδ : δ ≤ dev.nDiv / 200) (hoff : ε * |lo + hi| ≤ (hi - lo) / 100) (huo : R.u * |lo + hi| ≤ (hi - lo) / 10 ^ 4) (hlh : lo ≤ hi)
include hu H hq hε hδ hoff huo hlh

/-- One attempt. -/
theorem attempt (log : List Ev) (hs : OnScreen dev log lo hi) :
    ∃ x y z c, |x - level dev log lo| ≤ 1 / 500 ∧ |y - level dev log hi| ≤ 1 / 500 ∧ |z - span dev log lo hi| ≤ 1 / 240 ∧
      |c - mid dev log lo hi| ≤ 1 / 490 ∧
      ((Fits dev log lo hi ∧ ∀ k, loopF R dev (k + 1) log = (.ok k, log ++ [.acquire])) ∨
        ∃ f log', 0 < f ∧ Factor x y z c f ∧ (∀ k, loopF R dev (k + 1) log = loopF R dev k log') ∧
          0 ≤ span dev log' lo hi ∧ span dev log' lo hi * f * (99 / 100) ≤ span dev log lo hi ∧
          span dev log lo hi ≤ span dev log' lo hi * f * (101 / 100) ∧
          |mid dev log' lo hi| * f ≤ 1 / 489 + f * (span dev log' lo hi / 190 + 1 / 200)) := by
  obtain ⟨x, y, hx, hy, hl⟩ := seen R hu H hq hlh log hs
  have hn := H.nDiv_pos
  have hsp := H.scale_pos log
  have hmono : level dev log lo ≤ level dev log hi := by
    unfold level
    gcongr
  obtain ⟨h1, h2⟩ := hs
  have hx' := abs_le.1 hx
  have hy' := abs_le.1 hy
  have hz : |R.fl (y - x) - span dev log lo hi| ≤ 1 / 240 := by
    have := fl_near R hu (y - x) 2 (by rw [abs_le]; constructor <;> linarith)
    unfold span
    rw [abs_le] at this ⊢
    norm_num at this
    constructor <;> linarith
  have hc : |R.fl (R.fl (x + y) / 2) - mid dev log lo hi| ≤ 1 / 490 := by
    have t1 := fl_near R hu (x + y) 2 (by rw [abs_le]; constructor <;> linarith)
    rw [abs_le] at t1
    norm_num at t1
    have t2 := fl_near R hu (R.fl (x + y) / 2) 2 (by rw [abs_le]; constructor <;> linarith)
    unfold mid
    rw [abs_le] at t2 ⊢
    norm_num at t2
    constructor <;> linarith
  have hmid : |mid dev log lo hi| ≤ 1 / 2 := by
    unfold mid
    rw [abs_le]
    constructor <;> linarith
  refine ⟨x, y, _, _, hx, hy, hz, hc, ?_⟩
  rcases decision_cases R hu dev.nDiv (dev.scale log) (dev.position log) x y hsp with ⟨hd, z1, z2, c1⟩ | ⟨f, hf, hd, hF⟩
  · left
    constructor
    · unfold Fits
      rw [abs_le] at hz hc c1
      change 744 / 1000 ≤ span dev log lo hi ∧ span dev log lo hi ≤ 856 / 1000 ∧ |mid dev log lo hi| ≤ 104 / 1000
      rw [abs_le]
      refine ⟨?_, ?_, ?_, ?_⟩ <;> linarith
    · intro k
      rw [hl k, hd]
  · right
    refine ⟨f, _, hf, hF, fun k => ?_, moved R hu H hε hδ hoff huo hlh log f _ hf hc hmid⟩
    rw [hl k, hd]

/-- From here autoscale needs at most `N` more acquisitions. -/
def Done (R : Rounding) (dev : Dev) (lo hi : ℚ) (N : ℕ) (log : List Ev) : Prop :=
  ∀ k, ∃ j l, loopF R dev (k + N) log = (.ok j, l ++ [.acquire]) ∧ k ≤ j ∧ Fits dev l lo hi

omit hu H hq hε hδ hoff huo hlh in
theorem Done.more {R : Rounding} {dev : Dev} {lo hi : ℚ} {N M : ℕ} {log : List Ev} (h : Done R dev lo hi N log) (hNM : N ≤ M) : Done R dev lo hi M log := by
  intro k
  obtain ⟨j, l, e, hk, hf⟩ := h (k + (M - N))
  refine ⟨j, l, ?_, by omega, hf⟩
  rw [← e]
  congr 1
  omega

omit hu H hq hε hδ hoff huo hlh in
theorem Done.next {R : Rounding} {dev : Dev} {lo hi : ℚ} {N : ℕ} {log log' : List Ev} (h : Done R dev lo hi N log')
    (e : ∀ k, loopF R dev (k + 1) log = loopF R dev k log') : Done R dev lo hi (N + 1) log := by
  intro k
  obtain ⟨j, l, e', hk, hf⟩ := h k
  exact ⟨j, l, by rw [← e', ← e, Nat.add_assoc], hk, hf⟩

omit hu H hq hε hδ hoff huo hlh in
theorem Done.stop {R : Rounding} {dev : Dev} {lo hi : ℚ} {log : List Ev} (hf : Fits dev log lo hi)
    (e : ∀ k, loopF R dev (k + 1) log = (.ok k, log ++ [.acquire])) : Done R dev lo hi 1 log :=
  fun k => ⟨k, log, e k, le_rfl, hf⟩

omit hu H hq hε hδ hoff huo hlh in
theorem levels (dev : Dev) (log : List Ev) (lo hi : ℚ) : level dev log lo = mid dev log lo hi - span dev log lo hi / 2 ∧
    level dev log hi = mid dev log lo hi + span dev log lo hi / 2 := by
  unfold mid span
  constructor <;> ring

/-- A good picture is recognised. -/
theorem settle (log : List Ev) (s1 : 76 / 100 ≤ span dev log lo hi) (s2 : span dev log lo hi ≤ 835 / 1000)
    (m : |mid dev log lo hi| ≤ 25 / 1000) : Done R dev lo hi 1 log := by
  obtain ⟨e1, e2⟩ := levels dev log lo hi
  rw [abs_le] at m
  obtain ⟨x, y, z, c, hx, hy, hz, hc, h⟩ := attempt R hu H hq hε hδ hoff huo hlh log ⟨by rw [e1]; linarith, by rw [e2]; linarith⟩
  rw [abs_le] at hx hy hz hc
  rcases h with ⟨hf, e⟩ | ⟨f, log', hf, hF, -⟩
  · exact .stop hf e
  · exfalso
    cases hF with
    | out h => rcases h with h | h <;> linarith
    | quarter h => rcases h with h | h <;> linarith
    | same h => rcases h with h | h <;> linarith
    | tenth h => linarith
    | fit h1 h2 => rcases h2 with h | h <;> linarith
    | centre h1 h2 h3 =>
      rw [lt_abs] at h3
      rcases h3 with h | h <;> linarith

omit hu H hq hε hδ hoff huo hlh in
/-- The picture after a change of the scale that makes the signal cover 80% of the screen. -/
theorem fitted {σ z f σ' m' z0 : ℚ} (hz0 : 0 < z0) (hz : z0 ≤ z) (hzσ : |z - σ| ≤ 1 / 240) (h1 : z * (999 / 1000) ≤ f * (8 / 10))
    (h2 : f * (8 / 10) ≤ z * (1001 / 1000)) (g1 : σ' * f * (99 / 100) ≤ σ) (g2 : σ ≤ σ' * f * (101 / 100))
    (g0 : 0 ≤ σ') (gm : |m'| * f ≤ 1 / 489 + f * (σ' / 190 + 1 / 200)) :
    σ' * (99 / 100) * (999 / 1000) ≤ 8 / 10 * (1 + 1 / 240 / z0) ∧ 8 / 10 * (1 - 1 / 240 / z0) ≤ σ' * (101 / 100) * (1001 / 1000) ∧
    |m'| ≤ 1 / 489 / (z0 * (999 / 800)) + σ' / 190 + 1 / 200 := by
  have hz1 : 0 < z := by linarith
  rw [abs_le] at hzσ
  have hf : 0 < f := by linarith
  have d : 1 / 240 ≤ 1 / 240 / z0 * z := by
    rw [div_mul_eq_mul_div, le_div_iff₀ hz0]
    linarith
  refine ⟨?_, ?_, ?_⟩
  · have a1 := mul_le_mul_of_nonneg_left h1 (by positivity : 0 ≤ σ' * (99 / 100))
    have : σ' * (99 / 100) * (999 / 1000) * z ≤ 8 / 10 * (1 + 1 / 240 / z0) * z := by linarith
    exact le_of_mul_le_mul_right this hz1
  · have a1 := mul_le_mul_of_nonneg_left h2 (by positivity : 0 ≤ σ' * (101 / 100))
    have : 8 / 10 * (1 - 1 / 240 / z0) * z ≤ σ' * (101 / 100) * (1001 / 1000) * z := by linarith
    exact le_of_mul_le_mul_right this hz1
  · have a1 : z0 * (999 / 800) ≤ f := by linarith
    have a0 : 0 < z0 * (999 / 800) := by positivity
    have a2 : 1 / 489 ≤ 1 / 489 / (z0 * (999 / 800)) * f := by
      rw [div_mul_eq_mul_div, le_div_iff₀ a0]
      linarith
    have : |m'| * f ≤ (1 / 489 / (z0 * (999 / 800)) + σ' / 190 + 1 / 200) * f := by linarith
    exact le_of_mul_le_mul_right this hf

/-- From a picture of reasonable size two acquisitions are needed. -/
theorem resize (log : List Ev) (s1 : 15 / 100 ≤ span dev log lo hi) (s2 : span dev log lo hi ≤ 76 / 100)
    (m : |mid dev log lo hi| ≤ 5 / 100) : Done R dev lo hi 2 log := by
  obtain ⟨e1, e2⟩ := levels dev log lo hi
  rw [abs_le] at m
  obtain ⟨x, y, z, c, hx, hy, hz, hc, h⟩ := attempt R hu H hq hε hδ hoff huo hlh log ⟨by rw [e1]; linarith, by rw [e2]; linarith⟩
  have hz' := hz
  rw [abs_le] at hx hy hz hc
  rcases h with ⟨hf, e⟩ | ⟨f, log', hf, hF, e, g0, g1, g2, gm⟩
  · exact (Done.stop hf e).more (by norm_num)
  · cases hF with
    | out h => exfalso; rcases h with h | h <;> linarith
    | quarter h => exfalso; rcases h with h | h <;> linarith
    | same h => exfalso; rcases h with h | h <;> linarith
    | tenth h => exfalso; linarith
    | fit h1 h2 h3 h4 =>
      obtain ⟨r1, r2, r3⟩ := fitted (z0 := 145 / 1000) (by norm_num) (by linarith) hz' h3 h4 g1 g2 g0 gm
      norm_num at r1 r2 r3
      exact Done.next (settle R hu H hq hε hδ hoff huo hlh log' (by linarith) (by linarith) (by linarith)) e
    | centre h1 h2 h3 =>
      exfalso
      rw [lt_abs] at h3
      rcases h3 with h | h <;> linarith

/-- From a picture of about the right size three acquisitions are needed at most. -/
theorem nearly (log : List Ev) (s1 : 7 / 10 ≤ span dev log lo hi) (s2 : span dev log lo hi ≤ 9 / 10)
    (m : |mid dev log lo hi| ≤ 5 / 100) : Done R dev lo hi 3 log := by
  obtain ⟨e1, e2⟩ := levels dev log lo hi
  rw [abs_le] at m
  obtain ⟨x, y, z, c, hx, hy, hz, hc, h⟩ := attempt R hu H hq hε hδ hoff huo hlh log ⟨by rw [e1]; linarith, by rw [e2]; linarith⟩
  have hz' := hz
  rw [abs_le] at hx hy hz hc
  rcases h with ⟨hf, e⟩ | ⟨f, log', hf, hF, e, g0, g1, g2, gm⟩
  · exact (Done.stop hf e).more (by norm_num)
  · cases hF with
    | out h h1 h2 h3 =>
      have a1 := mul_le_mul_of_nonneg_left h2 g0
      have a2 := mul_le_mul_of_nonneg_left h3 g0
      have a3 := mul_le_mul_of_nonneg_left h2 (abs_nonneg (mid dev log' lo hi))
      have a4 : f * (span dev log' lo hi / 190 + 1 / 200) ≤ 401 / 100 * (span dev log' lo hi / 190 + 1 / 200) :=
        mul_le_mul_of_nonneg_right h3 (by positivity)
      exact Done.next (resize R hu H hq hε hδ hoff huo hlh log' (by linarith) (by linarith) (by linarith)) e
    | quarter h h1 => exfalso; linarith
    | same h h1 h2 => exfalso; linarith
    | tenth h => exfalso; linarith
    | fit h1 h2 h3 h4 =>
      obtain ⟨r1, r2, r3⟩ := fitted (z0 := 695 / 1000) (by norm_num) (by linarith) hz' h3 h4 g1 g2 g0 gm
      norm_num at r1 r2 r3
      exact (Done.next (settle R hu H hq hε hδ hoff huo hlh log' (by linarith) (by linarith) (by linarith)) e).more (by norm_num)
    | centre h1 h2 h3 =>
      exfalso
      rw [lt_abs] at h3
      rcases h3 with h | h <;> linarith

/-- A centred picture is not clipped: it is enlarged, or fitted. -/
theorem shrunk (log : List Ev) (s2 : span dev log lo hi ≤ 9 / 10)
    (m : |mid dev log lo hi| ≤ 5 / 100) : Done R dev lo hi 4 log ∨ span dev log lo hi < 56 / 1000 ∧ ∃ log',
      (∀ k, loopF R dev (k + 1) log = loopF R dev k log') ∧ span dev log lo hi * 9 ≤ span dev log' lo hi ∧ span dev log' lo hi ≤ 9 / 10 ∧
      |mid dev log' lo hi| ≤ 5 / 100 := by
  by_cases hbig : 76 / 100 ≤ span dev log lo hi
  · exact .inl ((nearly R hu H hq hε hδ hoff huo hlh log (by linarith) s2 m).more (by norm_num))
  push Not at hbig
  obtain ⟨e1, e2⟩ := levels dev log lo hi
  rw [abs_le] at m
  obtain ⟨x, y, z, c, hx, hy, hz, hc, h⟩ := attempt R hu H hq hε hδ hoff huo hlh log ⟨by rw [e1]; linarith, by rw [e2]; linarith⟩
  have hz' := hz
  rw [abs_le] at hx hy hz hc
  rcases h with ⟨hf, e⟩ | ⟨f, log', hf, hF, e, g0, g1, g2, gm⟩
  · exact .inl ((Done.stop hf e).more (by norm_num))
  · cases hF with
    | out h => exfalso; rcases h with h | h <;> linarith
    | quarter h => exfalso; rcases h with h | h <;> linarith
    | same h => exfalso; rcases h with h | h <;> linarith
    | tenth h1 h2 h3 =>
      right
      have a1 := mul_le_mul_of_nonneg_left h2 g0
      have a2 := mul_le_mul_of_nonneg_left h3 g0
      have a3 := mul_le_mul_of_nonneg_left h2 (abs_nonneg (mid dev log' lo hi))
      have a4 : f * (span dev log' lo hi / 190 + 1 / 200) ≤ 101 / 1000 * (span dev log' lo hi / 190 + 1 / 200) :=
        mul_le_mul_of_nonneg_right h3 (by positivity)
      exact ⟨by linarith, log', e, by linarith, by linarith, by linarith⟩
    | fit h1 h2 h3 h4 =>
      left
      obtain ⟨r1, r2, r3⟩ := fitted (z0 := 49 / 1000) (by norm_num) h1 hz' h3 h4 g1 g2 g0 gm
      norm_num at r1 r2 r3
      exact Done.next (nearly R hu H hq hε hδ hoff huo hlh log' (by linarith) (by linarith) (by linarith)) e
    | centre h1 h2 h3 =>
      exfalso
      rw [lt_abs] at h3
      rcases h3 with h | h <;> linarith

/-- From a centred picture each further factor of ten costs one acquisition. -/
theorem enlarge (n : ℕ) : ∀ log : List Ev, 56 / 1000 ≤ span dev log lo hi * 9 ^ n → span dev log lo hi ≤ 9 / 10 →
    |mid dev log lo hi| ≤ 5 / 100 → Done R dev lo hi (n + 4) log := by
  induction n with
  | zero =>
    intro log s1 s2 m
    rcases shrunk R hu H hq hε hδ hoff huo hlh log s2 m with h | ⟨h, -⟩
    · exact h
    · rw [pow_zero, mul_one] at s1
      linarith
  | succ n ih =>
    intro log s1 s2 m
    rcases shrunk R hu H hq hε hδ hoff huo hlh log s2 m with h | ⟨-, log', e, h1, h2, h3⟩
    · exact h.more (by omega)
    · have := ih log' (by
        have : (0 : ℚ) ≤ 9 ^ n := by positivity
        have := mul_le_mul_of_nonneg_right h1 this
        rw [pow_succ'] at s1
        linarith) h2 h3
      have := Done.next this e
      rwa [show n + 4 + 1 = n + 1 + 4 by omega] at this

/-- From a signal on the screen. -/
theorem start (log : List Ev) (hs : OnScreen dev log lo hi) (h : 1 / 10 ^ 5 ≤ span dev log lo hi) : Done R dev lo hi 9 log := by
  obtain ⟨e1, e2⟩ := levels dev log lo hi
  have hs' := hs
  obtain ⟨o1, o2⟩ := hs'
  rw [e1] at o1
  rw [e2] at o2
  norm_num at h
  obtain ⟨x, y, z, c, hx, hy, hz, hc, hcase⟩ := attempt R hu H hq hε hδ hoff huo hlh log hs
  have hz' := hz
  rw [abs_le] at hz
  rcases hcase with ⟨hf, e⟩ | ⟨f, log', hf, hF, e, g0, g1, g2, gm⟩
  · exact (Done.stop hf e).more (by norm_num)
  · suffices hsuff : 56 / 1000 ≤ span dev log' lo hi * 9 ^ 4 ∧ span dev log' lo hi ≤ 9 / 10 ∧ |mid dev log' lo hi| ≤ 5 / 100 from
      Done.next (enlarge R hu H hq hε hδ hoff huo hlh 4 log' hsuff.1 hsuff.2.1 hsuff.2.2) e
    have lin : ∀ a b : ℚ, 0 < a → a ≤ f → f ≤ b → span dev log' lo hi * a * (99 / 100) ≤ span dev log lo hi ∧
        span dev log lo hi ≤ span dev log' lo hi * b * (101 / 100) ∧
        |mid dev log' lo hi| * a ≤ 1 / 489 + b * (span dev log' lo hi / 190 + 1 / 200) := by
      intro a b ha hl hr
      have a1 := mul_le_mul_of_nonneg_left hl g0
      have a2 := mul_le_mul_of_nonneg_left hr g0
      have a3 := mul_le_mul_of_nonneg_left hl (abs_nonneg (mid dev log' lo hi))
      have a4 : f * (span dev log' lo hi / 190 + 1 / 200) ≤ b * (span dev log' lo hi / 190 + 1 / 200) :=
        mul_le_mul_of_nonneg_right hr (by positivity)
      refine ⟨by linarith, by linarith, by linarith⟩
    cases hF with
    | out h0 h1 h2 h3 =>
      obtain ⟨b1, b2, b3⟩ := lin _ _ (by norm_num) h2 h3
      refine ⟨?_, ?_, ?_⟩ <;> norm_num <;> linarith
    | quarter h0 h1 h2 h3 =>
      obtain ⟨b1, b2, b3⟩ := lin _ _ (by norm_num) h2 h3
      refine ⟨?_, ?_, ?_⟩ <;> norm_num <;> linarith
    | same h0 h1 h2 h3 =>
      obtain ⟨b1, b2, b3⟩ := lin 1 1 (by norm_num) h3.ge h3.le
      refine ⟨?_, ?_, ?_⟩ <;> norm_num <;> linarith
    | tenth h1 h2 h3 =>
      obtain ⟨b1, b2, b3⟩ := lin _ _ (by norm_num) h2 h3
      refine ⟨?_, ?_, ?_⟩ <;> norm_num <;> linarith
    | fit h1 h2 h3 h4 =>
      obtain ⟨r1, r2, r3⟩ := fitted (z0 := 49 / 1000) (by norm_num) h1 hz' h3 h4 g1 g2 g0 gm
      norm_num at r1 r2 r3
      refine ⟨?_, ?_, ?_⟩ <;> norm_num <;> linarith
    | centre h1 h2 h3 h4 =>
      obtain ⟨b1, b2, b3⟩ := lin 1 1 (by norm_num) h4.ge h4.le
      refine ⟨?_, ?_, ?_⟩ <;> norm_num <;> linarith

end converge

/-- **C100.** Autoscale converges on a real instrument, in floating point: if the signal is on the screen at the beginning and covers at least 1/100000 of
it, autoscale returns normally and leaves a picture that fits.  The instrument may take the scale with an error of up to 1% and the position with an
error of up to 1/200 of the screen, digitise with 8 bits (an error of 1/512), and the middle of the signal may be as far from zero as 1/100 of the
signal's height divided by twice the relative error of the scale. -/
theorem C100_converges (R : Rounding) (hu : R.u ≤ 1 / 10 ^ 6) (dev : Dev) (lo hi q ε δ : ℚ) (H : Steady dev lo hi q ε δ) (hq : q ≤ 1 / 512) (hε : ε ≤ 1 / 100)
    (hδ : δ ≤ dev.nDiv / 200) (hoff : ε * |lo + hi| ≤ (hi - lo) / 100) (huo : R.u * |lo + hi| ≤ (hi - lo) / 10 ^ 4) (hlh : lo ≤ hi)
    (log : List Ev) (hs : OnScreen dev log lo hi) (h : 1 / 10 ^ 5 ≤ level dev log hi - level dev log lo) :
    ∃ log', autoscaleF R dev log = (.ok (), log') ∧ Fits dev log' lo hi := by
  have hlev : ∀ (l l' : List Ev), dev.scale l = dev.scale l' → dev.position l = dev.position l' → ∀ v, level dev l v = level dev l' v := by
    intro l l' h1 h2 v
    unfold level
    rw [h1, h2]
  have k0 := (H.keeps log).1 1000000
  have hd := start R hu H hq hε hδ hoff huo hlh (log ++ [.setPoints 1000000])
    (by unfold OnScreen; rw [hlev _ log k0.1 k0.2, hlev _ log k0.1 k0.2]; exact hs)
    (by unfold span; rw [hlev _ log k0.1 k0.2, hlev _ log k0.1 k0.2]; exact h)
  obtain ⟨j, l, e, hj, hf⟩ := hd 1
  unfold autoscaleF
  rw [show (1 : ℕ) + 9 = 10 by norm_num] at e
  simp only [e]
  rw [if_neg (by omega)]
  refine ⟨_, rfl, ?_⟩
  have k1 := (H.keeps l).2
  have k2 := (H.keeps (l ++ [.acquire])).1 (dev.points log)
  unfold Fits
  rw [hlev _ l (k2.1.trans k1.1) (k2.2.trans k1.2), hlev _ l (k2.1.trans k1.1) (k2.2.trans k1.2)]
  exact hf

/-- **C100 (no rounding).** With exact arithmetic this is the function of the other properties. -/
theorem C100_exact (dev : Dev) (log : List Ev) : autoscaleF exact dev log = autoscale dev log := by
  have hl : ∀ k l, loopF exact dev k l = loop dev k l := by
    intro k
    induction k with
    | zero => intro l; rfl
    | succ k ih =>
      intro l
      unfold loopF loop
      simp only [ih]
      rfl
  unfold autoscaleF autoscale
  rw [hl]
  rfl

/-! ### An instrument -/

/-- The scale after a history: the last positive one that was sent, 0.01% too large. -/
def exScale (h : List Ev) : ℚ := h.foldl (fun s e => match e with | .setScale v => if 0 < v then v * (10001 / 10000) else s | _ => s) 1

/-- The position after a history: the last one that was sent, in hundredths of a division. -/
def exPosition (h : List Ev) : ℚ := h.foldl (fun s e => match e with | .setPosition v => ⌊v * 100⌋ / 100 | _ => s) 0

/-- An oscilloscope with eight divisions and 256 codes that sees the levels 2.9, 3 and 3.1. -/
def exDev : Dev where
  points _ := 5000
  position := exPosition
  scale := exScale
  acquire h := .ok
    { y := [29 / 10, 3, 31 / 10].map fun v : ℚ => (⌊(v / exScale h + exPosition h) / 8 * 256 + 1 / 2⌋ : ℚ), clipMin := -128, clipMax := 128 }
  nDiv := 8

theorem exScale_pos (h : List Ev) : 0 < exScale h := by
  induction h using List.reverseRecOn with
  | nil => norm_num [exScale]
  | append_singleton l e ih =>
    unfold exScale at *
    rw [List.foldl_append]
    cases e with
    | setScale v =>
      simp only [List.foldl_cons, List.foldl_nil]
      split_ifs with hv
      · positivity
      · exact ih
    | _ => exact ih

theorem exSteady : Steady exDev (29 / 10) (31 / 10) (1 / 512) (1 / 10000) (1 / 100) where
  nDiv_pos := by norm_num [exDev]
  scale_pos := exScale_pos
  keeps h := by
    refine ⟨fun v => ⟨?_, ?_⟩, ?_, ?_⟩
    all_goals simp [exDev, exScale, exPosition]
  takes h s p hs := by
    have e1 : exDev.scale (h ++ [.setScale s, .setPosition p]) = s * (10001 / 10000) := by
      simp [exDev, exScale, hs]
    have e2 : exDev.position (h ++ [.setScale s, .setPosition p]) = ⌊p * 100⌋ / 100 := by
      simp [exDev, exPosition]
    rw [e1, e2]
    constructor
    · rw [show s * (10001 / 10000) - s = 1 / 10000 * s by ring, abs_of_pos (by positivity)]
    · have h1 := Int.floor_le (p * 100)
      have h2 := Int.lt_floor_add_one (p * 100)
      rw [abs_le]
      constructor <;> linarith
  sees h _ := by
    have hs := exScale_pos h
    have hm : ∀ v w : ℚ, v ≤ w → (⌊(v / exScale h + exPosition h) / 8 * 256 + 1 / 2⌋ : ℚ) ≤ ⌊(w / exScale h + exPosition h) / 8 * 256 + 1 / 2⌋ := by
      intro v w hvw
      have : (v / exScale h + exPosition h) / 8 * 256 + 1 / 2 ≤ (w / exScale h + exPosition h) / 8 * 256 + 1 / 2 := by gcongr
      exact_mod_cast Int.floor_mono this
    have hh : ∀ v : ℚ, |((⌊(v / exScale h + exPosition h) / 8 * 256 + 1 / 2⌋ : ℚ) - -128) / (128 - -128) - 1 / 2 - level exDev h v| ≤ 1 / 512 := by
      intro v
      have e : level exDev h v = (v / exScale h + exPosition h) / 8 := rfl
      rw [e]
      generalize (v / exScale h + exPosition h) / 8 = x
      have h1 := Int.floor_le (x * 256 + 1 / 2)
      have h2 := Int.lt_floor_add_one (x * 256 + 1 / 2)
      rw [abs_le]
      constructor <;> linarith
    refine ⟨_, _, _, rfl, by norm_num, ⟨List.mem_map_of_mem (a := 29 / 10) (by simp), List.mem_map_of_mem (a := 31 / 10) (by simp), ?_⟩, hh _, hh _⟩
    intro v hv
    obtain ⟨w, hw, rfl⟩ := List.mem_map.1 hv
    refine ⟨hm _ _ ?_, hm _ _ ?_⟩ <;>
    · simp only [List.mem_cons, List.not_mem_nil, or_false] at hw
      rcases hw with rfl | rfl | rfl <;> norm_num

/-- The hypotheses of `C100_converges` hold for this instrument, in doubles. -/
example : double.u ≤ 1 / 10 ^ 6 ∧ Steady exDev (29 / 10) (31 / 10) (1 / 512) (1 / 10000) (1 / 100) ∧ (1 / 100 : ℚ) ≤ exDev.nDiv / 200 ∧
    1 / 10000 * |(29 / 10 : ℚ) + 31 / 10| ≤ (31 / 10 - 29 / 10) / 100 ∧ double.u * |(29 / 10 : ℚ) + 31 / 10| ≤ (31 / 10 - 29 / 10) / 10 ^ 4 ∧
    OnScreen exDev [] (29 / 10) (31 / 10) ∧ 1 / 10 ^ 5 ≤ level exDev [] (31 / 10) - level exDev [] (29 / 10) := by
  refine ⟨by decide +kernel, exSteady, by decide +kernel, by decide +kernel, by decide +kernel, ⟨by decide +kernel, by decide +kernel⟩, by decide +kernel⟩

end Verif.Props.AutoscaleReal
