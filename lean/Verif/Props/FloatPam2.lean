import Verif.Model.FloatPam2
import Verif.Props.FloatCdr
import Verif.Props.OpenEye

/-!
C99: an open eye is decoded to the bits that were sent, in double precision.
-/

namespace Verif.Props.FloatPam2

open Verif Verif.Lines Verif.Eye Verif.Cdr Verif.Pam2 Verif.Pipeline Verif.Float Verif.Props.Float Verif.Props.FloatStats Verif.Props.FloatEye
  Verif.Props.EyeWindow Verif.Props.EyeMask Verif.Props.Pam2Vertical Verif.Props.FloatCdr Verif.Props.OpenEye Verif.Props.Pam2Bits

/-! ### Specification -/

/-- The eye is open by a margin: the samples no farther than `D` from the centre of a symbol are on its side of the threshold by at least `m`.  `time`
are the times of the samples, the centres of the symbols are `r.b + k * T`. -/
def OpenBy (r : Sent) (time : ℕ → ℚ) (T half D m : ℚ) : Prop :=
  ∀ j < r.y.length, ∀ k : ℤ, -1 ≤ k → k ≤ r.n → |time j - (r.b + k * T)| ≤ D →
    (r.sym k = true → half + m ≤ r.y.getD j 0) ∧ (r.sym k = false → r.y.getD j 0 ≤ half - m)

/-- What was sent is what is found for the symbols `ks`: one direction per symbol, the transitions of three symbols are counted, the samples for the
levels are on the side of the threshold of their level. -/
structure Found (r : Sent) (half m : ℚ) (ks : List ℕ) (v : VOut) : Prop where
  dirs : v.edgeDir = ks.map fun k : ℕ => dir (r.sym (k - 1)) (r.sym k)
  trans : ∀ x y z, v.trans x y z = ks.countP fun k : ℕ => r.sym (k - 1) == x && r.sym k == y && r.sym (k + 1) == z
  ones : ∀ y ∈ v.y1, half + m ≤ y
  zeros : ∀ y ∈ v.y0, y ≤ half - m

/-- The symbols from `start` on, `count` of them, are those whose surroundings are in the record: all that are far enough from its ends, none that are
too near. -/
structure Covers (r : Sent) (T δ ε : ℚ) (start count : ℕ) : Prop where
  inside : start + count ≤ r.n
  all : ∀ k < r.n, r.t0 + T + 4 * δ + 2 * ε ≤ r.b + k * T → r.b + k * T ≤ r.t0 + (r.y.length - 1) * δ - T - 3 * δ - 2 * ε →
    start ≤ k ∧ k < start + count
  only : ∀ k, start ≤ k → k < start + count → r.t0 + T + 9 / 10 * δ - 2 * ε < r.b + k * T ∧
    r.b + k * T < r.t0 + (r.y.length - 1) * δ - T + δ / 10 + 2 * ε

/-- The hypotheses about one record: the clock edges `clk` are within `ε` of what was sent with the period `T0`, the period `T` is within `π`; the
sample times are regular up to `τ`. -/
structure Clocked (r : Sent) (time : ℕ → ℚ) (clk : List ℚ) (T0 T δ ε π τ : ℚ) : Prop where
  count : clk.length = r.n
  near : ∀ k (h : k < clk.length), |clk[k] - (r.b + k * T0)| ≤ ε
  period : |T - T0| ≤ π
  steady : π ≤ ε
  times : ∀ j < r.y.length, |time j - (r.t0 + j * δ)| ≤ τ

/-! ### One symbol -/

theorem iWidthF_near (R : Rounding) (T δ : ℚ) (hT : 0 < T) (hδ : 0 < δ) :
    T / δ + 3 / 2 - 3 * R.u * (T / δ + 1) ≤ iWidthF R T δ ∧ iWidthF R T δ ≤ T / δ + 5 / 2 + 3 * R.u * (T / δ + 1) := by
  have hx := div_pos hT hδ
  unfold iWidthF
  set x := T / δ
  have hu := R.u_nonneg
  have hs := R.u_small
  have e1 := abs_le.1 (R.err x)
  have e2 := abs_le.1 (R.err (R.fl x + 1 / 2))
  have p1 := (fl_pos R).2 hx
  have p2 := (fl_pos R).2 (show 0 < R.fl x + 1 / 2 by linarith)
  rw [abs_of_pos hx] at e1
  rw [abs_of_pos (show 0 < R.fl x + 1 / 2 by linarith)] at e2
  rw [pyInt_nonneg _ p2.le]
  have f1 := Int.floor_le (R.fl (R.fl x + 1 / 2))
  have f2 := Int.lt_floor_add_one (R.fl (R.fl x + 1 / 2))
  push_cast
  have h1 : R.u * (R.fl x + 1 / 2) ≤ R.u * (101 / 100 * x + 1 / 2) := by
    apply mul_le_mul_of_nonneg_left _ hu
    nlinarith
  constructor <;> nlinarith

/-- What the rounding errors are for a record that is not longer than `10^-5 / u` samples. -/
theorem fine (R : Rounding) (T δ tZero b : ℚ) (N : ℕ) (c : Center) (hT : 0 < T) (hδ : 0 < δ) (hu : 10 ^ 5 * R.u * N ≤ 1)
    (h : sampleEdgeF R T δ tZero N b = some c) :
    InsideF R T δ N c ∧ (0 ≤ -c.t ∧ -c.t ≤ (1 + R.u) * δ) ∧ |tZero + c.i * δ - c.t - b| ≤ δ / 2 + δ / 1000 ∧
      R.u * (T / δ) ≤ 1 / 10 ^ 5 ∧ R.u ≤ 1 / 10 ^ 5 ∧ T / δ + 149 / 100 ≤ iWidthF R T δ ∧ iWidthF R T δ ≤ T / δ + 251 / 100 ∧
      |b - tZero| ≤ (N + 2) * δ := by
  unfold InsideF
  obtain ⟨hin, b', hb, c0, c1, hcen⟩ := C82_centre R T δ tZero hT hδ N [b] c (List.mem_filterMap.2 ⟨b, by simp, h⟩)
  obtain rfl := List.mem_singleton.1 hb
  have hun := R.u_nonneg
  have hx := div_pos hT hδ
  obtain ⟨i1, i2⟩ := hin
  have w2 := iWidthF_ge R T δ hT hδ
  have hwl := iWidthF_lower R T δ hT hδ
  obtain ⟨wn1, wn2⟩ := iWidthF_near R T δ hT hδ
  have hN : 2 * (iWidthF R T δ : ℚ) + 1 ≤ N := by
    have : 2 * iWidthF R T δ + 1 ≤ N := by omega
    exact_mod_cast this
  have hw2 : (2 : ℚ) ≤ iWidthF R T δ := by exact_mod_cast w2
  have ci0 : (0 : ℚ) ≤ c.i := by exact_mod_cast (by omega : (0 : ℤ) ≤ c.i)
  have ci1 : (c.i : ℚ) ≤ N := by exact_mod_cast (by omega : c.i ≤ (N : ℤ))
  generalize iWidthF R T δ = w at *
  have hN5 : (5 : ℚ) ≤ N := by linarith
  have u1 : R.u ≤ 1 / 10 ^ 5 := by nlinarith
  have u2 : R.u * (T / δ) ≤ 1 / 10 ^ 5 := by
    have : R.u * (T / δ) ≤ R.u * N := mul_le_mul_of_nonneg_left (by linarith) hun
    linarith
  have hr : |b' - tZero| ≤ (N + 2) * δ := by
    have h3 := abs_le.1 hcen
    unfold reach at h3
    have h4 : 0 ≤ |b' - tZero| := abs_nonneg _
    have hA : R.u * |b' - tZero| ≤ 1 / 10 ^ 5 * |b' - tZero| := mul_le_mul_of_nonneg_right u1 h4
    have hB : R.u * δ ≤ 1 / 10 ^ 5 * δ := mul_le_mul_of_nonneg_right u1 hδ.le
    have hC : (c.i : ℚ) * δ ≤ N * δ := mul_le_mul_of_nonneg_right ci1 hδ.le
    have hC0 : 0 ≤ (c.i : ℚ) * δ := mul_nonneg ci0 hδ.le
    have hNδ : 5 * δ ≤ N * δ := mul_le_mul_of_nonneg_right hN5 hδ.le
    have hNc : (c.i : ℚ) * δ ≤ (N - 3) * δ := by
      apply mul_le_mul_of_nonneg_right _ hδ.le
      have : (c.i : ℤ) + 3 ≤ N := by omega
      have : (c.i : ℚ) + 3 ≤ N := by exact_mod_cast this
      linarith
    rcases abs_cases (b' - tZero) with ⟨h5, h6⟩ | ⟨h5, h6⟩
    · rw [h5] at hA h3 ⊢
      -- b' - tZero ≤ (N - 3) δ + (1 + u) δ + δ / 2 + 5 u ((b' - tZero) + δ)
      have huN : R.u * (N * δ) ≤ 1 / 10 ^ 5 * δ := by
        have := mul_le_mul_of_nonneg_right hu hδ.le
        linarith
      by_contra hcon
      push Not at hcon
      nlinarith
    · rw [h5] at hA h3 ⊢
      nlinarith
  refine ⟨⟨i1, i2⟩, ⟨c0, c1⟩, ?_, u2, u1, by nlinarith, by nlinarith, hr⟩
  refine hcen.trans ?_
  unfold reach
  have h3 : R.u * |b' - tZero| ≤ R.u * ((N + 2) * δ) := mul_le_mul_of_nonneg_left hr hun
  have huN : R.u * (N * δ) ≤ 1 / 10 ^ 5 * δ := by
    have := mul_le_mul_of_nonneg_right hu hδ.le
    linarith
  have hB : R.u * δ ≤ 1 / 10 ^ 5 * δ := mul_le_mul_of_nonneg_right u1 hδ.le
  nlinarith

/-- The time of a sample. -/
def timeF (R : Rounding) (T δ ct : ℚ) (k : ℕ) : ℚ :=
  R.fl (gridF R (R.fl (1 / 2 - tWidthF R T δ)) (R.fl (1 / 2 + tWidthF R T δ)) (2 * (iWidthF R T δ).toNat) k + R.fl (ct / T))

theorem time_fine (R : Rounding) (T δ ct : ℚ) (hT : 0 < T) (hδ : 0 < δ) (h2 : 2 * δ ≤ T) (hct : 0 ≤ -ct ∧ -ct ≤ (1 + R.u) * δ)
    (u1 : R.u * (T / δ) ≤ 1 / 10 ^ 5) (hw : iWidthF R T δ ≤ T / δ + 251 / 100) (k : ℕ) (hk : k ≤ 2 * (iWidthF R T δ).toNat) :
    |timeF R T δ ct k - (1 / 2 + (((k : ℚ) - iWidthF R T δ) * δ + ct) / T)| ≤ δ / T / 1000 := by
  have h := time_near R T δ hT hδ ct hct k hk
  unfold timeF
  rw [show 1 / 2 + (((k : ℚ) - iWidthF R T δ) * δ + ct) / T = 1 / 2 + ((k : ℚ) - iWidthF R T δ) * δ / T + ct / T by ring]
  refine h.trans ?_
  have hun := R.u_nonneg
  have hq : 0 < δ / T := div_pos hδ hT
  have hq2 : δ / T ≤ 1 / 2 := by rw [div_le_iff₀ hT]; linarith
  have e1 : T / δ * (δ / T) = 1 := by field_simp
  have e2 : (iWidthF R T δ : ℚ) * δ / T ≤ 1 + 251 / 100 * (δ / T) := by
    rw [mul_div_assoc]
    have := mul_le_mul_of_nonneg_right hw hq.le
    linarith
  have e3 : R.u ≤ 1 / 10 ^ 5 * (δ / T) := by
    have := mul_le_mul_of_nonneg_right u1 hq.le
    rw [mul_assoc, e1] at this
    linarith
  have e4 : R.u * (1 + (iWidthF R T δ : ℚ) * δ / T) ≤ R.u * (33 / 10) := mul_le_mul_of_nonneg_left (by linarith) hun
  linarith

/-! ### The windows -/

theorem ends_near (R : Rounding) (u w : ℚ) (hu : |u| ≤ 3 / 2) (hw0 : 0 ≤ w) (hw : w ≤ 11 / 10) :
    |(windowEnds R u w).1 - (u - w / 2)| ≤ 3 * R.u ∧ |(windowEnds R u w).2 - (u + w / 2)| ≤ 3 * R.u := by
  have hun := R.u_nonneg
  have hs := R.u_small
  have e1 := R.err (w / 2)
  rw [abs_of_nonneg (show 0 ≤ w / 2 by linarith)] at e1
  have e2 := R.err (u - R.fl (w / 2))
  have e3 := R.err (u + R.fl (w / 2))
  have e1' := abs_le.1 e1
  have hu' := abs_le.1 hu
  have hm : R.u * (w / 2) ≤ R.u * (11 / 20) := mul_le_mul_of_nonneg_left (by linarith) hun
  have a1 : |u - R.fl (w / 2)| ≤ 21 / 10 := by rw [abs_le]; constructor <;> linarith
  have a2 : |u + R.fl (w / 2)| ≤ 21 / 10 := by rw [abs_le]; constructor <;> linarith
  have m1 := mul_le_mul_of_nonneg_left a1 hun
  have m2 := mul_le_mul_of_nonneg_left a2 hun
  have e2' := abs_le.1 e2
  have e3' := abs_le.1 e3
  unfold windowEnds
  simp only [abs_le]
  constructor <;> constructor <;> linarith

theorem abc_near (R : Rounding) (lw T δ : ℚ) (hT : 0 < T) (hδ : 0 < δ) :
    |abcWidthF R lw δ T - decisionWidth lw T δ| ≤ 4 * R.u * (δ / T) := by
  have hun := R.u_nonneg
  have hs := R.u_small
  obtain ⟨a, ha, ea⟩ := rel R (101 / 100)
  obtain ⟨b, hb, eb⟩ := rel R (R.fl (101 / 100) * δ)
  obtain ⟨d, hd, ed⟩ := rel R (R.fl (R.fl (101 / 100) * δ) / T)
  have hq : 0 < δ / T := div_pos hδ hT
  unfold abcWidthF decisionWidth
  refine (abs_max_sub_max_le_max _ _ _ _).trans ?_
  rw [sub_self, abs_zero]
  apply max_le
  · positivity
  · rw [ed, eb, ea]
    rw [show 101 / 100 * (1 + a) * δ * (1 + b) / T * (1 + d) - 101 / 100 * (δ / T) =
      101 / 100 * ((1 + a) * (1 + b) * (1 + d) - 1) * (δ / T) by ring]
    rw [abs_mul, abs_of_pos hq]
    apply mul_le_mul_of_nonneg_right _ hq.le
    rw [abs_mul, abs_of_pos (show (0 : ℚ) < 101 / 100 by norm_num)]
    have k1 : |(1 + a) * (1 + b) * (1 + d) - 1| ≤ (1 + R.u) * (1 + R.u) * (1 + R.u) - 1 := by
      have ha' := abs_le.1 ha
      have hb' := abs_le.1 hb
      have hd' := abs_le.1 hd
      rw [abs_le]
      have p1 : (1 - R.u) * (1 - R.u) ≤ (1 + a) * (1 + b) := mul_le_mul (by linarith) (by linarith) (by linarith) (by linarith)
      have p2 : (1 - R.u) * (1 - R.u) * (1 - R.u) ≤ (1 + a) * (1 + b) * (1 + d) :=
        mul_le_mul p1 (by linarith) (by linarith) (by nlinarith)
      have p3 : (1 + a) * (1 + b) ≤ (1 + R.u) * (1 + R.u) := mul_le_mul (by linarith) (by linarith) (by linarith) (by linarith)
      have p4 : (1 + a) * (1 + b) * (1 + d) ≤ (1 + R.u) * (1 + R.u) * (1 + R.u) := mul_le_mul p3 (by linarith) (by linarith) (by nlinarith)
      constructor
      · nlinarith
      · linarith
    have q1 : R.u * R.u ≤ 1 / 100 * R.u := mul_le_mul_of_nonneg_right hs hun
    have q2 : R.u * R.u * R.u ≤ 1 / 100 * R.u * R.u := mul_le_mul_of_nonneg_right q1 hun
    have q3 : (1 + R.u) * (1 + R.u) * (1 + R.u) - 1 = 3 * R.u + 3 * (R.u * R.u) + R.u * R.u * R.u := by ring
    linarith

theorem inWindow_iff (R : Rounding) (u w : ℚ) (p : Pt) : inWindow R u w p = true ↔ (windowEnds R u w).1 ≤ p.1 ∧ p.1 ≤ (windowEnds R u w).2 := by
  unfold inWindow within
  rw [Bool.and_eq_true, decide_eq_true_iff, decide_eq_true_iff]

theorem of_in (R : Rounding) (u w : ℚ) (hu : |u| ≤ 3 / 2) (hw0 : 0 ≤ w) (hw : w ≤ 11 / 10) (p : Pt) (h : inWindow R u w p = true) :
    |p.1 - u| ≤ w / 2 + 3 * R.u := by
  obtain ⟨e1, e2⟩ := ends_near R u w hu hw0 hw
  rw [inWindow_iff] at h
  have e1' := abs_le.1 e1
  have e2' := abs_le.1 e2
  rw [abs_le]
  constructor <;> linarith [h.1, h.2]

theorem in_of (R : Rounding) (u w : ℚ) (hu : |u| ≤ 3 / 2) (hw0 : 0 ≤ w) (hw : w ≤ 11 / 10) (p : Pt) (h : |p.1 - u| ≤ w / 2 - 3 * R.u) :
    inWindow R u w p = true := by
  obtain ⟨e1, e2⟩ := ends_near R u w hu hw0 hw
  rw [inWindow_iff]
  have e1' := abs_le.1 e1
  have e2' := abs_le.1 e2
  rw [abs_le] at h
  constructor <;> linarith [h.1, h.2]

/-! ### The samples of a symbol -/

theorem windowF_time (R : Rounding) (ys : List ℚ) (T δ : ℚ) (hT : 0 < T) (hδ : 0 < δ) (c : Center) (hc : InsideF R T δ ys.length c) :
    windowF R ys T δ c = (List.range (2 * (iWidthF R T δ).toNat + 1)).map fun k : ℕ =>
      (timeF R T δ c.t k, ys.getD (c.i.toNat - (iWidthF R T δ).toNat + k) 0) := windowF_length R ys T δ hT hδ c hc

theorem zipIdx_range {α : Type} (f : ℕ → α) (n : ℕ) : ((List.range n).map f).zipIdx = (List.range n).map fun k => (f k, k) := by
  apply List.ext_getElem
  · simp
  · intro k h1 h2
    simp

theorem pointsF_eq (R : Rounding) (ys : List ℚ) (T δ : ℚ) (hT : 0 < T) (hδ : 0 < δ) (c : Center) (hc : InsideF R T δ ys.length c) :
    pointsF R ys T δ c = .ok (windowF R ys T δ c) ∧ ∀ mem, pointsCF R mem ys T δ c = windowF R ys T δ c := by
  have hw := iWidthF_ge R T δ hT hδ
  rw [windowF_time R ys T δ hT hδ c hc]
  obtain ⟨hc1, hc2⟩ := hc
  unfold pointsF pointsCF gridTF linspaceF
  simp only [zipIdx_range]
  rw [show (2 * iWidthF R T δ).toNat = 2 * (iWidthF R T δ).toNat by omega]
  have hk : ∀ k < 2 * (iWidthF R T δ).toNat + 1, c.i - iWidthF R T δ + (k : ℤ) = ((c.i.toNat - (iWidthF R T δ).toNat + k : ℕ) : ℤ) ∧
      c.i.toNat - (iWidthF R T δ).toNat + k < ys.length := by
    intro k hk
    omega
  constructor
  · rw [mapM_ok _ (fun p : ℚ × ℕ => (R.fl (p.1 + R.fl (c.t / T)), ys.getD (c.i.toNat - (iWidthF R T δ).toNat + p.2) 0))]
    · rw [List.map_map]
      rfl
    · intro p hp
      obtain ⟨k, hk', rfl⟩ := List.mem_map.1 hp
      obtain ⟨h1, h2⟩ := hk k (List.mem_range.1 hk')
      unfold pyGetZ pyGet
      simp only
      rw [h1, if_pos (by omega), Int.toNat_natCast, List.getElem?_eq_getElem h2]
      simp only [bind, Except.bind, pure, Except.pure]
      rw [List.getD_eq_getElem?_getD, List.getElem?_eq_getElem h2]
      rfl
  · intro mem
    rw [List.map_map]
    apply List.map_congr_left
    intro k hk'
    obtain ⟨h1, h2⟩ := hk k (List.mem_range.1 hk')
    simp only [Function.comp]
    unfold rawGet
    rw [h1, if_pos (by omega), Int.toNat_natCast]
    rfl

/-- The samples in a window are near its time. -/
theorem mem_windowF (R : Rounding) (ys : List ℚ) (T δ tZero b : ℚ) (hT : 0 < T) (hδ : 0 < δ) (h2 : 2 * δ ≤ T) (hu : 10 ^ 5 * R.u * ys.length ≤ 1)
    (c : Center) (h : sampleEdgeF R T δ tZero ys.length b = some c) (u w W : ℚ) (hu3 : |u| ≤ 3 / 2) (hw0 : 0 ≤ w)
    (hwW : w ≤ W + 4 * R.u * (δ / T)) (hW : W ≤ 1) (p : Pt) (hp : p ∈ windowF R ys T δ c) (hin : inWindow R u w p = true) :
    ∃ j < ys.length, p.2 = ys.getD j 0 ∧ |tZero + j * δ - (b + (u - 1 / 2) * T)| ≤ W * T / 2 + 51 / 100 * δ := by
  obtain ⟨hi, ct, hcen, u1, u2, w1, w2, -⟩ := fine R T δ tZero b ys.length c hT hδ hu h
  rw [windowF_time R ys T δ hT hδ c hi] at hp
  obtain ⟨k, hk, rfl⟩ := List.mem_map.1 hp
  rw [List.mem_range] at hk
  obtain ⟨i1, i2⟩ := hi
  have hw := iWidthF_ge R T δ hT hδ
  have ht := time_fine R T δ c.t hT hδ h2 ct u1 w2 k (by omega)
  have hq : 0 < δ / T := div_pos hδ hT
  have hq2 : δ / T ≤ 1 / 2 := by rw [div_le_iff₀ hT]; linarith
  have hun := R.u_nonneg
  have e1 : T / δ * (δ / T) = 1 := by field_simp
  have e3 : R.u ≤ 1 / 10 ^ 5 * (δ / T) := by
    have := mul_le_mul_of_nonneg_right u1 hq.le
    rw [mul_assoc, e1] at this
    linarith
  have huq : R.u * (δ / T) ≤ 1 / 10 ^ 5 * (δ / T) := mul_le_mul_of_nonneg_right u2 hq.le
  have hwin := of_in R u w hu3 hw0 (by linarith) _ hin
  simp only at hwin
  refine ⟨c.i.toNat - (iWidthF R T δ).toNat + k, by omega, rfl, ?_⟩
  have ej : ((c.i.toNat - (iWidthF R T δ).toNat + k : ℕ) : ℚ) = c.i - iWidthF R T δ + k := by
    have : ((c.i.toNat - (iWidthF R T δ).toNat + k : ℕ) : ℤ) = c.i - iWidthF R T δ + k := by omega
    exact_mod_cast this
  rw [ej]
  generalize (iWidthF R T δ : ℚ) = wi at *
  generalize timeF R T δ c.t k = t at *
  have key : |1 / 2 + ((k - wi) * δ + c.t) / T - u| ≤ W / 2 + δ / T * (2 / 1000) := by
    rw [show 1 / 2 + ((k - wi) * δ + c.t) / T - u = (t - u) - (t - (1 / 2 + ((k - wi) * δ + c.t) / T)) by ring]
    refine (abs_sub _ _).trans ?_
    linarith
  have key2 : |(1 / 2 - u) * T + ((k - wi) * δ + c.t)| ≤ W * T / 2 + δ * (2 / 1000) := by
    rw [show (1 / 2 - u) * T + ((k - wi) * δ + c.t) = (1 / 2 + ((k - wi) * δ + c.t) / T - u) * T by field_simp; ring, abs_mul, abs_of_pos hT]
    have := mul_le_mul_of_nonneg_right key hT.le
    have e : δ / T * T = δ := div_mul_cancel₀ _ hT.ne'
    nlinarith
  rw [show tZero + (c.i - wi + k) * δ - (b + (u - 1 / 2) * T) = ((1 / 2 - u) * T + ((k - wi) * δ + c.t)) + (tZero + c.i * δ - c.t - b) by ring]
  refine (abs_add_le _ _).trans ?_
  linarith

/-- There is a sample near the centre of the previous, this and the next symbol. -/
theorem exists_near (R : Rounding) (ys : List ℚ) (T δ tZero b : ℚ) (hT : 0 < T) (hδ : 0 < δ) (h2 : 2 * δ ≤ T) (hu : 10 ^ 5 * R.u * ys.length ≤ 1)
    (c : Center) (h : sampleEdgeF R T δ tZero ys.length b = some c) (u : ℚ) (hu3 : -1 / 2 ≤ u) (hu4 : u ≤ 3 / 2) :
    ∃ p ∈ windowF R ys T δ c, |p.1 - u| ≤ δ / T * (501 / 1000) := by
  obtain ⟨hi, ct, hcen, u1, u2, w1, w2, -⟩ := fine R T δ tZero b ys.length c hT hδ hu h
  rw [windowF_time R ys T δ hT hδ c hi]
  have hw := iWidthF_ge R T δ hT hδ
  have hun := R.u_nonneg
  have e1 : T / δ * δ = T := div_mul_cancel₀ _ hδ.ne'
  have hx : 2 ≤ T / δ := by rw [le_div_iff₀ hδ]; exact h2
  set x : ℚ := iWidthF R T δ + ((u - 1 / 2) * T - c.t) / δ with hxd
  have hx1 : x = iWidthF R T δ + (u - 1 / 2) * (T / δ) + (-c.t) / δ := by rw [hxd]; ring
  have c0 : 0 ≤ (-c.t) / δ := div_nonneg ct.1 hδ.le
  have c1 : (-c.t) / δ ≤ 1 + R.u := by rw [div_le_iff₀ hδ]; exact ct.2
  have x0 : 0 ≤ x + 1 / 2 := by
    rw [hx1]
    nlinarith
  have x2 : x + 1 / 2 ≤ 2 * iWidthF R T δ + 2 / 100 := by
    rw [hx1]
    nlinarith
  have f1 := Int.floor_le (x + 1 / 2)
  have f2 := Int.lt_floor_add_one (x + 1 / 2)
  have f0 : 0 ≤ ⌊x + 1 / 2⌋ := Int.floor_nonneg.2 x0
  obtain ⟨k, hk⟩ := Int.eq_ofNat_of_zero_le f0
  rw [hk] at f1 f2
  push_cast at f1 f2
  have hk2 : (k : ℤ) ≤ 2 * iWidthF R T δ := by
    have : (k : ℚ) < 2 * iWidthF R T δ + 1 := by linarith
    have : (k : ℤ) < 2 * iWidthF R T δ + 1 := by exact_mod_cast this
    omega
  refine ⟨_, List.mem_map.2 ⟨k, List.mem_range.2 (by omega), rfl⟩, ?_⟩
  have ht := time_fine R T δ c.t hT hδ h2 ct u1 w2 k (by omega)
  simp only
  generalize timeF R T δ c.t k = t at *
  have key : |1 / 2 + ((k - iWidthF R T δ) * δ + c.t) / T - u| ≤ δ / T / 2 := by
    have e2 : 1 / 2 + ((k - iWidthF R T δ) * δ + c.t) / T - u = (k - x) * (δ / T) := by
      rw [hxd]
      field_simp
      ring
    have hq : 0 < δ / T := div_pos hδ hT
    rw [e2, abs_mul, abs_of_pos hq]
    have : |(k : ℚ) - x| ≤ 1 / 2 := by rw [abs_le]; constructor <;> linarith
    have := mul_le_mul_of_nonneg_right this hq.le
    linarith
  rw [show t - u = (t - (1 / 2 + ((k - iWidthF R T δ) * δ + c.t) / T)) + (1 / 2 + ((k - iWidthF R T δ) * δ + c.t) / T - u) by ring]
  refine (abs_add_le _ _).trans ?_
  linarith

/-! ### The decision -/

/-- Values that are all on one side of the threshold `half` by at least `m` are decided as such. -/
def Decides (dec : List ℚ → Bool) (half m Y : ℚ) (n : ℕ) : Prop :=
  ∀ l : List ℚ, l ≠ [] → l.length ≤ n → (∀ y ∈ l, |y| ≤ Y) →
    ((∀ y ∈ l, half + m ≤ y) → dec l = true) ∧ ((∀ y ∈ l, y ≤ half - m) → dec l = false)

theorem sum_ge (l : List ℚ) (a : ℚ) (h : ∀ y ∈ l, a ≤ y) : a * l.length ≤ l.sum := by
  induction l with
  | nil => simp
  | cons b l ih =>
    have h1 := h b (by simp)
    have := ih fun y hy => h y (List.mem_cons_of_mem _ hy)
    simp only [List.length_cons, List.sum_cons]
    push_cast
    linarith

theorem sum_le (l : List ℚ) (a : ℚ) (h : ∀ y ∈ l, y ≤ a) : l.sum ≤ a * l.length := by
  induction l with
  | nil => simp
  | cons b l ih =>
    have h1 := h b (by simp)
    have := ih fun y hy => h y (List.mem_cons_of_mem _ hy)
    simp only [List.length_cons, List.sum_cons]
    push_cast
    linarith

theorem aboveF_decides (R : Rounding) (d n : ℕ) (mean : List ℚ → ℚ) (hm : IsMean R d n mean) (hd : (d + 1) * R.u ≤ 1 / 100) (half m Y : ℚ)
    (h : 2 * (d + 1) * R.u * Y < m) : Decides (aboveF mean half) half m Y n := by
  intro l hne hl hY
  have hun := R.u_nonneg
  have h1 := mean_near R d n mean hm hd l hne hl
  have h2 := avg_abs_le l Y hY hne
  have hY0 : 0 ≤ Y := by
    obtain ⟨a, l', rfl⟩ := List.exists_cons_of_ne_nil hne
    exact (abs_nonneg _).trans (hY a (by simp))
  have hD : 0 ≤ ((d : ℚ) + 1) * R.u := by positivity
  have h3 : 100 / 99 * (((d : ℚ) + 1) * R.u) * avg (l.map fun x => |x|) ≤ 100 / 99 * (((d : ℚ) + 1) * R.u) * Y :=
    mul_le_mul_of_nonneg_left h2 (by positivity)
  have h4 : 0 ≤ ((d : ℚ) + 1) * R.u * Y := mul_nonneg hD hY0
  have hn : (0 : ℚ) < l.length := by exact_mod_cast List.length_pos_iff.2 hne
  have h5 := abs_le.1 h1
  unfold aboveF
  rw [if_neg hne]
  constructor
  · intro hy
    rw [decide_eq_true_iff]
    have h6 : half + m ≤ avg l := by
      unfold avg
      rw [le_div_iff₀ hn]
      exact sum_ge l _ hy
    linarith
  · intro hy
    rw [decide_eq_false_iff_not]
    have h6 : avg l ≤ half - m := by
      unfold avg
      rw [div_le_iff₀ hn]
      exact sum_le l _ hy
    linarith

theorem fold_summed (R : Rounding) (l : List ℚ) : ∀ (d : ℕ) (p : List ℚ) (s : ℚ), Summed R d p s →
    Summed R (d + l.length) (p ++ l) (l.foldl (fun s x => R.fl (s + x)) s) := by
  induction l with
  | nil =>
    intro d p s h
    simpa using h
  | cons a l ih =>
    intro d p s h
    have := ih (d + 1) (p ++ [a]) (R.fl (s + a)) (.add h (.one d a) (List.Perm.refl _))
    rw [List.foldl_cons, List.length_cons]
    rw [List.append_assoc, List.singleton_append] at this
    rw [show d + (l.length + 1) = d + 1 + l.length by omega]
    exact this

theorem aboveCF_decides (R : Rounding) (n : ℕ) (hd : n * R.u ≤ 1 / 100) (half m Y : ℚ) (hh : |half| ≤ Y)
    (h : 2 * (n + 1) * R.u * Y < m) : Decides (aboveCF R half) half m Y n := by
  intro l hne hl hY
  have hun := R.u_nonneg
  have hY0 : 0 ≤ Y := (abs_nonneg _).trans hh
  have hn : (0 : ℚ) < l.length := by exact_mod_cast List.length_pos_iff.2 hne
  have hl' : (l.length : ℚ) ≤ n := by exact_mod_cast hl
  have h1 := summed_near R _ _ _ (fold_summed R l 0 [0] 0 (.one 0 0))
  simp only [Nat.zero_add, List.singleton_append, List.sum_cons, List.map_cons, abs_zero, zero_add] at h1
  have hlu : (l.length : ℚ) * R.u ≤ n * R.u := mul_le_mul_of_nonneg_right hl' hun
  have hp := pow_bound hun l.length (by linarith)
  have h2 := avg_abs_le l Y hY hne
  unfold avg at h2
  rw [List.length_map, div_le_iff₀ hn] at h2
  set S := l.foldl (fun s x => R.fl (s + x)) 0
  have hp1 : 0 ≤ (1 + R.u) ^ l.length - 1 := by
    have : (1 : ℚ) ≤ (1 + R.u) ^ l.length := one_le_pow₀ (by linarith)
    linarith
  have h3 : |S - l.sum| ≤ 100 / 99 * (n * R.u) * (Y * l.length) := by
    refine h1.trans ((mul_le_mul_of_nonneg_left h2 hp1).trans ?_)
    apply mul_le_mul_of_nonneg_right _ (by positivity)
    linarith
  have h4 := R.err (half * l.length)
  have h5 : |half * l.length| ≤ Y * l.length := by
    rw [abs_mul, abs_of_pos hn]
    exact mul_le_mul_of_nonneg_right hh hn.le
  have h6 : R.u * |half * l.length| ≤ R.u * (Y * l.length) := mul_le_mul_of_nonneg_left h5 hun
  have h7 : 2 * (n + 1) * R.u * Y * l.length < m * l.length := mul_lt_mul_of_pos_right h hn
  have h8 : 0 ≤ (n : ℚ) * R.u * (Y * l.length) := by positivity
  have h9 : 0 ≤ R.u * (Y * l.length) := by positivity
  have a1 := abs_le.1 h3
  have a2 := abs_le.1 h4
  unfold aboveCF
  constructor
  · intro hy
    rw [decide_eq_true_iff]
    have g := sum_ge l _ hy
    change S > _
    linarith
  · intro hy
    rw [decide_eq_false_iff_not]
    have g := sum_le l _ hy
    change ¬ S > _
    linarith

/-! ### The symbols of a record -/

theorem symbol_open (R : Rounding) (r : Sent) (time : ℕ → ℚ) (clk : List ℚ) (T0 T δ ε π τ half lw cw D m Y : ℚ) (dec : List ℚ → Bool)
    (hc : Clocked r time clk T0 T δ ε π τ) (hδ : 0 < δ) (h2 : 2 * (δ + ε) ≤ T0) (hlw0 : 0 ≤ lw) (hlw1 : lw ≤ 1)
    (hu : 10 ^ 5 * R.u * r.y.length ≤ 1) (hY : ∀ y ∈ r.y, |y| ≤ Y) (hdec : Decides dec half m Y r.y.length)
    (hD : max (lw * (T0 + π)) (101 / 100 * δ) / 2 + 51 / 100 * δ + ε + π + τ ≤ D) (ho : OpenBy r time T0 half D m)
    (k : ℕ) (hk : k < clk.length) (c : Center) (h : sampleEdgeF R T δ r.t0 r.y.length clk[k] = some c) :
    let s := samplesF R lw cw (abcWidthF R lw δ T) (windowF R r.y T δ c)
    dec s.a = r.sym (k - 1) ∧ dec s.b = r.sym k ∧ dec s.c = r.sym (k + 1) ∧
      (r.sym k = true → ∀ y ∈ s.sym, half + m ≤ y) ∧ (r.sym k = false → ∀ y ∈ s.sym, y ≤ half - m) := by
  have hε : 0 ≤ ε := ((abs_nonneg _).trans hc.period).trans hc.steady
  have hper := abs_le.1 hc.period
  have hst := hc.steady
  have hT2 : 2 * δ ≤ T := by linarith
  have hT : 0 < T := by linarith
  have hun := R.u_nonneg
  obtain ⟨hi, ct, hcen, u1, u2, w1, w2, -⟩ := fine R T δ r.t0 _ r.y.length c hT hδ hu h
  have hq : 0 < δ / T := div_pos hδ hT
  have hq2 : δ / T ≤ 1 / 2 := by rw [div_le_iff₀ hT]; linarith
  have e1 : T / δ * (δ / T) = 1 := by field_simp
  have e3 : R.u ≤ 1 / 10 ^ 5 * (δ / T) := by
    have := mul_le_mul_of_nonneg_right u1 hq.le
    rw [mul_assoc, e1] at this
    linarith
  have huq : R.u * (δ / T) ≤ 1 / 10 ^ 5 * (δ / T) := mul_le_mul_of_nonneg_right u2 hq.le
  set W := decisionWidth lw T δ with hWd
  have hW1 : W ≤ 1 := by
    rw [hWd]
    exact max_le hlw1 (by linarith)
  have hW0 : 101 / 100 * (δ / T) ≤ W := le_max_right _ _
  have hWl : lw ≤ W := le_max_left _ _
  have hWT : W * T ≤ max (lw * (T0 + π)) (101 / 100 * δ) := by
    rw [hWd]
    unfold decisionWidth
    rw [max_mul_of_nonneg _ _ hT.le]
    apply max_le_max
    · exact mul_le_mul_of_nonneg_left (by linarith) hlw0
    · apply le_of_eq
      field_simp
  have habc := abs_le.1 (abc_near R lw T δ hT hδ)
  set abc := abcWidthF R lw δ T with habcd
  rw [← hWd] at habc
  -- the samples of the window around `u` are those of the symbol `z`
  have hnear : ∀ (u w : ℚ) (z : ℤ), |u| ≤ 3 / 2 → |u - 1 / 2| ≤ 1 → 0 ≤ w → w ≤ W + 4 * R.u * (δ / T) → -1 ≤ z → z ≤ r.n →
      (z : ℚ) = k + (u - 1 / 2) → ∀ p ∈ windowF R r.y T δ c, inWindow R u w p = true → |p.2| ≤ Y ∧
        (r.sym z = true → half + m ≤ p.2) ∧ (r.sym z = false → p.2 ≤ half - m) := by
    intro u w z hu3 hu1 hw0 hwW hz1 hz2 hz p hp hin
    obtain ⟨j, hj, hpj, hjd⟩ := mem_windowF R r.y T δ r.t0 _ hT hδ hT2 hu c h u w W hu3 hw0 hwW hW1 p hp hin
    rw [hpj]
    refine ⟨?_, ho j hj z hz1 hz2 ?_⟩
    · apply hY
      rw [List.getD_eq_getElem _ _ hj]
      exact List.getElem_mem hj
    · have n1 := hc.near k hk
      have n2 := hc.times j hj
      have n3 : |(u - 1 / 2) * (T - T0)| ≤ π := by
        rw [abs_mul]
        have := mul_le_mul hu1 hc.period (abs_nonneg _) (by norm_num)
        linarith
      rw [hz, show time j - (r.b + (k + (u - 1 / 2)) * T0) = (time j - (r.t0 + j * δ)) +
        ((r.t0 + j * δ - (clk[k] + (u - 1 / 2) * T)) + ((clk[k] - (r.b + k * T0)) + (u - 1 / 2) * (T - T0))) by ring]
      refine (abs_add_le _ _).trans ?_
      have a1 := abs_add_le (r.t0 + j * δ - (clk[k] + (u - 1 / 2) * T)) ((clk[k] - (r.b + k * T0)) + (u - 1 / 2) * (T - T0))
      have a2 := abs_add_le (clk[k] - (r.b + k * T0)) ((u - 1 / 2) * (T - T0))
      linarith
  have hlen : (windowF R r.y T δ c).length ≤ r.y.length := by
    rw [windowF_time R r.y T δ hT hδ c hi, List.length_map, List.length_range]
    have := iWidthF_ge R T δ hT hδ
    obtain ⟨i1, i2⟩ := hi
    omega
  -- what is decided for a part of the samples in a window
  have hdecide : ∀ (u : ℚ) (z : ℤ) (f : Pt → Bool), |u| ≤ 3 / 2 → |u - 1 / 2| ≤ 1 → -1 ≤ z → z ≤ r.n → (z : ℚ) = k + (u - 1 / 2) →
      (∀ p, f p = true → inWindow R u abc p = true) → (∃ p ∈ windowF R r.y T δ c, f p = true) →
      dec (((windowF R r.y T δ c).filter f).map Prod.snd) = r.sym z := by
    intro u z f hu3 hu1 hz1 hz2 hz hf hex
    have hall : ∀ y ∈ ((windowF R r.y T δ c).filter f).map Prod.snd, |y| ≤ Y ∧ (r.sym z = true → half + m ≤ y) ∧ (r.sym z = false → y ≤ half - m) := by
      intro y hy
      obtain ⟨p, hp, rfl⟩ := List.mem_map.1 hy
      obtain ⟨hp1, hp2⟩ := List.mem_filter.1 hp
      exact hnear u abc z hu3 hu1 (by linarith) (by linarith) hz1 hz2 hz p hp1 (hf p hp2)
    have hne : ((windowF R r.y T δ c).filter f).map Prod.snd ≠ [] := by
      obtain ⟨p, hp, hp2⟩ := hex
      exact List.ne_nil_of_mem (List.mem_map.2 ⟨p, List.mem_filter.2 ⟨hp, hp2⟩, rfl⟩)
    have hl : (((windowF R r.y T δ c).filter f).map Prod.snd).length ≤ r.y.length := by
      rw [List.length_map]
      exact (List.length_filter_le _ _).trans hlen
    obtain ⟨g1, g2⟩ := hdec _ hne hl fun y hy => (hall y hy).1
    cases hs : r.sym z with
    | true => exact g1 fun y hy => (hall y hy).2.1 hs
    | false => exact g2 fun y hy => (hall y hy).2.2 hs
  -- a sample near `u` is in the window around `u` and in no other
  have hex : ∀ u : ℚ, -1 / 2 ≤ u → u ≤ 3 / 2 → ∃ p ∈ windowF R r.y T δ c, inWindow R u abc p = true ∧
      ∀ u', |u'| ≤ 3 / 2 → 1 ≤ |u - u'| → inWindow R u' abc p = false := by
    intro u hu3 hu4
    obtain ⟨p, hp, hpu⟩ := exists_near R r.y T δ r.t0 _ hT hδ hT2 hu c h u hu3 hu4
    have hu' : |u| ≤ 3 / 2 := by rw [abs_le]; constructor <;> linarith
    refine ⟨p, hp, in_of R u abc hu' (by linarith) (by linarith) p (by linarith), ?_⟩
    intro u' hu1 hu2
    rw [← Bool.not_eq_true]
    intro hcon
    have := of_in R u' abc hu1 (by linarith) (by linarith) p hcon
    have t := abs_sub_le u p.1 u'
    rw [abs_sub_comm u p.1] at t
    linarith
  have a12 : |(-1 / 2 : ℚ)| ≤ 3 / 2 := by rw [abs_le]; constructor <;> norm_num
  have b12 : |(1 / 2 : ℚ)| ≤ 3 / 2 := by rw [abs_le]; constructor <;> norm_num
  have c12 : |(3 / 2 : ℚ)| ≤ 3 / 2 := by rw [abs_le]; constructor <;> norm_num
  have hk' : (k : ℤ) + 1 ≤ r.n := by
    rw [← hc.count]
    exact_mod_cast hk
  refine ⟨?_, ?_, ?_, ?_, ?_⟩
  · obtain ⟨p, hp, hp1, -⟩ := hex (-1 / 2) le_rfl (by norm_num)
    exact hdecide (-1 / 2) (k - 1) _ a12 (by norm_num) (by omega) (by omega) (by push_cast; ring) (fun p hp => hp) ⟨p, hp, hp1⟩
  · obtain ⟨p, hp, hp1, hp2⟩ := hex (1 / 2) (by norm_num) (by norm_num)
    refine hdecide (1 / 2) k _ b12 (by norm_num) (by omega) (by omega) (by push_cast; ring) (fun p hp => ?_) ⟨p, hp, ?_⟩
    · rw [Bool.and_eq_true] at hp
      exact hp.2
    · rw [hp1, hp2 (-1 / 2) a12 (by norm_num)]
      rfl
  · obtain ⟨p, hp, hp1, hp2⟩ := hex (3 / 2) (by norm_num) (by norm_num)
    refine hdecide (3 / 2) (k + 1) _ c12 (by norm_num) (by omega) (by omega) (by push_cast; ring) (fun p hp => ?_) ⟨p, hp, ?_⟩
    · rw [Bool.and_eq_true] at hp
      exact hp.2
    · rw [hp1, hp2 (-1 / 2) a12 (by norm_num), hp2 (1 / 2) b12 (by norm_num)]
      rfl
  · intro hs y hy
    obtain ⟨p, hp, rfl⟩ := List.mem_map.1 hy
    obtain ⟨hp1, hp2⟩ := List.mem_filter.1 hp
    exact (hnear (1 / 2) lw k b12 (by norm_num) hlw0 (by nlinarith) (by omega) (by omega) (by push_cast; ring) p hp1 hp2).2.1 hs
  · intro hs y hy
    obtain ⟨p, hp, rfl⟩ := List.mem_map.1 hy
    obtain ⟨hp1, hp2⟩ := List.mem_filter.1 hp
    exact (hnear (1 / 2) lw k b12 (by norm_num) hlw0 (by nlinarith) (by omega) (by omega) (by push_cast; ring) p hp1 hp2).2.2 hs

/-! ### Which symbols are sampled -/

theorem sampledF_iff (R : Rounding) (T δ tZero b : ℚ) (n : ℕ) : (sampleEdgeF R T δ tZero n b).isSome = true ↔
    iWidthF R T δ ≤ centerIF R δ tZero b ∧ centerIF R δ tZero b + iWidthF R T δ < n := by
  unfold sampleEdgeF
  simp only
  split
  · rename_i h
    simp only [Option.isSome_none, Bool.false_eq_true, false_iff]
    omega
  · rename_i h
    simp only [Option.isSome_some, true_iff]
    omega

/-- The rounded index before truncation of a clock edge in the record. -/
theorem index_fine (R : Rounding) (δ tZero b : ℚ) (N : ℕ) (hδ : 0 < δ) (hN : 5 ≤ N) (hu : 10 ^ 5 * R.u * N ≤ 1) (hb : |b - tZero| ≤ (N + 2) * δ) :
    ∃ x, centerIF R δ tZero b = pyInt x ∧ (b - tZero) / δ - 1 / 2 - 1 / 1000 ≤ x ∧ x ≤ (b - tZero) / δ + 1 / 2 + 1 / 1000 := by
  have hun := R.u_nonneg
  have hN5 : (5 : ℚ) ≤ N := by exact_mod_cast hN
  have u1 : R.u ≤ 1 / 10 ^ 5 := by nlinarith
  refine ⟨_, rfl, ?_⟩
  have h1 := index_near R δ tZero b hδ
  obtain ⟨-, m0, m1⟩ := pyModF_near R b δ hδ
  generalize R.fl (R.fl (R.fl (R.fl (b - tZero) - pyModF R b δ) / δ) + 1 / 2) = x at *
  generalize pyModF R b δ = μ at *
  have hr : reach δ tZero b / δ ≤ N + 3 := by
    rw [div_le_iff₀ hδ]
    unfold reach
    linarith
  have h2 : R.u * (reach δ tZero b / δ) ≤ R.u * (N + 3) := mul_le_mul_of_nonneg_left hr hun
  have h3 := abs_le.1 h1
  have μ0 : 0 ≤ μ / δ := div_nonneg m0 hδ.le
  have μ1 : μ / δ ≤ 1 + R.u := by rw [div_le_iff₀ hδ]; exact m1
  have e : (b - tZero - μ) / δ = (b - tZero) / δ - μ / δ := by ring
  rw [e] at h3
  constructor <;> nlinarith

/-- The symbols that are sampled follow each other; those far enough from the ends are among them, those too near are not. -/
theorem kept_rangeF (R : Rounding) (r : Sent) (time : ℕ → ℚ) (clk : List ℚ) (T0 T δ ε π τ : ℚ) (hc : Clocked r time clk T0 T δ ε π τ) (hδ : 0 < δ)
    (h2 : 2 * (δ + ε) ≤ T0) (hu : 10 ^ 5 * R.u * r.y.length ≤ 1) :
    ∃ a m, ((List.range r.n).filter fun k : ℕ => (sampleEdgeF R T δ r.t0 r.y.length (clk.getD k 0)).isSome) = List.range' a m ∧
      Covers r T0 δ ε a m := by
  suffices h : ∃ a m, a + m ≤ r.n ∧
      ((List.range r.n).filter fun k : ℕ => (sampleEdgeF R T δ r.t0 r.y.length (clk.getD k 0)).isSome) = List.range' a m ∧
      (∀ k < r.n, r.t0 + T0 + 4 * δ + 2 * ε ≤ r.b + k * T0 → r.b + k * T0 ≤ r.t0 + (r.y.length - 1) * δ - T0 - 3 * δ - 2 * ε →
        a ≤ k ∧ k < a + m) ∧
      (∀ k, a ≤ k → k < a + m → r.t0 + T0 + 9 / 10 * δ - 2 * ε < r.b + k * T0 ∧
        r.b + k * T0 < r.t0 + (r.y.length - 1) * δ - T0 + δ / 10 + 2 * ε) by
    obtain ⟨a, m, g1, g2, g3, g4⟩ := h
    exact ⟨a, m, g2, g1, g3, g4⟩
  have hε : 0 ≤ ε := ((abs_nonneg _).trans hc.period).trans hc.steady
  have hper := abs_le.1 hc.period
  have hst := hc.steady
  have hT : 0 < T := by linarith
  have hun := R.u_nonneg
  have hcl : ∀ k < r.n, |clk.getD k 0 - (r.b + k * T0)| ≤ ε := by
    intro k hk
    rw [List.getD_eq_getElem _ _ (by rw [hc.count]; exact hk)]
    exact hc.near k _
  generalize hN : r.y.length = N at *
  -- a sampled edge
  have hkept : ∀ b, (sampleEdgeF R T δ r.t0 N b).isSome = true → |b - r.t0| ≤ (N + 2) * δ ∧ 5 ≤ N ∧
      r.t0 + T + 9 / 10 * δ < b ∧ b < r.t0 + (N - 1) * δ - T + δ / 10 := by
    intro b hb
    obtain ⟨c, hcs⟩ := Option.isSome_iff_exists.1 hb
    obtain ⟨⟨i1, i2⟩, ct, hcen, u1, u2, w1, w2, hr⟩ := fine R T δ r.t0 b N c hT hδ hu hcs
    have hw := iWidthF_ge R T δ hT hδ
    refine ⟨hr, by omega, ?_⟩
    have hd : T / δ * δ = T := div_mul_cancel₀ _ hδ.ne'
    have he := abs_le.1 hcen
    have j1 : (iWidthF R T δ : ℚ) ≤ c.i := by exact_mod_cast (by omega : iWidthF R T δ ≤ c.i)
    have j2 : (c.i : ℚ) ≤ N - 1 - iWidthF R T δ := by
      have : c.i ≤ N - 1 - iWidthF R T δ := by omega
      exact_mod_cast this
    have k1 : (T / δ + 149 / 100) * δ ≤ c.i * δ := mul_le_mul_of_nonneg_right (by linarith) hδ.le
    have k2 : c.i * δ ≤ (N - 1 - (T / δ + 149 / 100)) * δ := mul_le_mul_of_nonneg_right (by linarith) hδ.le
    have k3 : R.u * δ ≤ 1 / 10 ^ 5 * δ := mul_le_mul_of_nonneg_right u2 hδ.le
    constructor <;> nlinarith [ct.1, ct.2]
  -- the clock edges are in order
  have horder : ∀ i j, i < j → j < r.n → clk.getD i 0 + T0 - 2 * ε ≤ clk.getD j 0 := by
    intro i j hij hj
    have a1 := abs_le.1 (hcl i (by omega))
    have a2 := abs_le.1 (hcl j hj)
    have : (i : ℚ) + 1 ≤ j := by exact_mod_cast hij
    nlinarith
  have hindex : ∀ b b', |b - r.t0| ≤ (N + 2) * δ → |b' - r.t0| ≤ (N + 2) * δ → 5 ≤ N → b + 2 * δ ≤ b' → centerIF R δ r.t0 b ≤ centerIF R δ r.t0 b' := by
    intro b b' hb hb' hN5 hbb
    obtain ⟨x, ex, x1, x2⟩ := index_fine R δ r.t0 b N hδ hN5 hu hb
    obtain ⟨x', ex', x1', x2'⟩ := index_fine R δ r.t0 b' N hδ hN5 hu hb'
    rw [ex, ex']
    apply pyInt_mono
    have : (b - r.t0) / δ + 2 ≤ (b' - r.t0) / δ := by
      rw [← sub_nonneg]
      have : (b' - r.t0) / δ - ((b - r.t0) / δ + 2) = (b' - b - 2 * δ) / δ := by field_simp; ring
      rw [this]
      exact div_nonneg (by linarith) hδ.le
    linarith
  obtain ⟨a, m, h1, h2'⟩ := filter_convex (fun k : ℕ => decide (k < r.n) && (sampleEdgeF R T δ r.t0 N (clk.getD k 0)).isSome) (by
    intro i j k hij hjk hi hk
    simp only [Bool.and_eq_true, decide_eq_true_iff] at hi hk ⊢
    refine ⟨by omega, ?_⟩
    rcases eq_or_lt_of_le hij with rfl | hij
    · exact hi.2
    rcases eq_or_lt_of_le hjk with rfl | hjk
    · exact hk.2
    obtain ⟨ri, hN5, -, -⟩ := hkept _ hi.2
    obtain ⟨rk, -, -, -⟩ := hkept _ hk.2
    have o1 := horder i j hij (by omega)
    have o2 := horder j k hjk hk.1
    have rj : |clk.getD j 0 - r.t0| ≤ (N + 2) * δ := by
      rw [abs_le] at ri rk ⊢
      constructor <;> linarith [ri.1, rk.2]
    have m1 := hindex _ _ ri rj hN5 (by linarith)
    have m2 := hindex _ _ rj rk hN5 (by linarith)
    have hi2 := (sampledF_iff R T δ r.t0 _ N).1 hi.2
    have hk2 := (sampledF_iff R T δ r.t0 _ N).1 hk.2
    rw [sampledF_iff]
    omega) r.n
  have hfil : ((List.range r.n).filter fun k : ℕ => (sampleEdgeF R T δ r.t0 N (clk.getD k 0)).isSome) = List.range' a m := by
    rw [← h2']
    apply List.filter_congr
    intro k hk
    rw [decide_eq_true (List.mem_range.1 hk), Bool.true_and]
  refine ⟨a, m, h1, hfil, ?_, ?_⟩
  · intro k hk hlo hhi
    have : k ∈ (List.range r.n).filter fun k : ℕ => (sampleEdgeF R T δ r.t0 N (clk.getD k 0)).isSome := by
      refine List.mem_filter.2 ⟨List.mem_range.2 hk, ?_⟩
      have hck := abs_le.1 (hcl k hk)
      rw [sampledF_iff]
      generalize clk.getD k 0 = b at *
      have hd : T / δ * δ = T := div_mul_cancel₀ _ hδ.ne'
      have hx := div_pos hT hδ
      have b1 : r.t0 + T + 4 * δ ≤ b := by linarith
      have b2 : b ≤ r.t0 + (N - 1) * δ - T - 3 * δ := by linarith
      have q1 : T / δ + 4 ≤ (b - r.t0) / δ := by rw [le_div_iff₀ hδ]; linarith
      have q2 : (b - r.t0) / δ ≤ N - 4 - T / δ := by rw [div_le_iff₀ hδ]; linarith
      have hN8 : (8 : ℚ) ≤ N - 2 * (T / δ) := by linarith
      have hN5 : 5 ≤ N := by
        have : (5 : ℚ) ≤ N := by linarith
        exact_mod_cast this
      have hb : |b - r.t0| ≤ (N + 2) * δ := by
        rw [abs_of_nonneg (by linarith)]
        linarith
      obtain ⟨x, ex, x1, x2⟩ := index_fine R δ r.t0 b N hδ hN5 hu hb
      obtain ⟨w1, w2⟩ := iWidthF_near R T δ hT hδ
      have hsm : R.u * (T / δ + 1) ≤ 1 / 10 ^ 5 := by
        have : R.u * (T / δ + 1) ≤ R.u * N := mul_le_mul_of_nonneg_left (by linarith) hun
        linarith
      rw [ex, pyInt_nonneg _ (by linarith)]
      constructor
      · rw [Int.le_floor]
        linarith
      · have f2 := Int.floor_le x
        have : (⌊x⌋ : ℚ) + iWidthF R T δ < N := by linarith
        exact_mod_cast this
    rw [hfil, List.mem_range'_1] at this
    exact this
  · intro k hk1 hk2
    have : k ∈ (List.range r.n).filter fun k : ℕ => (sampleEdgeF R T δ r.t0 N (clk.getD k 0)).isSome := by
      rw [hfil, List.mem_range'_1]
      exact ⟨hk1, hk2⟩
    obtain ⟨hk, hs⟩ := List.mem_filter.1 this
    obtain ⟨-, -, g1, g2⟩ := hkept _ hs
    have hck := abs_le.1 (hcl k (List.mem_range.1 hk))
    constructor <;> linarith

/-! ### C99 -/

theorem found_open (R : Rounding) (r : Sent) (time : ℕ → ℚ) (clk : List ℚ) (T0 T δ ε π τ half lw cw D m Y : ℚ) (dec : List ℚ → Bool)
    (hc : Clocked r time clk T0 T δ ε π τ) (hδ : 0 < δ) (h2 : 2 * (δ + ε) ≤ T0) (hlw0 : 0 ≤ lw) (hlw1 : lw ≤ 1)
    (hu : 10 ^ 5 * R.u * r.y.length ≤ 1) (hY : ∀ y ∈ r.y, |y| ≤ Y) (hdec : Decides dec half m Y r.y.length)
    (hD : max (lw * (T0 + π)) (101 / 100 * δ) / 2 + 51 / 100 * δ + ε + π + τ ≤ D) (ho : OpenBy r time T0 half D m) :
    ∃ start count, Covers r T0 δ ε start count ∧
      Found r half m (List.range' start count) ((sampleEdgesF R T δ r.t0 r.y.length clk).foldl
        (fun v c => vStep dec (samplesF R lw cw (abcWidthF R lw δ T) (windowF R r.y T δ c)) v) VOut.empty) := by
  obtain ⟨a, n, h3, h4⟩ := kept_rangeF R r time clk T0 T δ ε π τ hc hδ h2 hu
  refine ⟨a, n, h4, ?_⟩
  have hclk : clk = (List.range r.n).map fun k : ℕ => clk.getD k 0 := by
    apply List.ext_getElem
    · simp [hc.count]
    · intro i g1 g2
      simp only [List.getElem_map, List.getElem_range]
      rw [List.getD_eq_getElem]
  have hsym : ∀ k ∈ List.range r.n, ∀ c, sampleEdgeF R T δ r.t0 r.y.length (clk.getD k 0) = some c →
      let s := samplesF R lw cw (abcWidthF R lw δ T) (windowF R r.y T δ c)
      dec s.a = r.sym (k - 1) ∧ dec s.b = r.sym k ∧ dec s.c = r.sym (k + 1) ∧
        (r.sym k = true → ∀ y ∈ s.sym, half + m ≤ y) ∧ (r.sym k = false → ∀ y ∈ s.sym, y ≤ half - m) := by
    intro k hk c hcs
    have hk' : k < clk.length := by rw [hc.count]; exact List.mem_range.1 hk
    rw [List.getD_eq_getElem _ _ hk'] at hcs
    exact symbol_open R r time clk T0 T δ ε π τ half lw cw D m Y dec hc hδ h2 hlw0 hlw1 hu hY hdec hD ho k hk' c hcs
  have hmem : ∀ c ∈ sampleEdgesF R T δ r.t0 r.y.length clk, ∃ k ∈ List.range r.n, sampleEdgeF R T δ r.t0 r.y.length (clk.getD k 0) = some c := by
    intro c hcm
    unfold sampleEdgesF at hcm
    rw [hclk, List.filterMap_map] at hcm
    obtain ⟨k, hk, hk2⟩ := List.mem_filterMap.1 hcm
    exact ⟨k, hk, hk2⟩
  have hmap : ∀ {β : Type} (g : Center → β) (f : ℕ → β),
      (∀ k ∈ List.range r.n, ∀ c, sampleEdgeF R T δ r.t0 r.y.length (clk.getD k 0) = some c → g c = f k) →
      (sampleEdgesF R T δ r.t0 r.y.length clk).map g = (List.range' a n).map f := by
    intro β g f hgf
    rw [← h3]
    have : sampleEdgesF R T δ r.t0 r.y.length clk =
        (List.range r.n).filterMap fun k : ℕ => sampleEdgeF R T δ r.t0 r.y.length (clk.getD k 0) := by
      unfold sampleEdgesF
      conv_lhs => rw [hclk]
      rw [List.filterMap_map]
      rfl
    rw [this]
    exact filterMap_map _ g f _ hgf
  obtain ⟨f1, f2, -, -, -, -, f7, f8⟩ := fold_eq dec (fun c => samplesF R lw cw (abcWidthF R lw δ T) (windowF R r.y T δ c))
    (sampleEdgesF R T δ r.t0 r.y.length clk) VOut.empty
  constructor
  · rw [f8]
    simp only [VOut.empty, List.nil_append]
    apply hmap
    intro k hk c hcs
    obtain ⟨g1, g2, -⟩ := hsym k hk c hcs
    rw [g1, g2]
    cases r.sym (k - 1) <;> cases r.sym k <;> rfl
  · intro x y z
    rw [f7]
    simp only [VOut.empty, zero_add]
    have := hmap (fun c =>
        let s := samplesF R lw cw (abcWidthF R lw δ T) (windowF R r.y T δ c)
        dec s.a == x && dec s.b == y && dec s.c == z) (fun k : ℕ => r.sym (k - 1) == x && r.sym k == y && r.sym (k + 1) == z) (by
      intro k hk c hcs
      obtain ⟨g1, g2, g3, -⟩ := hsym k hk c hcs
      simp only
      rw [g1, g2, g3])
    have h5 := congrArg (List.countP fun b => b) this
    rw [List.countP_map, List.countP_map] at h5
    exact h5
  · intro y hy
    rw [f2] at hy
    simp only [VOut.empty, List.nil_append] at hy
    obtain ⟨c, hcm, hy⟩ := List.mem_flatMap.1 hy
    obtain ⟨k, hk, hcs⟩ := hmem c hcm
    obtain ⟨-, g2, -, g4, -⟩ := hsym k hk c hcs
    split at hy
    · rename_i hb
      exact g4 (by rw [← g2]; exact hb) y hy
    · cases hy
  · intro y hy
    rw [f1] at hy
    simp only [VOut.empty, List.nil_append] at hy
    obtain ⟨c, hcm, hy⟩ := List.mem_flatMap.1 hy
    obtain ⟨k, hk, hcs⟩ := hmem c hcm
    obtain ⟨-, g2, -, -, g5⟩ := hsym k hk c hcs
    split at hy
    · cases hy
    · rename_i hb
      exact g5 (by rw [← g2]; simpa using hb) y hy

/-- **C99 (vertical).** In rounded arithmetic, with an open eye and a clock that is near the one that was sent, `sample_vertical` finds what was sent:
for symbols that follow each other, all that are far enough from the ends of the record. -/
theorem C99_vertical (R : Rounding) (mean : List ℚ → ℚ) (d : ℕ) (r : Sent) (time : ℕ → ℚ) (clk : List ℚ) (T0 T δ ε π τ half lw cw D m Y : ℚ)
    (hmean : IsMean R d r.y.length mean) (hd : (d + 1) * R.u ≤ 1 / 100) (hc : Clocked r time clk T0 T δ ε π τ) (hδ : 0 < δ) (h2 : 2 * (δ + ε) ≤ T0)
    (hlw0 : 0 ≤ lw) (hlw1 : lw ≤ 1) (hu : 10 ^ 5 * R.u * r.y.length ≤ 1) (hY : ∀ y ∈ r.y, |y| ≤ Y) (hm : 2 * (d + 1) * R.u * Y < m)
    (hD : max (lw * (T0 + π)) (101 / 100 * δ) / 2 + 51 / 100 * δ + ε + π + τ ≤ D) (ho : OpenBy r time T0 half D m) :
    ∃ start count v, sampleVerticalF R mean r.y (sampleEdgesF R T δ r.t0 r.y.length clk) δ T half lw cw = .ok v ∧
      Covers r T0 δ ε start count ∧ Found r half m (List.range' start count) v := by
  have hper := abs_le.1 hc.period
  have hst := hc.steady
  have hε : 0 ≤ ε := ((abs_nonneg _).trans hc.period).trans hc.steady
  have hT : 0 < T := by linarith
  obtain ⟨a, n, h3, h4⟩ := found_open R r time clk T0 T δ ε π τ half lw cw D m Y (aboveF mean half) hc hδ h2 hlw0 hlw1 hu hY
    (aboveF_decides R d _ mean hmean hd half m Y hm) hD ho
  refine ⟨a, n, _, ?_, h3, h4⟩
  unfold sampleVerticalF
  apply foldlM_ok
  intro c hcm v
  obtain ⟨hi, -⟩ := C82_centre R T δ r.t0 hT hδ r.y.length clk c hcm
  rw [(pointsF_eq R r.y T δ hT hδ c hi).1]
  rfl

/-- **C99 (vertical, compiled).** The same for the compiled version, whatever is in memory around the record. -/
theorem C99_compiled (R : Rounding) (mem : ℤ → ℚ) (r : Sent) (time : ℕ → ℚ) (clk : List ℚ) (T0 T δ ε π τ half lw cw D m Y : ℚ)
    (hc : Clocked r time clk T0 T δ ε π τ) (hδ : 0 < δ) (h2 : 2 * (δ + ε) ≤ T0)
    (hlw0 : 0 ≤ lw) (hlw1 : lw ≤ 1) (hu : 10 ^ 5 * R.u * r.y.length ≤ 1) (hY : ∀ y ∈ r.y, |y| ≤ Y) (hh : |half| ≤ Y)
    (hm : 2 * (r.y.length + 1) * R.u * Y < m)
    (hD : max (lw * (T0 + π)) (101 / 100 * δ) / 2 + 51 / 100 * δ + ε + π + τ ≤ D) (ho : OpenBy r time T0 half D m) :
    ∃ start count, Covers r T0 δ ε start count ∧ Found r half m (List.range' start count)
      (sampleVerticalCF R mem r.y (sampleEdgesF R T δ r.t0 r.y.length clk) δ T half lw cw) := by
  have hper := abs_le.1 hc.period
  have hst := hc.steady
  have hε : 0 ≤ ε := ((abs_nonneg _).trans hc.period).trans hc.steady
  have hT : 0 < T := by linarith
  obtain ⟨a, n, h3, h4⟩ := found_open R r time clk T0 T δ ε π τ half lw cw D m Y (aboveCF R half) hc hδ h2 hlw0 hlw1 hu hY
    (aboveCF_decides R _ (by linarith) half m Y hh hm) hD ho
  refine ⟨a, n, h3, ?_⟩
  have e : sampleVerticalCF R mem r.y (sampleEdgesF R T δ r.t0 r.y.length clk) δ T half lw cw =
      (sampleEdgesF R T δ r.t0 r.y.length clk).foldl
        (fun v c => vStep (aboveCF R half) (samplesF R lw cw (abcWidthF R lw δ T) (windowF R r.y T δ c)) v) VOut.empty := by
    unfold sampleVerticalCF
    exact List.foldl_ext _ _ _ (by
      intro v c hcm
      obtain ⟨hi, -⟩ := C82_centre R T δ r.t0 hT hδ r.y.length clk c hcm
      rw [(pointsF_eq R r.y T δ hT hδ c hi).2])
  rw [e]
  exact h4

end Verif.Props.FloatPam2
