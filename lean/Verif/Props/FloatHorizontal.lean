import Verif.Model.FloatHorizontal
import Verif.Props.FloatMeasures
import Verif.Props.FloatBathtub
import Verif.Props.Pam2Horizontal

/-!
C111: the horizontal samples and measures of an eye diagram in rounded arithmetic.
-/

namespace Verif.Props.FloatHorizontal

open Verif Verif.Lines Verif.Eye Verif.Pam2 Verif.Pipeline Verif.Float Verif.Props.Float Verif.Props.FloatStats Verif.Props.FloatEye
  Verif.Props.EyeWindow Verif.Props.EyeMask Verif.Props.Pam2Vertical
  Verif.Props.FloatCdr Verif.Props.OpenEye Verif.Props.FloatPam2 Verif.Props.FloatUncertain Verif.Props.FloatMeasures
open Verif.Props.FloatBathtub (timeOf valueOf)
open Verif.Cdr (avg)
open Verif.Props.Pam2Horizontal (FirstMin FirstMax argmin_ok argmax_ok)

/-! ### Specification -/

/-- With `z` the values around a symbol and `W` samples per symbol: the sample `k` is on the rising edge, that is not before a lowest sample before the
middle of the symbol and not after a highest sample around the middle, all up to `e`. -/
def OnRise (z : ℕ → ℚ) (W : ℕ) (e : ℚ) (k : ℕ) : Prop :=
  (∃ j ≤ k, j ≤ W ∧ ∀ i ≤ W, z j ≤ z i + e) ∧
  ∃ j, k ≤ j ∧ (2 * W + 1) / 4 ≤ j ∧ j ≤ (2 * W + 1) / 4 + W ∧ ∀ i, (2 * W + 1) / 4 ≤ i → i ≤ (2 * W + 1) / 4 + W → z i ≤ z j + e

/-- The same, with certainty: a sample up to `k` is lower than all later ones before the middle, a sample from `k` on higher than all earlier ones
around the middle, by more than `e`. -/
def SurelyOnRise (z : ℕ → ℚ) (W : ℕ) (e : ℚ) (k : ℕ) : Prop :=
  (∃ j ≤ k, j ≤ W ∧ ∀ i, k < i → i ≤ W → z j + e < z i) ∧
  ∃ j, k ≤ j ∧ (2 * W + 1) / 4 ≤ j ∧ j ≤ (2 * W + 1) / 4 + W ∧ ∀ i, (2 * W + 1) / 4 ≤ i → i < k → z i + e < z j

/-- The error of a time. -/
def timeErr (u T δ : ℚ) (W : ℤ) : ℚ := 20 * (u * (1 + W * δ / T))

/-- What is read of the sample `k` of a symbol, if anything: its time.  It is read if the value `z k` is within half of `height` of `level` and it is
`certain` for other reasons; and only if so up to the errors. -/
structure Reads (u T δ : ℚ) (W : ℤ) (c : Center) (z : ℕ → ℚ) (V level height : ℚ) (k : ℕ) (certain : Prop) (possible : ℚ → Prop) (r : Option ℚ) :
    Prop where
  only : ∀ t, r = some t → |t - timeOf T δ W c k| ≤ timeErr u T δ W ∧ |z k - level| ≤ height / 2 + 10 * u * V ∧ possible t
  all : |z k - level| ≤ height / 2 - 10 * u * V → certain → r ≠ none

/-- The times read of the symbols `syms`: of every symbol those of the samples in their order. -/
def readAll (W : ℤ) (syms : List (Center × ℤ)) (f : Center × ℤ → ℕ → Option ℚ) : List ℚ :=
  syms.flatMap fun s => (List.range (2 * W.toNat + 1)).filterMap (f s)

/-- `s` is what is reported for the samples `x` (C105): the average up to roundings of the average magnitude, and the deviation. -/
def Describes (R : Rounding) (d : ℕ) (x : List ℚ) (s : UVF) : Prop :=
  ∃ e, 0 ≤ e ∧ e ≤ 100 / 99 * ((d + 1) * R.u) * avg (x.map fun v => |v|) ∧ |s.value - avg x| = e ∧ 0 ≤ s.stddev ∧
    Within R (d + 6) (variance x + e ^ 2) (s.stddev ^ 2)

/-- The measures of the times `x`: `s` is nan if there are none. -/
def Measured (R : Rounding) (d : ℕ) (T : ℚ) (ts : List ℚ) (s : Option UVF) : Prop :=
  ∃ x, List.Forall₂ (fun t v => Rounded R (t * T) v) ts x ∧ (s = none ↔ ts = []) ∧ ∀ v, s = some v → Describes R d x v

/-- `v` is the difference of two measures, nan if one is. -/
def Difference (R : Rounding) (a b v : Option UVF) : Prop :=
  (v = none ↔ a = none ∨ b = none) ∧ ∀ x y z, a = some x → b = some y → v = some z → IsDifference R x y z

/-- `v` is the difference of two measures plus `T`, up to roundings, nan if one is. -/
def Duration (R : Rounding) (T : ℚ) (a b v : Option UVF) : Prop :=
  (v = none ↔ a = none ∨ b = none) ∧ ∀ x y z, a = some x → b = some y → v = some z →
    |z.value - (x.value - y.value + T)| ≤ 3 * R.u * (|x.value - y.value| + |T|) ∧ 0 ≤ z.stddev ∧ Within R 4 (x.stddev ^ 2 + y.stddev ^ 2) (z.stddev ^ 2)

/-- `r` is the quotient of two measures and its deviation, up to roundings; nan if one is. -/
def Quotient (R : Rounding) (a b : Option UVF) (r : NVF) : Prop :=
  ((a = none ∨ b = none) → r = NVF.nan) ∧
  ∀ x y, a = some x → b = some y → IsRatio R.u x.value y.value r.value ∧ IsDeviation R x y r.stddev

/-- The horizontal measures are those of the times sampled: `s` are their averages. -/
structure Derived (R : Rounding) (d : ℕ) (T : ℚ) (o : List HOut) (m : HMeasuresF) : Prop where
  cross : Measured R d T (o.flatMap (·.crossLeft)) m.tCross
  zero : Measured R d T (o.flatMap (·.fallHalf)) m.t0Start
  one : Measured R d T (o.flatMap (·.riseHalf)) m.t1Start
  rise : Measured R d T (o.flatMap (·.riseLower)) m.tRiseStart
  fall : Measured R d T (o.flatMap (·.fallUpper)) m.tFallStart
  sym : ∃ s, Measured R d T (o.flatMap (·.crossRight)) s ∧ Difference R s m.tCross m.tSym ∧ (m.width = none ↔ m.tSym = none) ∧
    ∀ a b w, m.tCross = some a → s = some b → m.width = some w →
      |w.value - ((b.value - 3 * b.stddev) - (a.value + 3 * a.stddev))| ≤ 4 * R.u * (|b.value| + |a.value| + 3 * |b.stddev| + 3 * |a.stddev|) ∧
      0 ≤ w.stddev ∧ Within R 4 (b.stddev ^ 2 + a.stddev ^ 2) (w.stddev ^ 2)
  tRise : ∃ s, Measured R d T (o.flatMap (·.riseUpper)) s ∧ Difference R s m.tRiseStart m.tRise
  tFall : ∃ s, Measured R d T (o.flatMap (·.fallLower)) s ∧ Difference R s m.tFallStart m.tFall
  t0 : Duration R T m.t1Start m.t0Start m.t0
  t1 : Duration R T m.t0Start m.t1Start m.t1
  dcd : (m.dcd = none ↔ m.t0 = none ∨ m.t1 = none) ∧ ∀ a b v, m.t0 = some a → m.t1 = some b → m.dcd = some v →
    |v.value - (b.value - a.value) / 2| ≤ 3 / 2 * R.u * |b.value - a.value| ∧ 0 ≤ v.stddev ∧
      Within R 6 ((b.stddev ^ 2 + a.stddev ^ 2) / 4) (v.stddev ^ 2)
  freq : Quotient R (some ⟨1, 0⟩) m.tSym m.fSym
  widthR : Quotient R m.width m.tSym m.widthR
  dcdR : Quotient R m.dcd m.tSym m.dcdR
  jitterPp : (m.jitterPp = none ↔ m.tCross = none) ∧ ∀ p, m.jitterPp = some p → ∃ x lo hi,
    List.Forall₂ (fun t v => Rounded R (t * T) v) (o.flatMap (·.crossLeft)) x ∧ lo ∈ x ∧ hi ∈ x ∧ (∀ v ∈ x, lo ≤ v ∧ v ≤ hi) ∧ Rounded R (hi - lo) p
  jitterRms : m.jitterRms = m.tCross.map (·.stddev)

/-- The horizontal measures are those of crossings at 0 and `T`, up to `E`. -/
structure TimesF (T E : ℚ) (m : HMeasuresF) : Prop where
  cross : ∀ v, m.tCross = some v → |v.value| ≤ E ∧ 0 ≤ v.stddev ∧ v.stddev ≤ 1001 / 1000 * E
  sym : ∀ v, m.tSym = some v → |v.value - T| ≤ 22 / 10 * E
  width : ∀ v, m.width = some v → T - 9 * E ≤ v.value ∧ v.value ≤ T + 3 * E
  freq : ∀ f, m.fSym.value = some f → f * (T - 3 * E) ≤ 1 ∧ 1 ≤ f * (T + 3 * E)
  widthR : ∀ r, m.widthR.value = some r → (1 - r) * (T - 3 * E) ≤ 8 * E ∧ (r - 1) * (T - 3 * E) ≤ 2 * E
  jitterPp : ∀ p, m.jitterPp = some p → 0 ≤ p ∧ p ≤ 22 / 10 * E
  jitterRms : ∀ p, m.jitterRms = some p → 0 ≤ p ∧ p ≤ 1001 / 1000 * E

/-- The times are not nan. -/
def KnownF (m : HMeasuresF) : Prop :=
  m.tCross ≠ none ∧ m.tSym ≠ none ∧ m.width ≠ none ∧ m.widthR.value ≠ none ∧ m.fSym.value ≠ none ∧ m.jitterPp ≠ none ∧ m.jitterRms ≠ none

/-- The samples up to `D` from a symbol whose values are no farther than `h` from the level `c` are within `x` of one of the two boundaries of the symbol. -/
def SteepF (r : Sent) (time : ℕ → ℚ) (T D c h x : ℚ) : Prop :=
  ∀ j < r.y.length, ∀ k < r.n, |time j - (r.b + k * T)| ≤ D → |r.y.getD j 0 - c| ≤ h →
    |time j - (r.b + (k - 1 / 2) * T)| ≤ x ∨ |time j - (r.b + (k + 1 / 2) * T)| ≤ x

/-- A sample within `x` of the boundary before (`side` is -1/2) or after (1/2) the symbol `k` is no farther than `h` from the level `c`. -/
def CrossedF (r : Sent) (time : ℕ → ℚ) (T c h x : ℚ) (k : ℕ) (side : ℚ) : Prop :=
  ∃ j < r.y.length, |time j - (r.b + (k + side) * T)| ≤ x ∧ |r.y.getD j 0 - c| ≤ h

/-! ### Windows -/

theorem inHeight_near (R : Rounding) (level level' height y y' V : ℚ) (hl : |level' - level| ≤ 3 * R.u * |level|) (hy : |y' - y| ≤ 3 * R.u * |y|)
    (hyV : |y| ≤ V) (hh : 0 ≤ height) (hV : |level| + height ≤ V) :
    (inHeight R level' height y' = true → |y - level| ≤ height / 2 + 10 * R.u * V) ∧
    (|y - level| ≤ height / 2 - 10 * R.u * V → inHeight R level' height y' = true) := by
  have hun := R.u_nonneg
  have hus := R.u_small
  have hV0 : 0 ≤ V := (abs_nonneg _).trans hyV
  have a0 := abs_nonneg level
  have huV : 0 ≤ R.u * V := mul_nonneg hun hV0
  have l1 : R.u * |level| ≤ R.u * V := mul_le_mul_of_nonneg_left (by linarith) hun
  have l2 : R.u * |y| ≤ R.u * V := mul_le_mul_of_nonneg_left hyV hun
  obtain ⟨h1, h1'⟩ := fl_err_le R (height / 2) (height / 2) (by rw [abs_of_nonneg (by linarith)])
  have l3 : R.u * (height / 2) ≤ R.u * (V / 2) := mul_le_mul_of_nonneg_left (by linarith) hun
  have hs3 : R.u * |level| ≤ 1 / 100 * |level| := mul_le_mul_of_nonneg_right hus a0
  have hl' : |level'| ≤ 103 / 100 * |level| := by
    have := abs_sub_abs_le_abs_sub level' level
    linarith
  unfold inHeight windowEnds
  simp only
  generalize R.fl (height / 2) = H at *
  obtain ⟨g1, -⟩ := fl_err_le R (level' - H) (2 * V) (by have := abs_sub level' H; linarith)
  obtain ⟨g2, -⟩ := fl_err_le R (level' + H) (2 * V) (by have := abs_add_le level' H; linarith)
  generalize R.fl (level' - H) = A at *
  generalize R.fl (level' + H) = B at *
  have hl := abs_le.1 hl
  have hy := abs_le.1 hy
  have h1 := abs_le.1 h1
  have g1 := abs_le.1 g1
  have g2 := abs_le.1 g2
  unfold within
  rw [Bool.and_eq_true, decide_eq_true_iff, decide_eq_true_iff, abs_le, abs_le]
  constructor
  · rintro ⟨w1, w2⟩
    constructor <;> linarith [hl.1, hl.2, hy.1, hy.2, h1.1, h1.2, g1.1, g1.2, g2.1, g2.2]
  · rintro ⟨w1, w2⟩
    constructor <;> linarith [hl.1, hl.2, hy.1, hy.2, h1.1, h1.2, g1.1, g1.2, g2.1, g2.2]

/-! ### The loops -/

/-- The time of a sample that is at the crossing level in the left half. -/
def leftF (R : Rounding) (h : HWin) (p : Pt) : Option ℚ := if atCrossF R h p.2 = true ∧ -1 / 2 ≤ p.1 ∧ p.1 ≤ 1 / 2 then some p.1 else none

/-- The time of a sample that is at the crossing level in the right half. -/
def rightF (R : Rounding) (h : HWin) (p : Pt) : Option ℚ := if atCrossF R h p.2 = true ∧ 1 / 2 < p.1 ∧ p.1 ≤ 3 / 2 then some p.1 else none

/-- The time of a sample that is at a level. -/
def levelF (R : Rounding) (level height : ℚ) (p : Pt) : Option ℚ := if inHeight R level height p.2 = true then some p.1 else none

theorem crossFoldF (R : Rounding) (h : HWin) (l : List Pt) (v : HOut) :
    l.foldl (crossStepF R h) v = { v with
      crossLeft := v.crossLeft ++ l.filterMap (leftF R h)
      crossRight := v.crossRight ++ l.filterMap (rightF R h) } := by
  induction l generalizing v with
  | nil => simp
  | cons p l ih =>
    rw [List.foldl_cons, ih, List.filterMap_cons, List.filterMap_cons]
    unfold crossStepF leftF rightF within
    cases hc : atCrossF R h p.2
    · simp
    · by_cases h1 : -1 / 2 ≤ p.1 ∧ p.1 ≤ 1 / 2
      · have h2 : ¬ (1 / 2 < p.1 ∧ p.1 ≤ 3 / 2) := fun hh => absurd h1.2 (not_le.2 hh.1)
        simp only [if_true, ← Bool.decide_and, decide_eq_true_iff, if_pos h1, true_and, if_neg h2]
        simp
      · simp only [if_true, ← Bool.decide_and, decide_eq_true_iff, if_neg h1, true_and]
        by_cases h2 : 1 / 2 < p.1 ∧ p.1 ≤ 3 / 2
        · simp only [if_pos h2]
          simp
        · simp only [if_neg h2]

theorem edgeFoldF (R : Rounding) (h : HWin) (d : ℤ) (l : List Pt) (v : HOut) :
    l.foldl (hEdgeStepF R h d) v = if d = 1 then { v with
        riseLower := v.riseLower ++ l.filterMap (levelF R h.lower h.height)
        riseUpper := v.riseUpper ++ l.filterMap (levelF R h.upper h.height)
        riseHalf := v.riseHalf ++ l.filterMap (levelF R (1 / 2) h.height) }
      else { v with
        fallLower := v.fallLower ++ l.filterMap (levelF R h.lower h.height)
        fallUpper := v.fallUpper ++ l.filterMap (levelF R h.upper h.height)
        fallHalf := v.fallHalf ++ l.filterMap (levelF R (1 / 2) h.height) } := by
  induction l generalizing v with
  | nil => split <;> simp
  | cons p l ih =>
    rw [List.foldl_cons, ih]
    unfold hEdgeStepF levelF
    simp only [List.filterMap_cons]
    by_cases hd : d = 1
    · simp only [if_pos hd]
      by_cases h1 : inHeight R h.lower h.height p.2 = true <;> by_cases h2 : inHeight R h.upper h.height p.2 = true <;>
        by_cases h3 : inHeight R (1 / 2) h.height p.2 = true <;> simp only [h1, h2, h3, if_true] <;> simp
    · simp only [if_neg hd]
      by_cases h1 : inHeight R h.lower h.height p.2 = true <;> by_cases h2 : inHeight R h.upper h.height p.2 = true <;>
        by_cases h3 : inHeight R (1 / 2) h.height p.2 = true <;> simp only [h1, h2, h3, if_true] <;> simp

/-- The results of one symbol: `es` are the samples of the edge. -/
def symOutF (R : Rounding) (h : HWin) (all es : List Pt) (d : ℤ) (v : HOut) : HOut :=
  let v := all.foldl (crossStepF R h) v
  if d = 0 then v else es.foldl (hEdgeStepF R h d) v

theorem symFoldF {α : Type} (R : Rounding) (h : HWin) (all es : α → List Pt) (d : α → ℤ) (l : List α) (v : HOut) :
    let r := l.foldl (fun v c => symOutF R h (all c) (es c) (d c) v) v
    r.riseLower = v.riseLower ++ (l.filter fun c => d c == 1).flatMap (fun c => (es c).filterMap (levelF R h.lower h.height)) ∧
    r.riseUpper = v.riseUpper ++ (l.filter fun c => d c == 1).flatMap (fun c => (es c).filterMap (levelF R h.upper h.height)) ∧
    r.riseHalf = v.riseHalf ++ (l.filter fun c => d c == 1).flatMap (fun c => (es c).filterMap (levelF R (1 / 2) h.height)) ∧
    r.fallLower = v.fallLower ++ (l.filter fun c => d c != 1 && d c != 0).flatMap (fun c => (es c).filterMap (levelF R h.lower h.height)) ∧
    r.fallUpper = v.fallUpper ++ (l.filter fun c => d c != 1 && d c != 0).flatMap (fun c => (es c).filterMap (levelF R h.upper h.height)) ∧
    r.fallHalf = v.fallHalf ++ (l.filter fun c => d c != 1 && d c != 0).flatMap (fun c => (es c).filterMap (levelF R (1 / 2) h.height)) ∧
    r.crossLeft = v.crossLeft ++ l.flatMap (fun c => (all c).filterMap (leftF R h)) ∧
    r.crossRight = v.crossRight ++ l.flatMap (fun c => (all c).filterMap (rightF R h)) := by
  induction l generalizing v with
  | nil => simp
  | cons a l ih =>
    obtain ⟨h1, h2, h3, h4, h5, h6, h7, h8⟩ := ih (symOutF R h (all a) (es a) (d a) v)
    simp only [List.foldl_cons]
    rw [h1, h2, h3, h4, h5, h6, h7, h8]
    simp only [symOutF, crossFoldF, edgeFoldF, List.filter_cons, List.flatMap_cons]
    by_cases hz : d a = 0
    · simp [hz]
    · by_cases ho : d a = 1
      · simp [ho]
      · simp [hz, ho]

/-! ### One symbol of the fallback -/

/-- Start and stop of an edge: an extreme sample before the middle of the symbol and an opposite one around the middle. -/
def EdgeAt (z : ℕ → ℚ) (w : ℕ) (d : ℤ) (lo hi : ℕ) : Prop :=
  lo ≤ w ∧ (2 * w + 1) / 4 ≤ hi ∧ hi ≤ (2 * w + 1) / 4 + w ∧
  (d = 1 → (∀ i ≤ w, z lo ≤ z i) ∧ ∀ i, (2 * w + 1) / 4 ≤ i → i ≤ (2 * w + 1) / 4 + w → z i ≤ z hi) ∧
  (d ≠ 1 → (∀ i ≤ w, z i ≤ z lo) ∧ ∀ i, (2 * w + 1) / 4 ≤ i → i ≤ (2 * w + 1) / 4 + w → z hi ≤ z i)

theorem slice_get (ys : List ℚ) (a n i : ℕ) (h : a + n ≤ ys.length) (hi : i < n) :
    ∃ hh : i < ((ys.drop a).take n).length, ((ys.drop a).take n)[i] = ys.getD (a + i) 0 := by
  have hl : ((ys.drop a).take n).length = n := by rw [List.length_take, List.length_drop]; omega
  refine ⟨by rw [hl]; exact hi, ?_⟩
  rw [List.getElem_take, List.getElem_drop, List.getD_eq_getElem _ _ (by omega)]

theorem range_okF (ys : List ℚ) (w : ℕ) (c : Center) (h1 : 0 ≤ c.i - (w : ℤ)) (h2 : c.i + (w : ℤ) < ys.length) (d : ℤ) :
    ∃ lo hi, edgeRange ys w ((2 * (w : ℤ) + 1) / 4) c d = .ok (lo, hi) ∧ EdgeAt (fun k => ys.getD (c.i.toNat - w + k) 0) w d lo hi := by
  obtain ⟨i, hi⟩ := Int.eq_ofNat_of_zero_le (by omega : 0 ≤ c.i)
  rw [hi] at h1 h2
  have hoff : (2 * (w : ℤ) + 1) / 4 = (((2 * w + 1) / 4 : ℕ) : ℤ) := by push_cast; rfl
  rw [hoff]
  have ho2 : (2 * w + 1) / 4 ≤ w := by omega
  unfold EdgeAt
  obtain ⟨off, hoffe⟩ : ∃ off, (2 * w + 1) / 4 = off := ⟨_, rfl⟩
  rw [hoffe] at ho2 ⊢
  rw [hi, Int.toNat_natCast]
  have hf : pySlice ys (c.i - w) (c.i + 1) = (ys.drop (i - w)).take (w + 1) := by
    rw [hi, show (i : ℤ) - w = ((i - w : ℕ) : ℤ) by omega, show (i : ℤ) + 1 = ((i - w : ℕ) : ℤ) + ((w + 1 : ℕ) : ℤ) by omega,
      pySlice_inside ys (i - w) (w + 1) (by omega)]
  have hcn : pySlice ys (c.i - w + (off : ℤ)) (c.i + (off : ℤ) + 1) = (ys.drop (i - w + off)).take (w + 1) := by
    rw [hi, show (i : ℤ) - w + (off : ℤ) = ((i - w + off : ℕ) : ℤ) by omega,
      show (i : ℤ) + (off : ℤ) + 1 = ((i - w + off : ℕ) : ℤ) + ((w + 1 : ℕ) : ℤ) by omega,
      pySlice_inside ys (i - w + off) (w + 1) (by omega)]
  have g1 := fun k hk => slice_get ys (i - w) (w + 1) k (by omega) hk
  have g2 := fun k hk => slice_get ys (i - w + off) (w + 1) k (by omega) hk
  have l1 : ((ys.drop (i - w)).take (w + 1)).length = w + 1 := by rw [List.length_take, List.length_drop]; omega
  have l2 : ((ys.drop (i - w + off)).take (w + 1)).length = w + 1 := by rw [List.length_take, List.length_drop]; omega
  unfold edgeRange
  simp only
  rw [hf, hcn]
  generalize (ys.drop (i - w)).take (w + 1) = A at *
  generalize (ys.drop (i - w + off)).take (w + 1) = B at *
  have n1 : A ≠ [] := by apply List.ne_nil_of_length_pos; omega
  have n2 : B ≠ [] := by apply List.ne_nil_of_length_pos; omega
  have e2 : ∀ k, off ≤ k → k ≤ off + w → ∃ hh : k - off < B.length, B[k - off] = ys.getD (i - w + k) 0 := by
    intro k k1 k2
    obtain ⟨hh, e⟩ := g2 (k - off) (by omega)
    exact ⟨hh, by rw [e]; congr 1; omega⟩
  by_cases hd : d = 1
  · obtain ⟨a, ha1, ha2, ha3, -⟩ := argmin_ok _ n1
    obtain ⟨b, hb1, hb2, hb3, -⟩ := argmax_ok _ n2
    rw [if_pos hd, ha1, hb1]
    refine ⟨a, off + b, rfl, by omega, by omega, by omega, fun _ => ⟨?_, ?_⟩, fun h => absurd hd h⟩
    · intro k hk
      obtain ⟨q1, e1⟩ := g1 k (by omega)
      obtain ⟨q2, e2⟩ := g1 a (by omega)
      rw [← e1, ← e2]
      exact ha3 _ (List.getElem_mem _)
    · intro k k1 k2
      obtain ⟨q1, e1⟩ := e2 k k1 k2
      obtain ⟨q2, e3⟩ := g2 b (by omega)
      rw [show i - w + (off + b) = i - w + off + b by omega, ← e1, ← e3]
      exact hb3 _ (List.getElem_mem _)
  · obtain ⟨a, ha1, ha2, ha3, -⟩ := argmax_ok _ n1
    obtain ⟨b, hb1, hb2, hb3, -⟩ := argmin_ok _ n2
    rw [if_neg hd, ha1, hb1]
    refine ⟨a, off + b, rfl, by omega, by omega, by omega, fun h => absurd h hd, fun _ => ⟨?_, ?_⟩⟩
    · intro k hk
      obtain ⟨q1, e1⟩ := g1 k (by omega)
      obtain ⟨q2, e2⟩ := g1 a (by omega)
      rw [← e1, ← e2]
      exact ha3 _ (List.getElem_mem _)
    · intro k k1 k2
      obtain ⟨q1, e1⟩ := e2 k k1 k2
      obtain ⟨q2, e3⟩ := g2 b (by omega)
      rw [show i - w + (off + b) = i - w + off + b by omega, ← e1, ← e3]
      exact hb3 _ (List.getElem_mem _)

theorem filter_range (n lo hi : ℕ) (h : hi < n) :
    (List.range n).filter (fun k => decide (lo ≤ k ∧ k ≤ hi)) = List.range' lo (hi + 1 - lo) := by
  have hp : ((List.range n).filter (fun k => decide (lo ≤ k ∧ k ≤ hi))).Perm (List.range' lo (hi + 1 - lo)) := by
    rw [List.perm_ext_iff_of_nodup (List.nodup_range.filter _) List.nodup_range']
    intro k
    rw [List.mem_filter, List.mem_range, decide_eq_true_iff, List.mem_range'_1]
    omega
  refine hp.eq_of_pairwise (le := (· ≤ ·)) (fun a b _ _ h1 h2 => le_antisymm h1 h2) ?_ ?_
  · exact (List.pairwise_le_range).filter _
  · exact List.pairwise_le_range' _

/-- The point `k` of a window. -/
def ptF (R : Rounding) (ys : List ℚ) (T δ : ℚ) (c : Center) (k : ℕ) : Pt :=
  (timeF R T δ c.t k, ys.getD (c.i.toNat - (iWidthF R T δ).toNat + k) 0)

theorem hStepF_ok (R : Rounding) (ys : List ℚ) (T δ : ℚ) (hT : 0 < T) (hδ : 0 < δ) (h : HWin) (c : Center) (hc : InsideF R T δ ys.length c) (d : ℤ) :
    ∃ lo hi, EdgeAt (fun k => ys.getD (c.i.toNat - (iWidthF R T δ).toNat + k) 0) (iWidthF R T δ).toNat d lo hi ∧
      ∀ v, hStepF R ys T δ h v (c, d) = .ok (symOutF R h (windowF R ys T δ c) ((List.range' lo (hi + 1 - lo)).map (ptF R ys T δ c)) d v) := by
  have hw := iWidthF_ge R T δ hT hδ
  obtain ⟨w, hwe⟩ := Int.eq_ofNat_of_zero_le (by omega : 0 ≤ iWidthF R T δ)
  have hc' := hc
  obtain ⟨h1, h2⟩ := hc'
  rw [hwe] at h1 h2
  obtain ⟨lo, hi, e1, e2⟩ := range_okF ys w c h1 h2 d
  have hp := (pointsF_eq R ys T δ hT hδ c hc).1
  have hww : (iWidthF R T δ).toNat = w := by omega
  rw [hww]
  refine ⟨lo, hi, e2, fun v => ?_⟩
  unfold hStepF symOutF
  simp only [bind, Except.bind, pure, Except.pure, hp]
  by_cases hd : d = 0
  · simp only [if_pos hd]
  · simp only [if_neg hd]
    rw [hwe, e1]
    simp only
    have e := mapM_ok (fun ii => do
      let t ← pyGet (gridTF R T δ) ii
      let y ← pyGetZ ys (c.i - w + ii)
      return ((R.fl (t + R.fl (c.t / T)), y) : Pt)) (ptF R ys T δ c) (List.range' lo (hi + 1 - lo)) (by
        intro k hk
        rw [List.mem_range'_1] at hk
        obtain ⟨-, -, q, -⟩ := e2
        have hk2 : k < 2 * w + 1 := by omega
        have hg : pyGet (gridTF R T δ) k = .ok (gridF R (R.fl (1 / 2 - tWidthF R T δ)) (R.fl (1 / 2 + tWidthF R T δ)) (2 * w) k) := by
          unfold gridTF linspaceF pyGet
          rw [show (2 * iWidthF R T δ).toNat = 2 * w by omega, List.getElem?_eq_getElem (by simpa using hk2)]
          simp only [List.getElem_map, List.getElem_range]
        have ek : c.i - w + (k : ℤ) = ((c.i.toNat - w + k : ℕ) : ℤ) := by omega
        have hl : c.i.toNat - w + k < ys.length := by omega
        have hy : pyGetZ ys (c.i - w + (k : ℤ)) = .ok (ys.getD (c.i.toNat - w + k) 0) := by
          unfold pyGetZ pyGet
          rw [ek, if_pos (by omega), Int.toNat_natCast, List.getElem?_eq_getElem hl, List.getD_eq_getElem _ _ hl]
        rw [hg, hy]
        unfold ptF timeF
        rw [hww]
        rfl)
    simp only [bind, Except.bind, pure, Except.pure] at e
    rw [e]

/-! ### All symbols -/

theorem filterMap_window (R : Rounding) (ys : List ℚ) (T δ : ℚ) (hT : 0 < T) (hδ : 0 < δ) (c : Center) (hc : InsideF R T δ ys.length c)
    (F : Pt → Option ℚ) : (windowF R ys T δ c).filterMap F = (List.range (2 * (iWidthF R T δ).toNat + 1)).filterMap fun k => F (ptF R ys T δ c k) := by
  rw [windowF_time R ys T δ hT hδ c hc, List.filterMap_map]
  rfl

theorem filterMap_part (g : ℕ → Pt) (F : Pt → Option ℚ) (n lo hi : ℕ) (h : hi < n) :
    ((List.range' lo (hi + 1 - lo)).map g).filterMap F = (List.range n).filterMap fun k => if lo ≤ k ∧ k ≤ hi then F (g k) else none := by
  rw [← filter_range n lo hi h, List.filterMap_map, List.filterMap_filter]
  apply List.filterMap_congr
  intro k _
  by_cases hk : lo ≤ k ∧ k ≤ hi <;> simp [hk, Function.comp]

/-- The samples of the fallback. -/
theorem sampledF (R : Rounding) (ys : List ℚ) (syms : List (Center × ℤ)) (T δ yZero yUa : ℚ) (yCross : Option ℚ) (height lower upper : ℚ) (hT : 0 < T)
    (hδ : 0 < δ) (hc : ∀ s ∈ syms, InsideF R T δ ys.length s.1) :
    let h := hWinF R yZero yUa yCross height lower upper
    let pt := fun s : Center × ℤ => ptF R (normaliseF R ys yZero yUa) T δ s.1
    ∃ (o : HOut) (lo hi : Center × ℤ → ℕ),
      sampleHorizontalF R ys (syms.map Prod.fst) (syms.map Prod.snd) δ T yZero yUa yCross height lower upper = .ok o ∧
      (∀ s ∈ syms, EdgeAt (fun k => (pt s k).2) (iWidthF R T δ).toNat s.2 (lo s) (hi s)) ∧
      (∀ q ∈ [((·.riseLower), (·.fallLower), lower), ((·.riseUpper), (·.fallUpper), upper), ((·.riseHalf), (·.fallHalf), (1 / 2 : ℚ))],
        (q : (HOut → List ℚ) × (HOut → List ℚ) × ℚ).1 o = readAll (iWidthF R T δ) (syms.filter fun s => s.2 == 1)
          (fun s k => if lo s ≤ k ∧ k ≤ hi s then levelF R q.2.2 height (pt s k) else none) ∧
        q.2.1 o = readAll (iWidthF R T δ) (syms.filter fun s => s.2 != 1 && s.2 != 0)
          (fun s k => if lo s ≤ k ∧ k ≤ hi s then levelF R q.2.2 height (pt s k) else none)) ∧
      o.crossLeft = readAll (iWidthF R T δ) syms (fun s k => leftF R h (pt s k)) ∧
      o.crossRight = readAll (iWidthF R T δ) syms (fun s k => rightF R h (pt s k)) := by
  intro h pt
  have hn : ∀ s ∈ syms, InsideF R T δ (normaliseF R ys yZero yUa).length s.1 := by
    intro s hs
    have := hc s hs
    unfold normaliseF
    rwa [List.length_map]
  have hex : ∀ s : Center × ℤ, ∃ lohi : ℕ × ℕ, s ∈ syms → EdgeAt (fun k => (pt s k).2) (iWidthF R T δ).toNat s.2 lohi.1 lohi.2 ∧
      ∀ v, hStepF R (normaliseF R ys yZero yUa) T δ h v s =
        .ok (symOutF R h (windowF R (normaliseF R ys yZero yUa) T δ s.1) ((List.range' lohi.1 (lohi.2 + 1 - lohi.1)).map (pt s)) s.2 v) := by
    intro s
    by_cases hs : s ∈ syms
    · obtain ⟨lo, hi, h1, h2⟩ := hStepF_ok R (normaliseF R ys yZero yUa) T δ hT hδ h s.1 (hn s hs) s.2
      exact ⟨(lo, hi), fun _ => ⟨h1, h2⟩⟩
    · exact ⟨(0, 0), fun h => absurd h hs⟩
  choose lohi hl using hex
  have e := foldlM_ok (hStepF R (normaliseF R ys yZero yUa) T δ h)
    (fun v s => symOutF R h (windowF R (normaliseF R ys yZero yUa) T δ s.1)
      ((List.range' (lohi s).1 ((lohi s).2 + 1 - (lohi s).1)).map (pt s)) s.2 v) syms (fun s hs v => (hl s hs).2 v) HOut.empty
  have hzip : (syms.map Prod.fst).zip (syms.map Prod.snd) = syms := by
    rw [List.zip_map]
    clear e hl hn hc
    induction syms with
    | nil => rfl
    | cons s l ih => simp only [List.zip_cons_cons, List.map_cons, ih, Prod.map_apply]
  obtain ⟨f1, f2, f3, f4, f5, f6, f7, f8⟩ := symFoldF R h
    (fun s : Center × ℤ => windowF R (normaliseF R ys yZero yUa) T δ s.1)
    (fun s => (List.range' (lohi s).1 ((lohi s).2 + 1 - (lohi s).1)).map (pt s)) (fun s => s.2) syms HOut.empty
  have hedge : ∀ (l : List (Center × ℤ)) (F : Pt → Option ℚ), (∀ s ∈ l, s ∈ syms) →
      l.flatMap (fun s => ((List.range' (lohi s).1 ((lohi s).2 + 1 - (lohi s).1)).map (pt s)).filterMap F) =
        readAll (iWidthF R T δ) l (fun s k => if (lohi s).1 ≤ k ∧ k ≤ (lohi s).2 then F (pt s k) else none) := by
    intro l F hsub
    unfold readAll
    apply List.flatMap_congr
    intro s hs
    obtain ⟨⟨-, -, q, -⟩, -⟩ := hl s (hsub s hs)
    exact filterMap_part (pt s) F _ _ _ (by omega)
  have hcross : ∀ F : Pt → Option ℚ, syms.flatMap (fun s => (windowF R (normaliseF R ys yZero yUa) T δ s.1).filterMap F) =
      readAll (iWidthF R T δ) syms (fun s k => F (pt s k)) := by
    intro F
    unfold readAll
    apply List.flatMap_congr
    intro s hs
    exact filterMap_window R _ T δ hT hδ s.1 (hn s hs) F
  refine ⟨syms.foldl (fun v s => symOutF R h (windowF R (normaliseF R ys yZero yUa) T δ s.1)
      ((List.range' (lohi s).1 ((lohi s).2 + 1 - (lohi s).1)).map (pt s)) s.2 v) HOut.empty, fun s => (lohi s).1, fun s => (lohi s).2, ?_, fun s hs => (hl s hs).1, ?_, ?_, ?_⟩
  · unfold sampleHorizontalF
    rw [hzip]
    exact e
  · have hsub1 : ∀ s ∈ syms.filter (fun s => s.2 == 1), s ∈ syms := fun s hs => List.mem_of_mem_filter hs
    have hsub2 : ∀ s ∈ syms.filter (fun s => s.2 != 1 && s.2 != 0), s ∈ syms := fun s hs => List.mem_of_mem_filter hs
    simp only [List.mem_cons, List.not_mem_nil, or_false, forall_eq_or_imp, forall_eq]
    refine ⟨⟨?_, ?_⟩, ⟨?_, ?_⟩, ?_, ?_⟩
    · exact f1.trans (hedge _ _ hsub1)
    · exact f4.trans (hedge _ _ hsub2)
    · exact f2.trans (hedge _ _ hsub1)
    · exact f5.trans (hedge _ _ hsub2)
    · exact f3.trans (hedge _ _ hsub1)
    · exact f6.trans (hedge _ _ hsub2)
  · exact f7.trans (hcross _)
  · exact f8.trans (hcross _)

/-! ### C111 -/

/-- The value and the time of a sample in floats. -/
theorem pt_near (R : Rounding) (ys : List ℚ) (T δ yZero yUa V : ℚ) (hT : 0 < T) (hδ : 0 < δ) (c : Center) (hc : InsideF R T δ ys.length c)
    (hct : 0 ≤ -c.t ∧ -c.t ≤ (1 + R.u) * δ) (hV : ∀ v ∈ ys, |(v - yZero) / yUa| ≤ V) (k : ℕ) (hk : k ≤ 2 * (iWidthF R T δ).toNat) :
    |(ptF R (normaliseF R ys yZero yUa) T δ c k).1 - timeOf T δ (iWidthF R T δ) c k| ≤ timeErr R.u T δ (iWidthF R T δ) ∧
    |(ptF R (normaliseF R ys yZero yUa) T δ c k).2 - valueOf ys yZero yUa (iWidthF R T δ) c k| ≤ 3 * R.u * |valueOf ys yZero yUa (iWidthF R T δ) c k| ∧
    |valueOf ys yZero yUa (iWidthF R T δ) c k| ≤ V := by
  have hw := iWidthF_ge R T δ hT hδ
  obtain ⟨i1, i2⟩ := hc
  have hj : c.i.toNat - (iWidthF R T δ).toNat + k < ys.length := by omega
  have hz := (C82_normalise R ys yZero yUa).2 (c.i.toNat - (iWidthF R T δ).toNat + k)
  have hnorm : (normalise ys yZero yUa).getD (c.i.toNat - (iWidthF R T δ).toNat + k) 0 = valueOf ys yZero yUa (iWidthF R T δ) c k := by
    unfold valueOf normalise
    rw [List.getD_eq_getElem _ _ (by simpa using hj), List.getD_eq_getElem _ _ hj, List.getElem_map]
  rw [hnorm] at hz
  refine ⟨?_, hz, ?_⟩
  · have := time_near R T δ hT hδ c.t hct k hk
    unfold timeOf timeErr
    rw [add_div, ← add_assoc]
    exact this
  · unfold valueOf
    rw [List.getD_eq_getElem _ _ hj]
    exact hV _ (List.getElem_mem hj)

/-- **C111.** In rounded arithmetic, `sample_horizontal` does not fail for symbols in the record. -/
theorem C111_total (R : Rounding) (ys : List ℚ) (syms : List (Center × ℤ)) (T δ yZero yUa : ℚ) (yCross : Option ℚ) (height lower upper : ℚ) (hT : 0 < T)
    (hδ : 0 < δ) (hc : ∀ s ∈ syms, InsideF R T δ ys.length s.1) :
    ∃ o, sampleHorizontalF R ys (syms.map Prod.fst) (syms.map Prod.snd) δ T yZero yUa yCross height lower upper = .ok o := by
  obtain ⟨o, -, -, h, -⟩ := sampledF R ys syms T δ yZero yUa yCross height lower upper hT hδ hc
  exact ⟨o, h⟩

/-- **C111 (crossings).** In rounded arithmetic: the crossing times are those of the samples at the crossing level in the left and in the right half, of
each sample of each symbol at most one; a sample is missed or added only within the rounding errors of the level, of the height or of the ends of the halves.
Without a crossing level there are none. -/
theorem C111_crossings (R : Rounding) (ys : List ℚ) (syms : List (Center × ℤ)) (T δ yZero yUa V : ℚ) (yCross : Option ℚ) (height lower upper : ℚ)
    (hT : 0 < T) (hδ : 0 < δ) (hc : ∀ s ∈ syms, InsideF R T δ ys.length s.1 ∧ 0 ≤ -s.1.t ∧ -s.1.t ≤ (1 + R.u) * δ)
    (hV : ∀ v ∈ ys, |(v - yZero) / yUa| ≤ V) (hh : 0 ≤ height) (hVc : ∀ y, yCross = some y → |(y - yZero) / yUa| + height ≤ V) (o : HOut)
    (ho : sampleHorizontalF R ys (syms.map Prod.fst) (syms.map Prod.snd) δ T yZero yUa yCross height lower upper = .ok o) :
    (yCross = none → o.crossLeft = [] ∧ o.crossRight = []) ∧
    ∀ y, yCross = some y → ∃ f g : Center × ℤ → ℕ → Option ℚ,
      o.crossLeft = readAll (iWidthF R T δ) syms f ∧ o.crossRight = readAll (iWidthF R T δ) syms g ∧
      ∀ s ∈ syms, ∀ k ≤ 2 * (iWidthF R T δ).toNat,
        let t := timeOf T δ (iWidthF R T δ) s.1 k
        let e := timeErr R.u T δ (iWidthF R T δ)
        let reads := Reads R.u T δ (iWidthF R T δ) s.1 (valueOf ys yZero yUa (iWidthF R T δ) s.1) V ((y - yZero) / yUa) height k
        reads (-1 / 2 + e ≤ t ∧ t ≤ 1 / 2 - e) (fun t' => -1 / 2 ≤ t' ∧ t' ≤ 1 / 2) (f s k) ∧
        reads (1 / 2 + e < t ∧ t ≤ 3 / 2 - e) (fun t' => 1 / 2 < t' ∧ t' ≤ 3 / 2) (g s k) := by
  obtain ⟨o', lo, hi, h1, -, -, h2, h3⟩ := sampledF R ys syms T δ yZero yUa yCross height lower upper hT hδ fun s hs => (hc s hs).1
  rw [h1] at ho
  obtain rfl := Except.ok.inj ho
  constructor
  · rintro rfl
    rw [h2, h3]
    unfold readAll
    simp only [List.flatMap_eq_nil_iff, List.filterMap_eq_nil_iff]
    constructor <;> intro s _ k _ <;> simp [leftF, rightF, atCrossF, hWinF]
  · rintro y rfl
    beta_reduce at h2 h3
    refine ⟨_, _, h2, h3, ?_⟩
    intro s hs k hk
    obtain ⟨n1, n2, n3⟩ := pt_near R ys T δ yZero yUa V hT hδ s.1 (hc s hs).1 (hc s hs).2 hV k hk
    have hl : |R.fl (R.fl (y - yZero) / yUa) - (y - yZero) / yUa| ≤ 3 * R.u * |(y - yZero) / yUa| := by
      have := (C82_normalise R [y] yZero yUa).2 0
      simpa [normaliseF, normalise] using this
    obtain ⟨m1, m2⟩ := inHeight_near R _ _ height _ _ V hl n2 n3 hh (hVc y rfl)
    have hat : ∀ v, atCrossF R (hWinF R yZero yUa (some y) height lower upper) v = inHeight R (R.fl (R.fl (y - yZero) / yUa)) height v := fun v => rfl
    generalize ptF R (normaliseF R ys yZero yUa) T δ s.1 k = p at *
    have n1' := abs_le.1 n1
    refine ⟨⟨?_, ?_⟩, ⟨?_, ?_⟩⟩
    · intro t ht
      unfold leftF at ht
      split at ht
      · rename_i hp
        obtain rfl := Option.some.inj ht
        rw [hat] at hp
        exact ⟨n1, m1 hp.1, hp.2⟩
      · cases ht
    · intro hv ht
      unfold leftF
      rw [hat, if_pos ⟨m2 hv, by linarith [ht.1], by linarith [ht.2]⟩]
      simp
    · intro t ht
      unfold rightF at ht
      split at ht
      · rename_i hp
        obtain rfl := Option.some.inj ht
        rw [hat] at hp
        exact ⟨n1, m1 hp.1, hp.2⟩
      · cases ht
    · intro hv ht
      unfold rightF
      rw [hat, if_pos ⟨m2 hv, by linarith [ht.1], by linarith [ht.2]⟩]
      simp

theorem edge_of (z zF : ℕ → ℚ) (W : ℕ) (e : ℚ) (lo hi k : ℕ) (hz : ∀ i ≤ 2 * W, |zF i - z i| ≤ e / 2) (h1 : lo ≤ W) (h2 : (2 * W + 1) / 4 ≤ hi)
    (h3 : hi ≤ (2 * W + 1) / 4 + W) (h4 : ∀ i ≤ W, zF lo ≤ zF i) (h5 : ∀ i, (2 * W + 1) / 4 ≤ i → i ≤ (2 * W + 1) / 4 + W → zF i ≤ zF hi) :
    (lo ≤ k ∧ k ≤ hi → OnRise z W e k) ∧ (SurelyOnRise z W e k → lo ≤ k ∧ k ≤ hi) := by
  have hz' : ∀ i ≤ 2 * W, z i - e / 2 ≤ zF i ∧ zF i ≤ z i + e / 2 := by
    intro i hi
    have := abs_le.1 (hz i hi)
    constructor <;> linarith
  constructor
  · rintro ⟨k1, k2⟩
    refine ⟨⟨lo, k1, h1, fun i hi => ?_⟩, hi, k2, h2, h3, fun i i1 i2 => ?_⟩
    · have := h4 i hi
      linarith [(hz' lo (by omega)).1, (hz' i (by omega)).2]
    · have := h5 i i1 i2
      linarith [(hz' hi (by omega)).2, (hz' i (by omega)).1]
  · rintro ⟨⟨j, j1, j2, j3⟩, m, m1, m2, m3, m4⟩
    constructor
    · by_contra hk
      have := j3 lo (by omega) h1
      have := h4 j j2
      linarith [(hz' lo (by omega)).1, (hz' j (by omega)).2]
    · by_contra hk
      have := m4 hi h2 (by omega)
      have := h5 m m2 m3
      linarith [(hz' hi (by omega)).2, (hz' m (by omega)).1]

/-- **C111 (edges).** In rounded arithmetic: the times of the rising (falling) edges at the lower, the upper and the middle level are those of the samples of
symbols with a rising (falling) edge, from a lowest (highest) sample before the middle of the symbol to a highest (lowest) sample around the middle, that are
at the level; of each sample of each symbol at most one, with errors only within the rounding. -/
theorem C111_edges (R : Rounding) (ys : List ℚ) (syms : List (Center × ℤ)) (T δ yZero yUa V : ℚ) (yCross : Option ℚ) (height lower upper : ℚ)
    (hT : 0 < T) (hδ : 0 < δ) (hc : ∀ s ∈ syms, InsideF R T δ ys.length s.1 ∧ 0 ≤ -s.1.t ∧ -s.1.t ≤ (1 + R.u) * δ)
    (hV : ∀ v ∈ ys, |(v - yZero) / yUa| ≤ V) (hh : 0 ≤ height) (hVl : ∀ l ∈ [lower, upper, 1 / 2], |l| + height ≤ V) (o : HOut)
    (ho : sampleHorizontalF R ys (syms.map Prod.fst) (syms.map Prod.snd) δ T yZero yUa yCross height lower upper = .ok o)
    (rise fall : HOut → List ℚ) (level : ℚ)
    (hq : (rise, fall, level) ∈ [((·.riseLower), (·.fallLower), lower), ((·.riseUpper), (·.fallUpper), upper), ((·.riseHalf), (·.fallHalf), 1 / 2)]) :
    ∃ f : Center × ℤ → ℕ → Option ℚ,
      rise o = readAll (iWidthF R T δ) (syms.filter fun s => s.2 == 1) f ∧
      fall o = readAll (iWidthF R T δ) (syms.filter fun s => s.2 != 1 && s.2 != 0) f ∧
      ∀ s ∈ syms, ∀ k ≤ 2 * (iWidthF R T δ).toNat,
        let W := (iWidthF R T δ).toNat
        let z := valueOf ys yZero yUa (iWidthF R T δ) s.1
        let reads := Reads R.u T δ (iWidthF R T δ) s.1 z V level height k
        (s.2 = 1 → reads (SurelyOnRise z W (10 * R.u * V) k) (fun _ => OnRise z W (10 * R.u * V) k) (f s k)) ∧
        (s.2 ≠ 1 → reads (SurelyOnRise (fun i => -z i) W (10 * R.u * V) k) (fun _ => OnRise (fun i => -z i) W (10 * R.u * V) k) (f s k)) := by
  obtain ⟨o', lo, hi, h1, he, h2, -, -⟩ := sampledF R ys syms T δ yZero yUa yCross height lower upper hT hδ fun s hs => (hc s hs).1
  rw [h1] at ho
  obtain rfl := Except.ok.inj ho
  obtain ⟨h3, h4⟩ := h2 _ hq
  have hlV : |level| + height ≤ V := by
    simp only [List.mem_cons, List.not_mem_nil, or_false, forall_eq_or_imp, forall_eq] at hVl
    simp only [List.mem_cons, Prod.mk.injEq, List.not_mem_nil, or_false] at hq
    rcases hq with ⟨-, -, rfl⟩ | ⟨-, -, rfl⟩ | ⟨-, -, rfl⟩
    · exact hVl.1
    · exact hVl.2.1
    · exact hVl.2.2
  refine ⟨_, h3, h4, ?_⟩
  intro s hs k hk
  have near := fun i hi => pt_near R ys T δ yZero yUa V hT hδ s.1 (hc s hs).1 (hc s hs).2 hV i hi
  obtain ⟨e1, e2, e3, e4, e5⟩ := he s hs
  simp only at e4 e5 ⊢
  have hun := R.u_nonneg
  have hzz : ∀ i ≤ 2 * (iWidthF R T δ).toNat, |(ptF R (normaliseF R ys yZero yUa) T δ s.1 i).2 - valueOf ys yZero yUa (iWidthF R T δ) s.1 i| ≤
      10 * R.u * V / 2 := by
    intro i hi
    obtain ⟨-, q1, q2⟩ := near i hi
    have := mul_le_mul_of_nonneg_left q2 hun
    have := mul_nonneg hun ((abs_nonneg _).trans q2)
    linarith
  obtain ⟨n1, n2, n3⟩ := near k hk
  obtain ⟨m1, m2⟩ := inHeight_near R level level height _ _ V (by rw [sub_self, abs_zero]; positivity) n2 n3 hh hlV
  have hread : ∀ A B : Prop, (lo s ≤ k ∧ k ≤ hi s → B) → (A → lo s ≤ k ∧ k ≤ hi s) →
      Reads R.u T δ (iWidthF R T δ) s.1 (valueOf ys yZero yUa (iWidthF R T δ) s.1) V level height k A (fun _ => B)
        (if lo s ≤ k ∧ k ≤ hi s then levelF R level height (ptF R (normaliseF R ys yZero yUa) T δ s.1 k) else none) := by
    intro A B hB hA
    constructor
    · intro t ht
      split at ht
      · rename_i hk2
        unfold levelF at ht
        split at ht
        · rename_i hp
          obtain rfl := Option.some.inj ht
          exact ⟨n1, m1 hp, hB hk2⟩
        · cases ht
      · cases ht
    · intro hv hcert
      rw [if_pos (hA hcert)]
      unfold levelF
      rw [if_pos (m2 hv)]
      simp
  constructor
  · intro hd
    obtain ⟨g1, g2⟩ := edge_of (valueOf ys yZero yUa (iWidthF R T δ) s.1) _ _ (10 * R.u * V) (lo s) (hi s) k hzz e1 e2 e3 (e4 hd).1 (e4 hd).2
    exact hread _ _ g1 g2
  · intro hd
    obtain ⟨g1, g2⟩ := edge_of (fun i => -valueOf ys yZero yUa (iWidthF R T δ) s.1 i)
      (fun i => -(ptF R (normaliseF R ys yZero yUa) T δ s.1 i).2) _ (10 * R.u * V) (lo s) (hi s) k
      (fun i hi => by rw [← neg_sub', abs_neg]; exact hzz i hi) e1 e2 e3
      (fun i hi => neg_le_neg ((e5 hd).1 i hi)) (fun i i1 i2 => neg_le_neg ((e5 hd).2 i i1 i2))
    exact hread _ _ g1 g2

/-- The samples of the compiled version. -/
theorem sampledCF (R : Rounding) (mem : ℤ → ℚ) (ys : List ℚ) (syms : List (Center × ℤ)) (T δ yZero yUa : ℚ) (yCross : Option ℚ)
    (height lower upper : ℚ) (hT : 0 < T) (hδ : 0 < δ) (hc : ∀ s ∈ syms, InsideF R T δ ys.length s.1) :
    let h := hWinF R yZero yUa yCross height lower upper
    let pt := fun s : Center × ℤ => ptF R (normaliseF R ys yZero yUa) T δ s.1
    let o := sampleHorizontalCF R mem ys (syms.map Prod.fst) (syms.map Prod.snd) δ T yZero yUa yCross height lower upper
    (∀ q ∈ [((·.riseLower), (·.fallLower), lower), ((·.riseUpper), (·.fallUpper), upper), ((·.riseHalf), (·.fallHalf), (1 / 2 : ℚ))],
      (q : (HOut → List ℚ) × (HOut → List ℚ) × ℚ).1 o = readAll (iWidthF R T δ) (syms.filter fun s => s.2 == 1)
        (fun s k => if (pt s k).1 ≤ 1 / 2 then levelF R q.2.2 height (pt s k) else none) ∧
      q.2.1 o = readAll (iWidthF R T δ) (syms.filter fun s => s.2 != 1 && s.2 != 0)
        (fun s k => if (pt s k).1 ≤ 1 / 2 then levelF R q.2.2 height (pt s k) else none)) ∧
    o.crossLeft = readAll (iWidthF R T δ) syms (fun s k => leftF R h (pt s k)) ∧
    o.crossRight = readAll (iWidthF R T δ) syms (fun s k => rightF R h (pt s k)) := by
  intro h pt o
  have hn : ∀ s ∈ syms, InsideF R T δ (normaliseF R ys yZero yUa).length s.1 := by
    intro s hs
    have := hc s hs
    unfold normaliseF
    rwa [List.length_map]
  have hstep : ∀ (d : ℤ) (l : List Pt) (v : HOut), l.foldl (fun v p =>
      let v := crossStepF R h v p
      if d = 0 ∨ p.1 > 1 / 2 then v else hEdgeStepF R h d v p) v =
        symOutF R h l (l.filter fun p => decide (p.1 ≤ 1 / 2)) d v := by
    intro d l
    unfold symOutF
    induction l with
    | nil => intro v; simp
    | cons p l ih =>
      intro v
      rw [List.foldl_cons, ih]
      simp only [List.foldl_cons, List.filter_cons]
      by_cases hd : d = 0
      · simp [hd]
      · by_cases hp : p.1 ≤ 1 / 2
        · simp only [hd, false_or, if_false, gt_iff_lt, not_lt.2 hp, hp, decide_true, if_true, List.foldl_cons, crossFoldF, edgeFoldF]
          have hcr : ∀ w : HOut, hEdgeStepF R h d w p = [p].foldl (hEdgeStepF R h d) w := fun w => rfl
          rw [hcr, hcr, edgeFoldF, edgeFoldF]
          by_cases h1 : d = 1
          · simp only [if_pos h1]
          · simp only [if_neg h1]
        · simp only [hd, false_or, if_false, gt_iff_lt, not_le.1 hp, if_true, hp, decide_false, Bool.false_eq_true]
  have hf : o = syms.foldl (fun v s => symOutF R h (windowF R (normaliseF R ys yZero yUa) T δ s.1)
      ((windowF R (normaliseF R ys yZero yUa) T δ s.1).filter fun p => decide (p.1 ≤ 1 / 2)) s.2 v) HOut.empty := by
    have hzip : (syms.map Prod.fst).zip (syms.map Prod.snd) = syms := by
      rw [List.zip_map]
      clear hn hc o
      induction syms with
      | nil => rfl
      | cons s l ih => simp only [List.zip_cons_cons, List.map_cons, ih, Prod.map_apply]
    show sampleHorizontalCF R mem ys _ _ δ T yZero yUa yCross height lower upper = _
    unfold sampleHorizontalCF
    rw [hzip]
    apply List.foldl_ext
    intro v s hs
    unfold hStepCF
    rw [(pointsF_eq R _ T δ hT hδ s.1 (hn s hs)).2 mem]
    exact hstep s.2 _ v
  obtain ⟨f1, f2, f3, f4, f5, f6, f7, f8⟩ := symFoldF R h
    (fun s : Center × ℤ => windowF R (normaliseF R ys yZero yUa) T δ s.1)
    (fun s => (windowF R (normaliseF R ys yZero yUa) T δ s.1).filter fun p => decide (p.1 ≤ 1 / 2)) (fun s => s.2) syms HOut.empty
  rw [← hf] at f1 f2 f3 f4 f5 f6 f7 f8
  have hcross : ∀ (l : List (Center × ℤ)) (F : Pt → Option ℚ), (∀ s ∈ l, s ∈ syms) →
      l.flatMap (fun s => (windowF R (normaliseF R ys yZero yUa) T δ s.1).filterMap F) = readAll (iWidthF R T δ) l (fun s k => F (pt s k)) := by
    intro l F hsub
    unfold readAll
    apply List.flatMap_congr
    intro s hs
    exact filterMap_window R _ T δ hT hδ s.1 (hn s (hsub s hs)) F
  have hedge : ∀ (l : List (Center × ℤ)) (F : Pt → Option ℚ), (∀ s ∈ l, s ∈ syms) →
      l.flatMap (fun s => ((windowF R (normaliseF R ys yZero yUa) T δ s.1).filter fun p => decide (p.1 ≤ 1 / 2)).filterMap F) =
        readAll (iWidthF R T δ) l (fun s k => if (pt s k).1 ≤ 1 / 2 then F (pt s k) else none) := by
    intro l F hsub
    rw [← hcross l (fun p => if p.1 ≤ 1 / 2 then F p else none) hsub]
    apply List.flatMap_congr
    intro s _
    rw [List.filterMap_filter]
    apply List.filterMap_congr
    intro p _
    by_cases hp : p.1 ≤ 1 / 2 <;> simp
  have hsub1 : ∀ s ∈ syms.filter (fun s => s.2 == 1), s ∈ syms := fun s hs => List.mem_of_mem_filter hs
  have hsub2 : ∀ s ∈ syms.filter (fun s => s.2 != 1 && s.2 != 0), s ∈ syms := fun s hs => List.mem_of_mem_filter hs
  refine ⟨?_, f7.trans (hcross _ _ fun _ h => h), f8.trans (hcross _ _ fun _ h => h)⟩
  simp only [List.mem_cons, List.not_mem_nil, or_false, forall_eq_or_imp, forall_eq]
  refine ⟨⟨?_, ?_⟩, ⟨?_, ?_⟩, ?_, ?_⟩
  · exact f1.trans (hedge _ _ hsub1)
  · exact f4.trans (hedge _ _ hsub2)
  · exact f2.trans (hedge _ _ hsub1)
  · exact f5.trans (hedge _ _ hsub2)
  · exact f3.trans (hedge _ _ hsub1)
  · exact f6.trans (hedge _ _ hsub2)

/-- **C111 (compiled).** The compiled version gives the same crossing times in rounded arithmetic, and for the edges the times of the samples at the level that
are not after the middle of the symbol. -/
theorem C111_compiled (R : Rounding) (mem : ℤ → ℚ) (ys : List ℚ) (syms : List (Center × ℤ)) (T δ yZero yUa V : ℚ) (yCross : Option ℚ)
    (height lower upper : ℚ) (hT : 0 < T) (hδ : 0 < δ) (hc : ∀ s ∈ syms, InsideF R T δ ys.length s.1 ∧ 0 ≤ -s.1.t ∧ -s.1.t ≤ (1 + R.u) * δ)
    (hV : ∀ v ∈ ys, |(v - yZero) / yUa| ≤ V) (hh : 0 ≤ height) (hVl : ∀ l ∈ [lower, upper, 1 / 2], |l| + height ≤ V) :
    let o := sampleHorizontalCF R mem ys (syms.map Prod.fst) (syms.map Prod.snd) δ T yZero yUa yCross height lower upper
    (∀ o', sampleHorizontalF R ys (syms.map Prod.fst) (syms.map Prod.snd) δ T yZero yUa yCross height lower upper = .ok o' →
      o.crossLeft = o'.crossLeft ∧ o.crossRight = o'.crossRight) ∧
    ∀ q ∈ [((·.riseLower), (·.fallLower), lower), ((·.riseUpper), (·.fallUpper), upper), ((·.riseHalf), (·.fallHalf), 1 / 2)],
      ∃ f : Center × ℤ → ℕ → Option ℚ,
        (q : (HOut → List ℚ) × (HOut → List ℚ) × ℚ).1 o = readAll (iWidthF R T δ) (syms.filter fun s => s.2 == 1) f ∧
        q.2.1 o = readAll (iWidthF R T δ) (syms.filter fun s => s.2 != 1 && s.2 != 0) f ∧
        ∀ s ∈ syms, ∀ k ≤ 2 * (iWidthF R T δ).toNat,
          Reads R.u T δ (iWidthF R T δ) s.1 (valueOf ys yZero yUa (iWidthF R T δ) s.1) V q.2.2 height k
            (timeOf T δ (iWidthF R T δ) s.1 k ≤ 1 / 2 - timeErr R.u T δ (iWidthF R T δ)) (fun t => t ≤ 1 / 2) (f s k) := by
  intro o
  obtain ⟨h1, h2, h3⟩ := sampledCF R mem ys syms T δ yZero yUa yCross height lower upper hT hδ fun s hs => (hc s hs).1
  constructor
  · intro o' ho
    obtain ⟨o'', lo, hi, g1, -, -, g2, g3⟩ := sampledF R ys syms T δ yZero yUa yCross height lower upper hT hδ fun s hs => (hc s hs).1
    rw [g1] at ho
    obtain rfl := Except.ok.inj ho
    exact ⟨h2.trans g2.symm, h3.trans g3.symm⟩
  · intro q hq
    obtain ⟨h4, h5⟩ := h1 q hq
    beta_reduce at h4 h5
    refine ⟨_, h4, h5, ?_⟩
    have hlV : |q.2.2| + height ≤ V := by
      simp only [List.mem_cons, List.not_mem_nil, or_false, forall_eq_or_imp, forall_eq] at hVl
      simp only [List.mem_cons, List.not_mem_nil, or_false] at hq
      rcases hq with rfl | rfl | rfl
      · exact hVl.1
      · exact hVl.2.1
      · exact hVl.2.2
    intro s hs k hk
    obtain ⟨n1, n2, n3⟩ := pt_near R ys T δ yZero yUa V hT hδ s.1 (hc s hs).1 (hc s hs).2 hV k hk
    have hun := R.u_nonneg
    obtain ⟨m1, m2⟩ := inHeight_near R q.2.2 q.2.2 height _ _ V (by rw [sub_self, abs_zero]; positivity) n2 n3 hh hlV
    generalize ptF R (normaliseF R ys yZero yUa) T δ s.1 k = p at *
    have n1' := abs_le.1 n1
    constructor
    · intro t ht
      split at ht
      · rename_i hk2
        unfold levelF at ht
        split at ht
        · rename_i hp
          obtain rfl := Option.some.inj ht
          exact ⟨n1, m1 hp, hk2⟩
        · cases ht
      · cases ht
    · intro hv hcert
      rw [if_pos (by linarith)]
      unfold levelF
      rw [if_pos (m2 hv)]
      simp

/-- **C111 (no rounding).** With exact arithmetic the samples are those of C45. -/
theorem C111_exact (mem : ℤ → ℚ) (ys : List ℚ) (centers : List Center) (dirs : List ℤ) (T δ yZero yUa : ℚ) (yCross : Option ℚ) (height lower upper : ℚ) :
    sampleHorizontalF exact ys centers dirs δ T yZero yUa yCross height lower upper =
      sampleHorizontal ys centers dirs δ T yZero yUa yCross height lower upper ∧
    sampleHorizontalCF exact mem ys centers dirs δ T yZero yUa yCross height lower upper =
      sampleHorizontalC mem ys centers dirs δ T yZero yUa yCross height lower upper := by
  have hg : gridTF exact T δ = gridT T δ := by
    unfold gridTF gridT
    rw [linspaceF_exact]
    rfl
  have h1 : ∀ ys h, hStepF exact ys T δ h = hStep ys T δ h := by
    intro ys h
    funext v ci
    unfold hStepF hStep pointsF points
    rw [hg]
    rfl
  have h2 : ∀ ys h, hStepCF exact mem ys T δ h = hStepC mem ys T δ h := by
    intro ys h
    funext v ci
    unfold hStepCF hStepC pointsCF pointsC
    rw [hg]
    rfl
  unfold sampleHorizontalF sampleHorizontal sampleHorizontalCF sampleHorizontalC
  rw [h1, h2]
  exact ⟨rfl, rfl⟩

/-! ### The measures -/

theorem measured (R : Rounding) (mean dot : List ℚ → ℚ) (root : ℚ → ℚ) (d n : ℕ) (hm : IsMean R d n mean) (hd : IsDot R d n dot) (hr : IsRoot R root)
    (hu : (d + 1) * R.u ≤ 1 / 100) (T : ℚ) (ts : List ℚ) (hn : ts.length ≤ n) :
    Measured R d T ts (UVF.samples R mean dot root (ts.map fun t : ℚ => R.fl (t * T))) := by
  obtain ⟨h0, h1⟩ := C105_samples R mean dot root d n hm hd hr hu (ts.map fun t : ℚ => R.fl (t * T)) (by simpa using hn)
  refine ⟨ts.map fun t : ℚ => R.fl (t * T), ?_, ?_, ?_⟩
  · rw [List.forall₂_map_right_iff, List.forall₂_same]
    intro t _
    exact R.err _
  · rw [← h0]
    simp
  · intro v hv
    obtain ⟨e, a1, a2, a3, a4, a5, a6⟩ := h1 v hv
    exact ⟨e, a1, a2, a3, a4, a5, a6⟩

theorem difference (R : Rounding) (root : ℚ → ℚ) (hr : IsRoot R root) (a b : Option UVF) : Difference R a b (bothF (UVF.sub R root) a b) := by
  constructor
  · cases a <;> cases b <;> simp [bothF]
  · rintro x y z rfl rfl hz
    obtain rfl := Option.some.inj hz
    exact isDifference R root hr x y

theorem duration (R : Rounding) (root : ℚ → ℚ) (hr : IsRoot R root) (T : ℚ) (a b : Option UVF) :
    Duration R T a b (bothF (fun r f => UVF.addC R (UVF.sub R root r f) T) a b) := by
  constructor
  · cases a <;> cases b <;> simp [bothF]
  · rintro x y z rfl rfl hz
    obtain rfl := Option.some.inj hz
    obtain ⟨h1, h2, h3⟩ := isDifference R root hr x y
    refine ⟨?_, h2, h3⟩
    change |R.fl (R.fl (x.value - y.value) + T) - _| ≤ _
    have hun := R.u_nonneg
    obtain ⟨g1, g2⟩ := fl_err_le R (x.value - y.value) _ (le_refl _)
    generalize R.fl (x.value - y.value) = D at *
    have hb := abs_add_le D T
    obtain ⟨g3, -⟩ := fl_err_le R (D + T) (101 / 100 * |x.value - y.value| + |T|) (by linarith)
    generalize R.fl (D + T) = E at *
    have z1 := mul_nonneg hun (abs_nonneg (x.value - y.value))
    have z2 := mul_nonneg hun (abs_nonneg T)
    have g1 := abs_le.1 g1
    have g3 := abs_le.1 g3
    rw [abs_le]
    constructor <;> linarith [g1.1, g1.2, g3.1, g3.2]

theorem quotient (R : Rounding) (root : ℚ → ℚ) (hr : IsRoot R root) (a b : Option UVF) : Quotient R a b ((bothF (nvDivF R root) a b).getD NVF.nan) := by
  constructor
  · rintro (rfl | rfl)
    · rfl
    · cases a <;> rfl
  · rintro x y rfl rfl
    exact ⟨isRatio R _ _ _ _ (zero_err R _) (zero_err R _), isDeviation R root hr x y⟩

theorem fold_max (l : List ℚ) (x : ℚ) : l.foldl max x ∈ x :: l ∧ ∀ v ∈ x :: l, v ≤ l.foldl max x := by
  induction l generalizing x with
  | nil => simp
  | cons a l ih =>
    obtain ⟨h1, h2⟩ := ih (max x a)
    rw [List.foldl_cons]
    constructor
    · rcases List.mem_cons.1 h1 with h | h
      · rw [h]
        rcases max_choice x a with e | e <;> rw [e] <;> simp
      · simp [h]
    · intro v hv
      have := h2 (max x a) (by simp)
      rcases List.mem_cons.1 hv with rfl | hv
      · exact (le_max_left _ _).trans this
      rcases List.mem_cons.1 hv with rfl | hv
      · exact (le_max_right _ _).trans this
      · exact h2 v (by simp [hv])

theorem fold_min (l : List ℚ) (x : ℚ) : l.foldl min x ∈ x :: l ∧ ∀ v ∈ x :: l, l.foldl min x ≤ v := by
  induction l generalizing x with
  | nil => simp
  | cons a l ih =>
    obtain ⟨h1, h2⟩ := ih (min x a)
    rw [List.foldl_cons]
    constructor
    · rcases List.mem_cons.1 h1 with h | h
      · rw [h]
        rcases min_choice x a with e | e <;> rw [e] <;> simp
      · simp [h]
    · intro v hv
      have := h2 (min x a) (by simp)
      rcases List.mem_cons.1 hv with rfl | hv
      · exact this.trans (min_le_left _ _)
      rcases List.mem_cons.1 hv with rfl | hv
      · exact this.trans (min_le_right _ _)
      · exact h2 v (by simp [hv])

theorem ptpF_spec (R : Rounding) (x : List ℚ) : (ptpF R x = none ↔ x = []) ∧
    ∀ p, ptpF R x = some p → ∃ lo hi, lo ∈ x ∧ hi ∈ x ∧ (∀ v ∈ x, lo ≤ v ∧ v ≤ hi) ∧ Rounded R (hi - lo) p := by
  cases x with
  | nil => exact ⟨by simp [ptpF], by intro p hp; cases hp⟩
  | cons a l =>
    refine ⟨by simp [ptpF], ?_⟩
    intro p hp
    obtain rfl := Option.some.inj hp
    exact ⟨_, _, (fold_min l a).1, (fold_max l a).1, fun v hv => ⟨(fold_min l a).2 v hv, (fold_max l a).2 v hv⟩, R.err _⟩

theorem within_half (R : Rounding) (root : ℚ → ℚ) (hr : IsRoot R root) (a b : UVF) :
    0 ≤ (halfF R (UVF.sub R root b a)).stddev ∧ Within R 6 ((b.stddev ^ 2 + a.stddev ^ 2) / 4) ((halfF R (UVF.sub R root b a)).stddev ^ 2) := by
  obtain ⟨-, h2, h3⟩ := isDifference R root hr b a
  have e : (halfF R (UVF.sub R root b a)).stddev = R.fl ((UVF.sub R root b a).stddev / 2) := by
    unfold halfF
    rw [abs_of_pos (by norm_num : (0 : ℚ) < 2)]
  rw [e]
  generalize (UVF.sub R root b a).stddev = s at *
  refine ⟨(within_fl R (by linarith : 0 ≤ s / 2)).nonneg (by linarith), ?_⟩
  have h4 := within_fl_sq R (s / 2)
  have h5 := h3.div (n := 4) (by norm_num)
  rw [show s ^ 2 / 4 = (s / 2) ^ 2 by ring] at h5
  exact h5.trans h4

/-- **C111 (measures).** The horizontal measures in rounded arithmetic, whatever the samples are: starts and crossings are the averages of the times sampled,
durations are differences of them, ratios quotients, the deviations follow from the propagation law, all up to a few roundings; nan exactly if there are no
samples for it. -/
theorem C111_measures (R : Rounding) (mean dot : List ℚ → ℚ) (root : ℚ → ℚ) (d n : ℕ) (hm : IsMean R d n mean) (hd : IsDot R d n dot) (hr : IsRoot R root)
    (hu : (d + 1) * R.u ≤ 1 / 100) (T : ℚ) (o : List HOut)
    (hx : ∀ f ∈ [(HOut.riseLower ·), (HOut.riseUpper ·), (HOut.riseHalf ·), (HOut.fallLower ·), (HOut.fallUpper ·), (HOut.fallHalf ·),
      (HOut.crossLeft ·), (HOut.crossRight ·)], (o.flatMap f).length ≤ n) :
    Derived R d T o (hMeasuresF R mean dot root T o) := by
  simp only [List.mem_cons, List.not_mem_nil, or_false, forall_eq_or_imp, forall_eq] at hx
  obtain ⟨x1, x2, x3, x4, x5, x6, x7, x8⟩ := hx
  have hun := R.u_nonneg
  have M := fun (f : HOut → List ℚ) h => measured R mean dot root d n hm hd hr hu T (o.flatMap f) h
  constructor
  · exact M _ x7
  · exact M _ x6
  · exact M _ x3
  · exact M _ x1
  · exact M _ x5
  · refine ⟨_, M _ x8, difference R root hr _ _, ?_, ?_⟩
    · simp only [hMeasuresF]
      generalize UVF.samples R mean dot root ((o.flatMap (·.crossLeft)).map fun t : ℚ => R.fl (t * T)) = a
      generalize UVF.samples R mean dot root ((o.flatMap (·.crossRight)).map fun t : ℚ => R.fl (t * T)) = b
      cases a <;> cases b <;> simp [bothF]
    · intro a b w ha hb hw
      change UVF.samples R mean dot root ((o.flatMap (·.crossLeft)).map fun t : ℚ => R.fl (t * T)) = some a at ha
      change bothF (openingF R root) (UVF.samples R mean dot root ((o.flatMap (·.crossRight)).map fun t : ℚ => R.fl (t * T)))
        (UVF.samples R mean dot root ((o.flatMap (·.crossLeft)).map fun t : ℚ => R.fl (t * T))) = some w at hw
      rw [ha, hb] at hw
      obtain rfl := Option.some.inj hw
      exact ⟨opening_near R root a b, (isDifference R root hr _ _).2.1,
        (isDifference R root hr (UVF.subC R b (R.fl (3 * b.stddev))) (UVF.addC R a (R.fl (3 * a.stddev)))).2.2⟩
  · exact ⟨_, M _ x2, difference R root hr _ _⟩
  · exact ⟨_, M _ x4, difference R root hr _ _⟩
  · exact duration R root hr T _ _
  · exact duration R root hr T _ _
  · have hdcd : (hMeasuresF R mean dot root T o).dcd = bothF (fun a b => halfF R (UVF.sub R root a b)) (hMeasuresF R mean dot root T o).t1
        (hMeasuresF R mean dot root T o).t0 := rfl
    rw [hdcd]
    generalize (hMeasuresF R mean dot root T o).t0 = a
    generalize (hMeasuresF R mean dot root T o).t1 = b
    constructor
    · cases a <;> cases b <;> simp [bothF]
    · rintro a b v rfl rfl hv
      obtain rfl := Option.some.inj hv
      refine ⟨?_, within_half R root hr a b⟩
      change |R.fl (R.fl (b.value - a.value) / 2) - _| ≤ _
      obtain ⟨g1, g2⟩ := fl_err_le R (b.value - a.value) _ (le_refl _)
      generalize R.fl (b.value - a.value) = D at *
      obtain ⟨g3, -⟩ := fl_err_le R (D / 2) (101 / 100 * |b.value - a.value| / 2) (by rw [abs_div, abs_of_pos (by norm_num : (0 : ℚ) < 2)]; linarith)
      generalize R.fl (D / 2) = E at *
      have z1 := mul_nonneg hun (abs_nonneg (b.value - a.value))
      have g1 := abs_le.1 g1
      have g3 := abs_le.1 g3
      rw [abs_le]
      constructor <;> linarith [g1.1, g1.2, g3.1, g3.2]
  · have := quotient R root hr (some ⟨1, 0⟩) (hMeasuresF R mean dot root T o).tSym
    have e : (hMeasuresF R mean dot root T o).fSym = (bothF (nvDivF R root) (some ⟨1, 0⟩) (hMeasuresF R mean dot root T o).tSym).getD NVF.nan := by
      change ((hMeasuresF R mean dot root T o).tSym.map fun a => nvDivF R root ⟨1, 0⟩ a).getD NVF.nan = _
      cases (hMeasuresF R mean dot root T o).tSym <;> rfl
    rw [e]
    exact this
  · exact quotient R root hr _ _
  · exact quotient R root hr _ _
  · obtain ⟨h1, h2⟩ := ptpF_spec R ((o.flatMap (·.crossLeft)).map fun t : ℚ => R.fl (t * T))
    constructor
    · obtain ⟨-, -, h3, -⟩ := M (·.crossLeft) x7
      change ptpF R _ = none ↔ UVF.samples R mean dot root _ = none
      rw [h1, h3]
      simp
    · intro p hp
      obtain ⟨lo, hi, k1, k2, k3, k4⟩ := h2 p hp
      refine ⟨_, lo, hi, ?_, k1, k2, k3, k4⟩
      rw [List.forall₂_map_right_iff, List.forall₂_same]
      intro t _
      exact R.err _
  · rfl

/-- What is reported of times within `e` of `c`. -/
theorem time_level (R : Rounding) (mean dot : List ℚ → ℚ) (root : ℚ → ℚ) (d n : ℕ) (hm : IsMean R d n mean) (hd : IsDot R d n dot) (hr : IsRoot R root)
    (hu : (d + 1) * R.u ≤ 1 / 10 ^ 5) (T c e : ℚ) (hT : 0 < T) (ts : List ℚ) (hx : ts.length ≤ n) (hX : ∀ t ∈ ts, |t| ≤ 3 / 2)
    (he : ∀ t ∈ ts, |t * T - c| ≤ e) :
    (∀ v ∈ ts.map fun t : ℚ => R.fl (t * T), |v - c| ≤ e + 3 / 2 * (R.u * T)) ∧
    NearLevel c e (6 * ((d + 1) * R.u) * T) (UVF.samples R mean dot root (ts.map fun t : ℚ => R.fl (t * T))) := by
  have hun := R.u_nonneg
  have hsmp : ∀ v ∈ ts.map fun t : ℚ => R.fl (t * T), |v - c| ≤ e + 3 / 2 * (R.u * T) ∧ |v| ≤ 1515 / 1000 * T := by
    intro v hv
    obtain ⟨t, ht, rfl⟩ := List.mem_map.1 hv
    have h1 : |t * T| ≤ 3 / 2 * T := by
      rw [abs_mul, abs_of_pos hT]
      exact mul_le_mul_of_nonneg_right (hX t ht) hT.le
    obtain ⟨h2, h3⟩ := fl_err_le R (t * T) _ h1
    refine ⟨?_, by linarith⟩
    have h4 := abs_le.1 h2
    have h5 := abs_le.1 (he t ht)
    rw [abs_le]
    constructor <;> linarith [h4.1, h4.2, h5.1, h5.2]
  refine ⟨fun v hv => (hsmp v hv).1, ?_⟩
  have h := (level R mean dot root d n hm hd hr hu c (e + 3 / 2 * (R.u * T)) (1515 / 1000 * T) _ (by simpa using hx) (fun v hv => (hsmp v hv).2)
    fun v hv => (hsmp v hv).1).1
  intro v hv
  obtain ⟨h1, h2, h3⟩ := h v hv
  have z1 : R.u * T ≤ (d + 1) * R.u * T := by
    have : (0 : ℚ) ≤ d * R.u * T := by positivity
    linarith
  have z2 : (0 : ℚ) ≤ (d + 1) * R.u * T := by positivity
  exact ⟨by linarith, h2, by linarith⟩

/-- **C111 (times).** If all crossings are within `e` of 0 and of one symbol, the horizontal measures of the crossings are those of ideal ones up to a few
times `e` and rounding errors of a few `(d + 1) u` of a symbol. -/
theorem C111_times (R : Rounding) (mean dot : List ℚ → ℚ) (root : ℚ → ℚ) (d n : ℕ) (hm : IsMean R d n mean) (hd : IsDot R d n dot) (hr : IsRoot R root)
    (hu : (d + 1) * R.u ≤ 1 / 10 ^ 5) (T e : ℚ) (hT : 0 < T) (he0 : 0 ≤ e) (he : 3 * (e + 6 * ((d + 1) * R.u) * T) < T) (o : List HOut)
    (h7 : (o.flatMap (·.crossLeft)).length ≤ n) (h8 : (o.flatMap (·.crossRight)).length ≤ n)
    (hl : ∀ t ∈ o.flatMap (·.crossLeft), |t * T| ≤ e) (hr' : ∀ t ∈ o.flatMap (·.crossRight), |t * T - T| ≤ e) :
    TimesF T (e + 6 * ((d + 1) * R.u) * T) (hMeasuresF R mean dot root T o) ∧
    (o.flatMap (·.crossLeft) ≠ [] → o.flatMap (·.crossRight) ≠ [] → KnownF (hMeasuresF R mean dot root T o)) := by
  have hun := R.u_nonneg
  have z1 : R.u * T ≤ (d + 1) * R.u * T := by
    have : (0 : ℚ) ≤ d * R.u * T := by positivity
    linarith
  have z0 : (0 : ℚ) ≤ R.u * T := by positivity
  have hu5 : R.u ≤ 1 / 10 ^ 5 := by
    have : (0 : ℚ) ≤ d * R.u := by positivity
    linarith
  obtain ⟨E, hE⟩ : ∃ E, E = e + 6 * ((d + 1) * R.u) * T := ⟨_, rfl⟩
  have hE0 : 0 ≤ E := by rw [hE]; linarith
  have hbd : ∀ t : ℚ, |t * T| ≤ 3 / 2 * T → |t| ≤ 3 / 2 := by
    intro t h
    rw [abs_mul, abs_of_pos hT] at h
    exact le_of_mul_le_mul_right h hT
  have hX7 : ∀ t ∈ o.flatMap (·.crossLeft), |t| ≤ 3 / 2 := fun t ht => hbd t ((hl t ht).trans (by linarith))
  have hX8 : ∀ t ∈ o.flatMap (·.crossRight), |t| ≤ 3 / 2 := by
    intro t ht
    apply hbd
    have := abs_le.1 (hr' t ht)
    rw [abs_le]
    constructor <;> linarith [this.1, this.2]
  obtain ⟨s7, l7⟩ := time_level R mean dot root d n hm hd hr hu T 0 e hT _ h7 hX7 (by simpa using hl)
  obtain ⟨-, l8⟩ := time_level R mean dot root d n hm hd hr hu T T e hT _ h8 hX8 hr'
  rw [← hE] at he ⊢
  unfold NearLevel at l7 l8
  rw [← hE] at l7 l8
  have k7 : UVF.samples R mean dot root ((o.flatMap (·.crossLeft)).map fun t : ℚ => R.fl (t * T)) = none ↔ o.flatMap (·.crossLeft) = [] := by
    rw [← (C105_samples R mean dot root d n hm hd hr (by linarith) _ (by simpa using h7)).1]
    simp
  have k8 : UVF.samples R mean dot root ((o.flatMap (·.crossRight)).map fun t : ℚ => R.fl (t * T)) = none ↔ o.flatMap (·.crossRight) = [] := by
    rw [← (C105_samples R mean dot root d n hm hd hr (by linarith) _ (by simpa using h8)).1]
    simp
  have p7 := ptpF_spec R ((o.flatMap (·.crossLeft)).map fun t : ℚ => R.fl (t * T))
  have y1 : R.u * E ≤ 1 / 10 ^ 5 * E := mul_le_mul_of_nonneg_right hu5 hE0
  have y2 : 6 * (R.u * T) ≤ E := by rw [hE]; linarith
  have y3 : 0 ≤ R.u * E := mul_nonneg hun hE0
  -- the pair of crossings
  have hpair : ∀ a b : UVF, (|a.value - 0| ≤ E ∧ 0 ≤ a.stddev ∧ a.stddev ≤ 1001 / 1000 * E) → (|b.value - T| ≤ E ∧ 0 ≤ b.stddev ∧ b.stddev ≤ 1001 / 1000 * E) →
      |(UVF.sub R root b a).value - T| ≤ 22 / 10 * E ∧ T - 9 * E ≤ (openingF R root b a).value ∧ (openingF R root b a).value ≤ T + 3 * E ∧
      (UVF.sub R root b a).value - (openingF R root b a).value ≤ 7 * E ∧ (openingF R root b a).value - (UVF.sub R root b a).value ≤ E := by
    rintro a b ⟨a1, a2, a3⟩ ⟨b1, b2, b3⟩
    have g := opening_near R root a b
    have a1 := abs_le.1 a1
    have b1 := abs_le.1 b1
    have q1 : |b.value| ≤ T + E := abs_le.2 ⟨by linarith [b1.1], by linarith [b1.2]⟩
    have q2 : |a.value| ≤ E := abs_le.2 ⟨by linarith [a1.1], by linarith [a1.2]⟩
    rw [abs_of_nonneg a2, abs_of_nonneg b2] at g
    have q3 : |b.value| + |a.value| + 3 * b.stddev + 3 * a.stddev ≤ T + 9 * E := by linarith
    have q4 := mul_le_mul_of_nonneg_left q3 (by linarith : 0 ≤ 4 * R.u)
    have g := abs_le.1 (g.trans q4)
    have hv : (UVF.sub R root b a).value = R.fl (b.value - a.value) := rfl
    rw [hv]
    have q5 : |b.value - a.value| ≤ T + 2 * E := abs_le.2 ⟨by linarith [b1.1, a1.2], by linarith [b1.2, a1.1]⟩
    obtain ⟨q6, -⟩ := fl_err_le R _ _ q5
    have q6 := abs_le.1 q6
    generalize R.fl (b.value - a.value) = D at *
    generalize (openingF R root b a).value = w at *
    refine ⟨abs_le.2 ⟨?_, ?_⟩, ?_, ?_, ?_, ?_⟩ <;> linarith [a1.1, a1.2, b1.1, b1.2, q6.1, q6.2, g.1, g.2]
  have hratio : ∀ (D f x : ℚ), |D - T| ≤ 22 / 10 * E → |f * D - x| ≤ 4 * R.u * |x| → 0 < D ∧ x - 4 * R.u * |x| ≤ f * D ∧ f * D ≤ x + 4 * R.u * |x| := by
    intro D f x hD h
    have hD := abs_le.1 hD
    have h := abs_le.1 h
    exact ⟨by linarith [hD.1], by linarith [h.1], by linarith [h.2]⟩
  generalize ha : UVF.samples R mean dot root ((o.flatMap (·.crossLeft)).map fun t : ℚ => R.fl (t * T)) = a at *
  generalize hb : UVF.samples R mean dot root ((o.flatMap (·.crossRight)).map fun t : ℚ => R.fl (t * T)) = b at *
  have eC : (hMeasuresF R mean dot root T o).tCross = a := ha
  have eS : (hMeasuresF R mean dot root T o).tSym = bothF (UVF.sub R root) b a := by rw [← ha, ← hb]; rfl
  have eW : (hMeasuresF R mean dot root T o).width = bothF (openingF R root) b a := by rw [← ha, ← hb]; rfl
  have eF : (hMeasuresF R mean dot root T o).fSym = ((bothF (UVF.sub R root) b a).map fun a => nvDivF R root ⟨1, 0⟩ a).getD NVF.nan := by
    rw [← ha, ← hb]; rfl
  have eR : (hMeasuresF R mean dot root T o).widthR =
      (bothF (nvDivF R root) (bothF (openingF R root) b a) (bothF (UVF.sub R root) b a)).getD NVF.nan := by rw [← ha, ← hb]; rfl
  have eP : (hMeasuresF R mean dot root T o).jitterPp = ptpF R ((o.flatMap (·.crossLeft)).map fun t : ℚ => R.fl (t * T)) := rfl
  have eJ : (hMeasuresF R mean dot root T o).jitterRms = a.map (·.stddev) := by rw [← ha]; rfl
  constructor
  · constructor
    · intro v hv
      rw [eC] at hv
      simpa using l7 v hv
    · intro v hv
      rw [eS] at hv
      cases a with
      | none => cases b <;> cases hv
      | some a =>
        cases b with
        | none => cases hv
        | some b =>
          obtain rfl := Option.some.inj hv
          exact (hpair a b (l7 a rfl) (l8 b rfl)).1
    · intro v hv
      rw [eW] at hv
      cases a with
      | none => cases b <;> cases hv
      | some a =>
        cases b with
        | none => cases hv
        | some b =>
          obtain rfl := Option.some.inj hv
          obtain ⟨-, h1, h2, -⟩ := hpair a b (l7 a rfl) (l8 b rfl)
          exact ⟨h1, h2⟩
    · intro f hf
      rw [eF] at hf
      cases a with
      | none => cases b <;> cases hf
      | some a =>
        cases b with
        | none => cases hf
        | some b =>
          obtain ⟨h1, -⟩ := hpair a b (l7 a rfl) (l8 b rfl)
          have hq := (isRatio R _ _ _ _ (zero_err R 1) (zero_err R (UVF.sub R root b a).value)).2 f hf
          obtain ⟨hD, g1, g2⟩ := hratio _ _ _ h1 hq
          have h1 := abs_le.1 h1
          generalize (UVF.sub R root b a).value = D at *
          rw [abs_one] at g1 g2
          have hf0 : 0 ≤ f := by
            by_contra hneg
            have := mul_neg_of_neg_of_pos (not_le.1 hneg) hD
            linarith
          have hfT : f * (T - 3 * E) * (1 + 4 * R.u) ≤ f * D := by
            have : (T - 3 * E) * (1 + 4 * R.u) ≤ D := by linarith [h1.1]
            have := mul_le_mul_of_nonneg_left this hf0
            linarith
          have hfT2 : f * D ≤ f * (T + 3 * E) * (1 - 4 * R.u) := by
            have : D ≤ (T + 3 * E) * (1 - 4 * R.u) := by linarith [h1.2]
            have := mul_le_mul_of_nonneg_left this hf0
            linarith
          constructor
          · refine le_of_mul_le_mul_right ?_ (by linarith : 0 < 1 + 4 * R.u)
            linarith
          · refine le_of_mul_le_mul_right ?_ (by linarith : 0 < 1 - 4 * R.u)
            linarith
    · intro r hr1
      rw [eR] at hr1
      cases a with
      | none => cases b <;> cases hr1
      | some a =>
        cases b with
        | none => cases hr1
        | some b =>
          obtain ⟨h1, h2, h3, h4, h5⟩ := hpair a b (l7 a rfl) (l8 b rfl)
          have hq := (isRatio R _ _ _ _ (zero_err R (openingF R root b a).value) (zero_err R (UVF.sub R root b a).value)).2 r hr1
          obtain ⟨hD, g1, g2⟩ := hratio _ _ _ h1 hq
          have h1 := abs_le.1 h1
          generalize (UVF.sub R root b a).value = D at *
          generalize (openingF R root b a).value = w at *
          have hw : |w| ≤ T + 9 * E := abs_le.2 ⟨by linarith, by linarith⟩
          have hw := mul_le_mul_of_nonneg_left hw (by linarith : 0 ≤ 4 * R.u)
          constructor
          · rcases le_total 1 r with h | h
            · have := mul_nonneg (sub_nonneg.2 h) (by linarith : 0 ≤ T - 3 * E)
              linarith
            · have := mul_le_mul_of_nonneg_left (by linarith [h1.1] : T - 3 * E ≤ D) (sub_nonneg.2 h)
              linarith
          · rcases le_total r 1 with h | h
            · have := mul_nonneg (sub_nonneg.2 h) (by linarith : 0 ≤ T - 3 * E)
              linarith
            · have := mul_le_mul_of_nonneg_left (by linarith [h1.1] : T - 3 * E ≤ D) (sub_nonneg.2 h)
              linarith
    · intro p hp
      rw [eP] at hp
      obtain ⟨lo, hi, m1, m2, m3, m4⟩ := p7.2 p hp
      have q1 := abs_le.1 (s7 lo m1)
      have q2 := abs_le.1 (s7 hi m2)
      have q3 : 0 ≤ hi - lo := by linarith [(m3 lo m1).2]
      unfold Rounded at m4
      rw [abs_of_nonneg q3] at m4
      have m4 := abs_le.1 m4
      have q4 := mul_le_mul_of_nonneg_right hu5 q3
      exact ⟨by linarith [m4.1], by linarith [m4.2, q1.1, q2.2]⟩
    · intro p hp
      rw [eJ] at hp
      obtain ⟨v, hv, rfl⟩ := Option.map_eq_some_iff.1 hp
      exact (l7 v hv).2
  · intro n7 n8
    unfold KnownF
    rw [eC, eS, eW, eF, eR, eP, eJ]
    cases a with
    | none => exact absurd (k7.1 rfl) n7
    | some a =>
      cases b with
      | none => exact absurd (k8.1 rfl) n8
      | some b =>
        obtain ⟨h1, -⟩ := hpair a b (l7 a rfl) (l8 b rfl)
        have h1 := abs_le.1 h1
        have hD : (UVF.sub R root b a).value ≠ 0 := by
          intro h
          rw [h] at h1
          linarith [h1.1]
        refine ⟨by simp, by simp [bothF], by simp [bothF], ?_, ?_, ?_, by simp⟩
        · intro h
          exact hD ((isRatio R _ _ _ _ (zero_err R (openingF R root b a).value) (zero_err R (UVF.sub R root b a).value)).1.1 h)
        · intro h
          exact hD ((isRatio R _ _ _ _ (zero_err R 1) (zero_err R (UVF.sub R root b a).value)).1.1 h)
        · intro h
          exact n7 (by simpa using p7.1.1 h)

/-! ### Steep edges -/

theorem timeErr_fine (R : Rounding) (T δ : ℚ) (hT : 0 < T) (hδ : 0 < δ) (h2 : 2 * δ ≤ T) (u1 : R.u * (T / δ) ≤ 1 / 10 ^ 5)
    (hw : iWidthF R T δ ≤ T / δ + 251 / 100) : timeErr R.u T δ (iWidthF R T δ) * T ≤ δ / 1000 := by
  have hun := R.u_nonneg
  have hW : (iWidthF R T δ : ℚ) * δ ≤ T + 251 / 100 * δ := by
    have := mul_le_mul_of_nonneg_right hw hδ.le
    rw [add_mul, div_mul_cancel₀ _ hδ.ne'] at this
    exact this
  have huT : R.u * T ≤ 1 / 10 ^ 5 * δ := by
    have := mul_le_mul_of_nonneg_right u1 hδ.le
    rw [mul_assoc, div_mul_cancel₀ _ hδ.ne'] at this
    exact this
  have e : timeErr R.u T δ (iWidthF R T δ) * T = 20 * (R.u * (T + iWidthF R T δ * δ)) := by
    unfold timeErr
    field_simp
  rw [e]
  have h3 : T + iWidthF R T δ * δ ≤ 4 * T := by linarith
  have := mul_le_mul_of_nonneg_left h3 hun
  linarith

/-- Where the sample `k` of the window around a sampled clock edge is. -/
theorem sample_time (R : Rounding) (r : Sent) (time : ℕ → ℚ) (clk : List ℚ) (T0 T δ ε π τ : ℚ) (hc : Clocked r time clk T0 T δ ε π τ) (hδ : 0 < δ)
    (h2 : 2 * (δ + ε) ≤ T0) (hu : 10 ^ 5 * R.u * r.y.length ≤ 1) (i : ℕ) (hi : i < clk.length) (c : Center)
    (h : sampleEdgeF R T δ r.t0 r.y.length clk[i] = some c) (k : ℕ) (hk : k ≤ 2 * (iWidthF R T δ).toNat) :
    c.i.toNat - (iWidthF R T δ).toNat + k < r.y.length ∧
    |time (c.i.toNat - (iWidthF R T δ).toNat + k) - (r.b + i * T0) - (timeOf T δ (iWidthF R T δ) c k * T - T / 2)| ≤
      501 / 1000 * δ + ε + τ := by
  have hε : 0 ≤ ε := ((abs_nonneg _).trans hc.period).trans hc.steady
  have hper := abs_le.1 hc.period
  have hst := hc.steady
  have hT : 0 < T := by linarith
  obtain ⟨⟨i1, i2⟩, -, hcen, -⟩ := fine R T δ r.t0 _ r.y.length c hT hδ hu h
  have w2 := iWidthF_ge R T δ hT hδ
  have hj : c.i.toNat - (iWidthF R T δ).toNat + k < r.y.length := by omega
  refine ⟨hj, ?_⟩
  have hjq : ((c.i.toNat - (iWidthF R T δ).toNat + k : ℕ) : ℚ) = c.i - iWidthF R T δ + k := by
    have : ((c.i.toNat - (iWidthF R T δ).toNat + k : ℕ) : ℤ) = c.i - iWidthF R T δ + k := by omega
    exact_mod_cast this
  have e : timeOf T δ (iWidthF R T δ) c k * T - T / 2 = ((k : ℚ) - iWidthF R T δ) * δ + c.t := by
    unfold timeOf
    field_simp
    ring
  rw [e]
  have t1 := abs_le.1 (hc.times _ hj)
  rw [hjq] at t1
  have t2 := abs_le.1 (hc.near i hi)
  have t3 := abs_le.1 hcen
  rw [abs_le]
  constructor <;> linarith [t1.1, t1.2, t2.1, t2.2, t3.1, t3.2]

theorem value_back (ys : List ℚ) (yZero yUa y x : ℚ) (W : ℤ) (c : Center) (k : ℕ) (hua : yUa ≠ 0) :
    |valueOf ys yZero yUa W c k - (y - yZero) / yUa| ≤ x ↔ |ys.getD (c.i.toNat - W.toNat + k) 0 - y| ≤ x * |yUa| := by
  unfold valueOf
  rw [← sub_div, abs_div, div_le_iff₀ (abs_pos.2 hua), sub_sub_sub_cancel_right]

/-- **C111 (steep edges).** If the signal is near the crossing level only near the boundaries of the symbols that were sent, then in rounded arithmetic the
crossing times of the symbols sampled at a clock near the one sent are near 0 and 1; and there are some if there is a crossing at a symbol that is far enough
from the ends of the record.  The same for the compiled version. -/
theorem C111_steep (R : Rounding) (mem : ℤ → ℚ) (r : Sent) (time : ℕ → ℚ) (clk : List ℚ) (T0 T δ ε π τ x yZero yUa V y height lower upper : ℚ)
    (hc : Clocked r time clk T0 T δ ε π τ) (hδ : 0 < δ) (h2 : 2 * (δ + ε) ≤ T0) (hu : 10 ^ 5 * R.u * r.y.length ≤ 1) (hua : yUa ≠ 0)
    (hV : ∀ v ∈ r.y, |(v - yZero) / yUa| ≤ V) (hh : 0 ≤ height) (hVc : |(y - yZero) / yUa| + height ≤ V)
    (hx : 3 * (x + 51 / 100 * δ + ε + π + τ) < T)
    (hs : SteepF r time T0 (T0 + 51 / 100 * δ + ε + π + τ) y ((height / 2 + 10 * R.u * V) * |yUa|) x)
    (dirs : List ℤ) (hd : dirs.length = (sampleEdgesF R T δ r.t0 r.y.length clk).length) (o : HOut)
    (ho : sampleHorizontalF R r.y (sampleEdgesF R T δ r.t0 r.y.length clk) dirs δ T yZero yUa (some y) height lower upper = .ok o ∨
      sampleHorizontalCF R mem r.y (sampleEdgesF R T δ r.t0 r.y.length clk) dirs δ T yZero yUa (some y) height lower upper = o) :
    (∀ t ∈ o.crossLeft, |t * T| ≤ x + 51 / 100 * δ + ε + π + τ) ∧ (∀ t ∈ o.crossRight, |t * T - T| ≤ x + 51 / 100 * δ + ε + π + τ) ∧
    ∀ k < r.n, r.t0 + T0 + 4 * δ + 2 * ε ≤ r.b + k * T0 → r.b + k * T0 ≤ r.t0 + (r.y.length - 1) * δ - T0 - 3 * δ - 2 * ε →
      (CrossedF r time T0 y ((height / 2 - 10 * R.u * V) * |yUa|) x k (-1 / 2) → o.crossLeft ≠ []) ∧
      (CrossedF r time T0 y ((height / 2 - 10 * R.u * V) * |yUa|) x k (1 / 2) → o.crossRight ≠ []) := by
  have hε : 0 ≤ ε := ((abs_nonneg _).trans hc.period).trans hc.steady
  have hper := abs_le.1 hc.period
  have hst := hc.steady
  have hT : 0 < T := by linarith
  have hT2 : 2 * δ ≤ T := by linarith
  obtain ⟨E, hE⟩ : ∃ E, E = x + 51 / 100 * δ + ε + π + τ := ⟨_, rfl⟩
  rw [← hE] at hx ⊢
  -- the clock edge of a centre
  have hedge : ∀ c ∈ sampleEdgesF R T δ r.t0 r.y.length clk, ∃ (i : ℕ) (hi : i < clk.length), sampleEdgeF R T δ r.t0 r.y.length clk[i] = some c := by
    intro c hcm
    obtain ⟨b, hb, hbc⟩ := List.mem_filterMap.1 hcm
    obtain ⟨i, hi, rfl⟩ := List.mem_iff_getElem.1 hb
    exact ⟨i, hi, hbc⟩
  have hin : ∀ s ∈ (sampleEdgesF R T δ r.t0 r.y.length clk).zip dirs, InsideF R T δ r.y.length s.1 ∧ 0 ≤ -s.1.t ∧ -s.1.t ≤ (1 + R.u) * δ := by
    intro s hsm
    obtain ⟨i, hi, hic⟩ := hedge s.1 (List.of_mem_zip hsm).1
    obtain ⟨f1, f2, -⟩ := fine R T δ r.t0 _ r.y.length s.1 hT hδ hu hic
    exact ⟨f1, f2⟩
  have hfst := List.map_fst_zip hd.ge
  have hsnd := List.map_snd_zip hd.le
  obtain ⟨o1, ho1⟩ := C111_total R r.y ((sampleEdgesF R T δ r.t0 r.y.length clk).zip dirs) T δ yZero yUa (some y) height lower upper hT hδ
    fun s hs => (hin s hs).1
  have hsame : o.crossLeft = o1.crossLeft ∧ o.crossRight = o1.crossRight := by
    rcases ho with ho | rfl
    · rw [hfst, hsnd, ho] at ho1
      obtain rfl := Except.ok.inj ho1
      exact ⟨rfl, rfl⟩
    · obtain ⟨o2, lo, hi, g1, -, -, g2, g3⟩ := sampledF R r.y ((sampleEdgesF R T δ r.t0 r.y.length clk).zip dirs) T δ yZero yUa (some y) height lower
        upper hT hδ fun s hs => (hin s hs).1
      obtain ⟨-, g4, g5⟩ := sampledCF R mem r.y ((sampleEdgesF R T δ r.t0 r.y.length clk).zip dirs) T δ yZero yUa (some y) height lower
        upper hT hδ fun s hs => (hin s hs).1
      rw [g1] at ho1
      obtain rfl := Except.ok.inj ho1
      rw [hfst, hsnd] at g4 g5
      exact ⟨g4.trans g2.symm, g5.trans g3.symm⟩
  rw [hsame.1, hsame.2]
  obtain ⟨-, hmain⟩ := C111_crossings R r.y ((sampleEdgesF R T δ r.t0 r.y.length clk).zip dirs) T δ yZero yUa V (some y) height lower upper hT hδ hin hV hh
    (by rintro y' h; obtain rfl := Option.some.inj h; exact hVc) o1 ho1
  obtain ⟨f, g, hf, hg, hread⟩ := hmain y rfl
  rw [hf, hg]
  -- a sample that is read
  have hnear : ∀ s ∈ (sampleEdgesF R T δ r.t0 r.y.length clk).zip dirs, ∀ k ≤ 2 * (iWidthF R T δ).toNat, ∀ t,
      |t - timeOf T δ (iWidthF R T δ) s.1 k| ≤ timeErr R.u T δ (iWidthF R T δ) →
      |valueOf r.y yZero yUa (iWidthF R T δ) s.1 k - (y - yZero) / yUa| ≤ height / 2 + 10 * R.u * V →
      (-1 / 2 ≤ t → t ≤ 1 / 2 → |t * T| ≤ E) ∧ (1 / 2 < t → t ≤ 3 / 2 → |t * T - T| ≤ E) := by
    intro s hsm k hk t ht hv
    obtain ⟨i, hi, hic⟩ := hedge s.1 (List.of_mem_zip hsm).1
    obtain ⟨-, -, -, u1, -, -, w2, -⟩ := fine R T δ r.t0 _ r.y.length s.1 hT hδ hu hic
    have hte := timeErr_fine R T δ hT hδ hT2 u1 w2
    have htT : |t * T - timeOf T δ (iWidthF R T δ) s.1 k * T| ≤ δ / 1000 := by
      rw [← sub_mul, abs_mul, abs_of_pos hT]
      exact (mul_le_mul_of_nonneg_right ht hT.le).trans hte
    obtain ⟨hj, hpos⟩ := sample_time R r time clk T0 T δ ε π τ hc hδ h2 hu i hi s.1 hic k hk
    rw [value_back _ _ _ _ _ _ _ _ hua] at hv
    have hst2 := hs _ hj i (hc.count ▸ hi)
    generalize time (s.1.i.toNat - (iWidthF R T δ).toNat + k) = q at *
    generalize timeOf T δ (iWidthF R T δ) s.1 k = w at *
    have htT := abs_le.1 htT
    have hpos := abs_le.1 hpos
    have hrange : -1 / 2 ≤ t → t ≤ 3 / 2 → |q - (r.b + i * T0)| ≤ T0 + 51 / 100 * δ + ε + π + τ := by
      intro a b
      have a := mul_le_mul_of_nonneg_right a hT.le
      have b := mul_le_mul_of_nonneg_right b hT.le
      rw [abs_le]
      constructor <;> linarith [htT.1, htT.2, hpos.1, hpos.2, hper.1, hper.2]
    constructor
    · intro a b
      have a' := mul_le_mul_of_nonneg_right a hT.le
      have b' := mul_le_mul_of_nonneg_right b hT.le
      rcases hst2 (hrange a (by linarith)) hv with h | h
      · have h := abs_le.1 h
        rw [abs_le, hE]
        constructor <;> linarith [htT.1, htT.2, hpos.1, hpos.2, hper.1, hper.2, h.1, h.2]
      · have h := abs_le.1 h
        linarith [htT.1, htT.2, hpos.1, hpos.2, hper.1, hper.2, h.1, h.2]
    · intro a b
      have a' := mul_lt_mul_of_pos_right a hT
      have b' := mul_le_mul_of_nonneg_right b hT.le
      rcases hst2 (hrange (by linarith) b) hv with h | h
      · have h := abs_le.1 h
        linarith [htT.1, htT.2, hpos.1, hpos.2, hper.1, hper.2, h.1, h.2]
      · have h := abs_le.1 h
        rw [abs_le, hE]
        constructor <;> linarith [htT.1, htT.2, hpos.1, hpos.2, hper.1, hper.2, h.1, h.2]
  have hmem : ∀ (F : Center × ℤ → ℕ → Option ℚ) (t : ℚ), t ∈ readAll (iWidthF R T δ) ((sampleEdgesF R T δ r.t0 r.y.length clk).zip dirs) F ↔
      ∃ s ∈ (sampleEdgesF R T δ r.t0 r.y.length clk).zip dirs, ∃ k ≤ 2 * (iWidthF R T δ).toNat, F s k = some t := by
    intro F t
    unfold readAll
    simp only [List.mem_flatMap, List.mem_filterMap, List.mem_range, Nat.lt_succ_iff]
  refine ⟨?_, ?_, ?_⟩
  · intro t ht
    obtain ⟨s, hsm, k, hk, hft⟩ := (hmem f t).1 ht
    obtain ⟨q1, q2, q3, q4⟩ := (hread s hsm k hk).1.only t hft
    exact (hnear s hsm k hk t q1 q2).1 q3 q4
  · intro t ht
    obtain ⟨s, hsm, k, hk, hft⟩ := (hmem g t).1 ht
    obtain ⟨q1, q2, q3, q4⟩ := (hread s hsm k hk).2.only t hft
    exact (hnear s hsm k hk t q1 q2).2 q3 q4
  · intro i hi v1 v2
    -- the symbol is sampled
    have hil : i < clk.length := hc.count ▸ hi
    obtain ⟨a, m, hk1, hk2⟩ := kept_rangeF R r time clk T0 T δ ε π τ hc hδ h2 hu
    have hkept : i ∈ (List.range r.n).filter fun k : ℕ => (sampleEdgeF R T δ r.t0 r.y.length (clk.getD k 0)).isSome := by
      rw [hk1, List.mem_range'_1]
      exact hk2.all i hi v1 v2
    have hkept := (List.mem_filter.1 hkept).2
    rw [List.getD_eq_getElem _ _ hil] at hkept
    obtain ⟨c, hcs⟩ := Option.isSome_iff_exists.1 hkept
    have hcm : c ∈ sampleEdgesF R T δ r.t0 r.y.length clk := List.mem_filterMap.2 ⟨_, List.getElem_mem hil, hcs⟩
    obtain ⟨s, hsm, hs1⟩ : ∃ s ∈ (sampleEdgesF R T δ r.t0 r.y.length clk).zip dirs, s.1 = c := by
      rw [← hfst] at hcm
      obtain ⟨s, h, e⟩ := List.mem_map.1 hcm
      exact ⟨s, h, e⟩
    obtain ⟨⟨i1, i2⟩, ct, hcen, u1, -, w1, w2, -⟩ := fine R T δ r.t0 _ r.y.length c hT hδ hu hcs
    have hte := timeErr_fine R T δ hT hδ hT2 u1 w2
    have wge := iWidthF_ge R T δ hT hδ
    have hTd : T / δ * δ = T := div_mul_cancel₀ _ hδ.ne'
    have hWlo : T + 149 / 100 * δ ≤ iWidthF R T δ * δ := by
      have := mul_le_mul_of_nonneg_right w1 hδ.le
      linarith
    -- a sample near a boundary is in the window
    have hwin : ∀ side : ℚ, |side| = 1 / 2 → ∀ j < r.y.length, |time j - (r.b + (i + side) * T0)| ≤ x → ∃ k ≤ 2 * (iWidthF R T δ).toNat,
        j = c.i.toNat - (iWidthF R T δ).toNat + k ∧ |timeOf T δ (iWidthF R T δ) c k * T - (T / 2 + side * T)| ≤ E - δ / 1000 := by
      intro side hside j hj hjt
      have hjt := abs_le.1 hjt
      have t1 := abs_le.1 (hc.times j hj)
      have t2 := abs_le.1 (hc.near i hil)
      have t3 := abs_le.1 hcen
      have hsT : |side * (T - T0)| ≤ π := by
        rw [abs_mul, hside]
        have := hc.period
        linarith [abs_nonneg (T - T0)]
      have hsT := abs_le.1 hsT
      have hsT0 : |side * T| ≤ T / 2 := by
        rw [abs_mul, hside, abs_of_pos hT]
        linarith
      have hsT0 := abs_le.1 hsT0
      have hpos : |((j : ℚ) - c.i) * δ + c.t - side * T| ≤ E - δ / 1000 := by
        rw [abs_le, hE]
        constructor <;> linarith [hjt.1, hjt.2, t1.1, t1.2, t2.1, t2.2, t3.1, t3.2, hsT.1, hsT.2]
      have hpos' := abs_le.1 hpos
      have hc1 : (1 + R.u) * δ ≤ 101 / 100 * δ := mul_le_mul_of_nonneg_right (by linarith [R.u_small]) hδ.le
      have hlo : c.i - iWidthF R T δ ≤ (j : ℤ) := by
        by_contra hlt
        have : (j : ℚ) + 1 ≤ c.i - iWidthF R T δ := by exact_mod_cast (by omega : (j : ℤ) + 1 ≤ c.i - iWidthF R T δ)
        have := mul_le_mul_of_nonneg_right this hδ.le
        linarith [hpos'.1, hsT0.1, ct.1, ct.2]
      have hhi : (j : ℤ) ≤ c.i + iWidthF R T δ := by
        by_contra hlt
        have : (c.i : ℚ) + iWidthF R T δ + 1 ≤ j := by exact_mod_cast (by omega : c.i + iWidthF R T δ + 1 ≤ (j : ℤ))
        have := mul_le_mul_of_nonneg_right this hδ.le
        linarith [hpos'.2, hsT0.2, ct.1, ct.2]
      refine ⟨j - (c.i.toNat - (iWidthF R T δ).toNat), by omega, by omega, ?_⟩
      have hkq : ((j - (c.i.toNat - (iWidthF R T δ).toNat) : ℕ) : ℚ) = j - c.i + iWidthF R T δ := by
        have : ((j - (c.i.toNat - (iWidthF R T δ).toNat) : ℕ) : ℤ) = j - c.i + iWidthF R T δ := by omega
        exact_mod_cast this
      have e : timeOf T δ (iWidthF R T δ) c ((j - (c.i.toNat - (iWidthF R T δ).toNat) : ℕ) : ℚ) * T = T / 2 + (((j : ℚ) - c.i) * δ + c.t) := by
        unfold timeOf
        rw [hkq]
        field_simp
        ring
      rw [e]
      have : T / 2 + (((j : ℚ) - c.i) * δ + c.t) - (T / 2 + side * T) = ((j : ℚ) - c.i) * δ + c.t - side * T := by ring
      rw [this]
      exact hpos
    have hne : ∀ (F : Center × ℤ → ℕ → Option ℚ) (k : ℕ), k ≤ 2 * (iWidthF R T δ).toNat → F s k ≠ none →
        readAll (iWidthF R T δ) ((sampleEdgesF R T δ r.t0 r.y.length clk).zip dirs) F ≠ [] := by
      intro F k hk hF
      obtain ⟨t, ht⟩ := Option.ne_none_iff_exists'.1 hF
      exact List.ne_nil_of_mem ((hmem F t).2 ⟨s, hsm, k, hk, ht⟩)
    constructor
    · rintro ⟨j, hj, hjt, hjv⟩
      obtain ⟨k, hk, rfl, hkt⟩ := hwin (-1 / 2) (by norm_num) j hj hjt
      refine hne f k hk ((hread s hsm k hk).1.all ?_ ?_)
      · rw [value_back _ _ _ _ _ _ _ _ hua, hs1]
        exact hjv
      · rw [hs1]
        have hkt := abs_le.1 hkt
        constructor
        · refine le_of_mul_le_mul_right ?_ hT
          linarith [hkt.1]
        · refine le_of_mul_le_mul_right ?_ hT
          linarith [hkt.2]
    · rintro ⟨j, hj, hjt, hjv⟩
      obtain ⟨k, hk, rfl, hkt⟩ := hwin (1 / 2) (by norm_num) j hj hjt
      refine hne g k hk ((hread s hsm k hk).2.all ?_ ?_)
      · rw [value_back _ _ _ _ _ _ _ _ hua, hs1]
        exact hjv
      · rw [hs1]
        have hkt := abs_le.1 hkt
        constructor
        · refine lt_of_mul_lt_mul_right ?_ hT.le
          linarith [hkt.1]
        · refine le_of_mul_le_mul_right ?_ hT
          linarith [hkt.2]

/-- **C111 (received).** The horizontal measures of records with steep edges in rounded arithmetic: if in every record the signal is near the crossing level
only within `x` of the boundaries of the symbols sent, and the recovered clocks are near those sent, then the measured duration of a symbol is the recovered
period, the width of the eye is the duration less the jitter, the frequency its inverse, and the jitter is small: all up to a few times `x`, the sample time and
the errors of the clock; and they are not nan if a boundary is crossed. -/
theorem C111_received (R : Rounding) (mem : ℤ → ℚ) (mean dot : List ℚ → ℚ) (root : ℚ → ℚ) (d n : ℕ) (hm : IsMean R d n mean) (hdot : IsDot R d n dot)
    (hr : IsRoot R root) (hu : (d + 1) * R.u ≤ 1 / 10 ^ 5) (T0 T δ ε π τ x yZero yUa V y height lower upper : ℚ) (hδ : 0 < δ) (h2 : 2 * (δ + ε) ≤ T0)
    (hx0 : 0 ≤ x) (hτ : 0 ≤ τ) (hua : yUa ≠ 0) (hh : 0 ≤ height) (hVc : |(y - yZero) / yUa| + height ≤ V)
    (hx : 3 * (x + 51 / 100 * δ + ε + π + τ + 6 * ((d + 1) * R.u) * T) < T) (os : List HOut)
    (hos : ∀ o ∈ os, ∃ (r : Sent) (time : ℕ → ℚ) (clk : List ℚ) (dirs : List ℤ), Clocked r time clk T0 T δ ε π τ ∧ 10 ^ 5 * R.u * r.y.length ≤ 1 ∧
      (∀ v ∈ r.y, |(v - yZero) / yUa| ≤ V) ∧ SteepF r time T0 (T0 + 51 / 100 * δ + ε + π + τ) y ((height / 2 + 10 * R.u * V) * |yUa|) x ∧
      dirs.length = (sampleEdgesF R T δ r.t0 r.y.length clk).length ∧
      (sampleHorizontalF R r.y (sampleEdgesF R T δ r.t0 r.y.length clk) dirs δ T yZero yUa (some y) height lower upper = .ok o ∨
        sampleHorizontalCF R mem r.y (sampleEdgesF R T δ r.t0 r.y.length clk) dirs δ T yZero yUa (some y) height lower upper = o))
    (h7 : (os.flatMap (·.crossLeft)).length ≤ n) (h8 : (os.flatMap (·.crossRight)).length ≤ n) (hT0 : |T - T0| ≤ π) (hπ : π ≤ ε) :
    TimesF T (x + 51 / 100 * δ + ε + π + τ + 6 * ((d + 1) * R.u) * T) (hMeasuresF R mean dot root T os) ∧
    ((∃ o ∈ os, o.crossLeft ≠ []) → (∃ o ∈ os, o.crossRight ≠ []) → KnownF (hMeasuresF R mean dot root T os)) := by
  have hun := R.u_nonneg
  have hπ0 : 0 ≤ π := (abs_nonneg _).trans hT0
  have hper := abs_le.1 hT0
  have hT : 0 < T := by linarith
  have hg : (0 : ℚ) ≤ 6 * ((d + 1) * R.u) * T := by positivity
  have hall : ∀ o ∈ os, (∀ t ∈ o.crossLeft, |t * T| ≤ x + 51 / 100 * δ + ε + π + τ) ∧ (∀ t ∈ o.crossRight, |t * T - T| ≤ x + 51 / 100 * δ + ε + π + τ) := by
    intro o hom
    obtain ⟨r, time, clk, dirs, hc, hur, hV, hs, hd, ho⟩ := hos o hom
    obtain ⟨q1, q2, -⟩ := C111_steep R mem r time clk T0 T δ ε π τ x yZero yUa V y height lower upper hc hδ h2 hur hua hV hh hVc (by linarith) hs dirs hd o ho
    exact ⟨q1, q2⟩
  obtain ⟨k1, k2⟩ := C111_times R mean dot root d n hm hdot hr hu T (x + 51 / 100 * δ + ε + π + τ) hT (by linarith) hx os h7 h8
    (fun t ht => by obtain ⟨o, ho, hto⟩ := List.mem_flatMap.1 ht; exact (hall o ho).1 t hto)
    (fun t ht => by obtain ⟨o, ho, hto⟩ := List.mem_flatMap.1 ht; exact (hall o ho).2 t hto)
  refine ⟨k1, ?_⟩
  rintro ⟨o, ho, hne⟩ ⟨o', ho', hne'⟩
  apply k2
  · obtain ⟨t, ht⟩ := List.exists_mem_of_ne_nil _ hne
    exact List.ne_nil_of_mem (List.mem_flatMap.2 ⟨o, ho, ht⟩)
  · obtain ⟨t, ht⟩ := List.exists_mem_of_ne_nil _ hne'
    exact List.ne_nil_of_mem (List.mem_flatMap.2 ⟨o', ho', ht⟩)

/-! ### Examples -/

/-- Symbols of four samples, alternating; the boundaries are at 0.51 in doubles. -/
def exSteep : Sent :=
  { t0 := 0, b := 5 / 2, n := 4, sym := fun k => k % 2 == 0,
    y := (List.range 33).map fun j : ℕ => if j % 4 = 0 then nearest (51 / 100) else if j / 4 % 2 = 0 then 1 else 0 }

theorem ex_clocked : Clocked exSteep (fun j : ℕ => (j : ℚ) / 4) [5 / 2, 7 / 2, 9 / 2, 11 / 2] 1 1 (1 / 4) 0 0 0 := by
  refine ⟨rfl, ?_, by norm_num, le_refl _, ?_⟩
  · intro k hk
    have : k < 4 := hk
    interval_cases k <;> norm_num [exSteep]
  · intro j _
    have e : exSteep.t0 = 0 := rfl
    rw [e]
    ring_nf
    norm_num

theorem ex_steepF : SteepF exSteep (fun j : ℕ => (j : ℚ) / 4) 1 (1 + 51 / 100 * (1 / 4) + 0 + 0 + 0) (1 / 2) ((1 / 10 / 2 + 10 * double.u * 2) * |1|)
    (1 / 16) := by
  unfold SteepF
  decide +kernel

/-- The hypotheses of `C111_steep`, `C111_crossings` and `C111_edges` are met by doubles, and the crossings are found. -/
example : Clocked exSteep (fun j : ℕ => (j : ℚ) / 4) [5 / 2, 7 / 2, 9 / 2, 11 / 2] 1 1 (1 / 4) 0 0 0 ∧ 10 ^ 5 * double.u * exSteep.y.length ≤ 1 ∧
    (∀ v ∈ exSteep.y, |(v - 0) / 1| ≤ 2) ∧ |((1 : ℚ) / 2 - 0) / 1| + 1 / 10 ≤ 2 ∧
    (3 : ℚ) * (1 / 16 + 51 / 100 * (1 / 4) + 0 + 0 + 0 + 6 * ((9 + 1) * double.u) * 1) < 1 ∧
    SteepF exSteep (fun j : ℕ => (j : ℚ) / 4) 1 (1 + 51 / 100 * (1 / 4) + 0 + 0 + 0) (1 / 2) ((1 / 10 / 2 + 10 * double.u * 2) * |1|) (1 / 16) ∧
    ([1, -1, 1, -1] : List ℤ).length = (sampleEdgesF double 1 (1 / 4) exSteep.t0 exSteep.y.length [5 / 2, 7 / 2, 9 / 2, 11 / 2]).length ∧
    CrossedF exSteep (fun j : ℕ => (j : ℚ) / 4) 1 (1 / 2) ((1 / 10 / 2 - 10 * double.u * 2) * |1|) (1 / 16) 1 (-1 / 2) ∧
    CrossedF exSteep (fun j : ℕ => (j : ℚ) / 4) 1 (1 / 2) ((1 / 10 / 2 - 10 * double.u * 2) * |1|) (1 / 16) 1 (1 / 2) ∧
    (∀ o, sampleHorizontalF double exSteep.y (sampleEdgesF double 1 (1 / 4) exSteep.t0 exSteep.y.length [5 / 2, 7 / 2, 9 / 2, 11 / 2]) [1, -1, 1, -1]
      (1 / 4) 1 0 1 (some (1 / 2)) (1 / 10) (1 / 5) (4 / 5) = .ok o → o.crossLeft ≠ [] ∧ o.crossRight ≠ []) := by
  have hu : double.u = 1 / 2 ^ 53 := rfl
  have hV : ∀ v ∈ exSteep.y, |(v - 0) / 1| ≤ 2 := by decide +kernel
  have hl : 10 ^ 5 * double.u * exSteep.y.length ≤ 1 := by decide +kernel
  have hd : ([1, -1, 1, -1] : List ℤ).length = (sampleEdgesF double 1 (1 / 4) exSteep.t0 exSteep.y.length [5 / 2, 7 / 2, 9 / 2, 11 / 2]).length := by
    decide +kernel
  have c1 : CrossedF exSteep (fun j : ℕ => (j : ℚ) / 4) 1 (1 / 2) ((1 / 10 / 2 - 10 * double.u * 2) * |1|) (1 / 16) 1 (-1 / 2) := ⟨12, by decide +kernel⟩
  have c2 : CrossedF exSteep (fun j : ℕ => (j : ℚ) / 4) 1 (1 / 2) ((1 / 10 / 2 - 10 * double.u * 2) * |1|) (1 / 16) 1 (1 / 2) := ⟨16, by decide +kernel⟩
  refine ⟨ex_clocked, hl, hV, by norm_num [abs_of_pos], by rw [hu]; norm_num, ex_steepF, hd, c1, c2, ?_⟩
  intro o ho
  obtain ⟨-, -, h⟩ := C111_steep double (fun _ => 0) exSteep _ _ 1 1 (1 / 4) 0 0 0 (1 / 16) 0 1 2 (1 / 2) (1 / 10) (1 / 5) (4 / 5) ex_clocked (by norm_num) (by norm_num)
    hl (by norm_num) hV (by norm_num) (by norm_num [abs_of_pos]) (by norm_num) ex_steepF _ hd o (Or.inl ho)
  obtain ⟨h1, h2⟩ := h 1 (by decide) (by norm_num [exSteep]) (by norm_num [exSteep])
  exact ⟨h1 c1, h2 c2⟩

/-- A case of `C111_edges` in doubles: the first symbol has a rising edge, the sample at its left boundary is at half height and surely on the edge, its time
is reported. -/
example : (∀ s ∈ [((⟨10, 0⟩ : Center), (1 : ℤ))], InsideF double 1 (1 / 4) exSteep.y.length s.1 ∧ 0 ≤ -s.1.t ∧ -s.1.t ≤ (1 + double.u) * (1 / 4)) ∧
    |valueOf exSteep.y 0 1 (iWidthF double 1 (1 / 4)) ⟨10, 0⟩ 4 - 1 / 2| ≤ 1 / 10 / 2 - 10 * double.u * 2 ∧
    SurelyOnRise (valueOf exSteep.y 0 1 (iWidthF double 1 (1 / 4)) ⟨10, 0⟩) (iWidthF double 1 (1 / 4)).toNat (10 * double.u * 2) 4 ∧
    (sampleHorizontalF double exSteep.y [⟨10, 0⟩] [1] (1 / 4) 1 0 1 (some (1 / 2)) (1 / 10) (1 / 5) (4 / 5)).map (·.riseHalf) = .ok [0] := by
  refine ⟨?_, by decide +kernel, ⟨⟨3, by norm_num, by decide +kernel, ?_⟩, ⟨5, by norm_num, by decide +kernel, by decide +kernel, ?_⟩⟩, by decide +kernel⟩
  · unfold InsideF
    decide +kernel
  · have e : (iWidthF double 1 (1 / 4)).toNat = 6 := by decide +kernel
    rw [e]
    intro i h1 h2
    interval_cases i <;> decide +kernel
  · have e : (2 * (iWidthF double 1 (1 / 4)).toNat + 1) / 4 = 3 := by decide +kernel
    rw [e]
    intro i h1 h2
    have : i = 3 := by omega
    subst this
    decide +kernel

/-- Times sampled of two symbols. -/
def exTimes : List HOut := [⟨[1 / 10], [2 / 10], [1 / 8], [], [], [], [1 / 100, -1 / 50], [99 / 100]⟩, ⟨[], [], [], [], [], [], [0], [1, 101 / 100]⟩]

/-- The hypotheses of `C111_times` and `C111_measures` are met by doubles. -/
example : IsMean double 9 10 (meanF double) ∧ IsDot double 9 10 (dotF double) ∧ IsRoot double rootD ∧ ((9 : ℕ) + 1) * double.u ≤ 1 / 10 ^ 5 ∧
    3 * (1 / 50 + 6 * (((9 : ℕ) + 1) * double.u) * 1) < (1 : ℚ) ∧
    (∀ f ∈ [(HOut.riseLower ·), (HOut.riseUpper ·), (HOut.riseHalf ·), (HOut.fallLower ·), (HOut.fallUpper ·), (HOut.fallHalf ·),
      (HOut.crossLeft ·), (HOut.crossRight ·)], (exTimes.flatMap f).length ≤ 10) ∧
    (∀ t ∈ exTimes.flatMap (·.crossLeft), |t * 1| ≤ 1 / 50) ∧ (∀ t ∈ exTimes.flatMap (·.crossRight), |t * 1 - 1| ≤ 1 / 50) ∧
    KnownF (hMeasuresF double (meanF double) (dotF double) rootD 1 exTimes) ∧
    ∃ w, (hMeasuresF double (meanF double) (dotF double) rootD 1 exTimes).width = some w ∧ 4 / 5 ≤ w.value := by
  have hu : double.u = 1 / 2 ^ 53 := rfl
  have h1 : ∀ t ∈ exTimes.flatMap (·.crossLeft), |t * 1| ≤ 1 / 50 := by decide +kernel
  have h2 : ∀ t ∈ exTimes.flatMap (·.crossRight), |t * 1 - 1| ≤ 1 / 50 := by decide +kernel
  obtain ⟨k1, k2⟩ := C111_times double (meanF double) (dotF double) rootD 9 10 (meanF_isMean double 10) (dotF_isDot double 10) rootD_isRoot
    (by rw [hu]; norm_num) 1 (1 / 50) one_pos (by norm_num) (by rw [hu]; norm_num) exTimes (by decide) (by decide) h1 h2
  have k3 := k2 (by decide) (by decide)
  refine ⟨meanF_isMean double 10, dotF_isDot double 10, rootD_isRoot, by rw [hu]; norm_num, by rw [hu]; norm_num, ?_, h1, h2, k3, ?_⟩
  · intro f hf
    simp only [List.mem_cons, List.not_mem_nil, or_false] at hf
    rcases hf with rfl | rfl | rfl | rfl | rfl | rfl | rfl | rfl <;> decide
  · obtain ⟨w, hw⟩ := Option.ne_none_iff_exists'.1 k3.2.2.1
    refine ⟨w, hw, ?_⟩
    have := (k1.width w hw).1
    rw [hu] at this
    norm_num at this
    linarith

end Verif.Props.FloatHorizontal
