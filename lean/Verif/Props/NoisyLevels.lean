import Verif.Props.SquareWave
import Verif.Props.Pam2Ratios

/-!
C96: noise moves the measured levels by no more than itself.  If the samples around the middle of each symbol are within `e` of the level that was
sent, then `calculate` measures both levels to within `e`, the amplitude to within `2 e`, and so on; without noise the levels are exact.
-/

namespace Verif.Props.NoisyLevels

open Verif Verif.Lines Verif.Eye Verif.Stats Verif.Pam2 Verif.Pipeline Verif.Props.EyeWindow Verif.Props.EyeMask Verif.Props.EyeImage
  Verif.Props.Pam2Vertical Verif.Props.Pam2Bits Verif.Props.Pipeline Verif.Props.OpenEye Verif.Props.Pam2Measures Verif.Props.Pam2Ratios
  Verif.Props.SquareWave

/-! ### Specification -/

/-- The samples no farther from a clock edge than half of the width `w` (in symbols) and half a sample are within `e` of the level of the symbol:
`lo` or `hi`.  The symbols are those of the clock edges, the one before and the one after. -/
def Flat (N : ℕ) (T δ w lo hi e : ℚ) (r : Sent) : Prop :=
  ∀ j < N, ∀ k : ℤ, -1 ≤ k → k ≤ r.n → |r.t0 + j * δ - (r.b + k * T)| ≤ w * T / 2 + δ / 2 →
    |r.y.getD j 0 - (if r.sym k = true then hi else lo)| ≤ e

/-- A measured level is `x` to within `e`, and so is its deviation. -/
def AtLevel (x e : ℝ) (m : Option UV) : Prop := ∀ u, m = some u → |u.value - x| ≤ e ∧ 0 ≤ u.stddev ∧ u.stddev ≤ e

/-- A measured amplitude is `x` to within `2 e`. -/
def Amplitude (x e : ℝ) (m : Option UV) : Prop := ∀ u, m = some u → |u.value - x| ≤ 2 * e ∧ 0 ≤ u.stddev ∧ u.stddev ^ 2 ≤ 2 * e ^ 2

/-- The vertical measures are those of the levels `lo` and `hi`, up to noise within `e`. -/
structure Measures (lo hi e : ℝ) (m : VMeasures) : Prop where
  zero : AtLevel lo e m.y0
  one : AtLevel hi e m.y1
  zeroCross : AtLevel lo e m.y0Cross
  oneCross : AtLevel hi e m.y1Cross
  amp : Amplitude (hi - lo) e m.amp
  oma : Amplitude (hi - lo) e m.omaCross
  height : ∀ u, m.height = some u → hi - lo - 8 * e ≤ u.value ∧ u.value ≤ hi - lo + 2 * e
  heightR : ∀ r, m.heightR.value = some r → (1 - r) * (hi - lo - 2 * e) ≤ 6 * e ∧ r ≤ 1
  snr : ∀ x, m.snr.value = some x → hi - lo - 2 * e ≤ x * (2 * e)
  vecp : ∀ x, m.vecp.value = some x → hi - lo - 2 * e ≤ (10 : ℝ) ^ (x / 10) * (hi - lo + 2 * e) ∧ (10 : ℝ) ^ (x / 10) * (hi - lo - 2 * e) ≤ hi - lo + 2 * e

/-! ### Mean and deviation of samples in a band -/

theorem sum_near (x e : ℚ) (l : List ℚ) (h : ∀ y ∈ l, |y - x| ≤ e) : |l.sum - l.length * x| ≤ l.length * e := by
  induction l with
  | nil => simp
  | cons a l ih =>
    have h1 := abs_le.1 (h a (by simp))
    have h2 := abs_le.1 (ih fun y hy => h y (List.mem_cons_of_mem _ hy))
    rw [List.sum_cons, List.length_cons, abs_le]
    push_cast
    constructor <;> nlinarith [h1.1, h1.2, h2.1, h2.2]

theorem sum_sq_shift (l : List ℚ) (v c : ℝ) : (l.map fun x : ℚ => ((x : ℝ) - v) ^ 2).sum =
    (l.map fun x : ℚ => ((x : ℝ) - c) ^ 2).sum - 2 * (v - c) * (((l.sum : ℚ) : ℝ) - l.length * c) + l.length * (v - c) ^ 2 := by
  induction l with
  | nil => simp
  | cons a l ih =>
    rw [List.map_cons, List.sum_cons, ih, List.map_cons, List.sum_cons, List.sum_cons, List.length_cons]
    push_cast
    ring

theorem sum_sq_near (x e : ℚ) (l : List ℚ) (h : ∀ y ∈ l, |y - x| ≤ e) : (l.map fun y : ℚ => ((y : ℝ) - x) ^ 2).sum ≤ l.length * (e : ℝ) ^ 2 := by
  induction l with
  | nil => simp
  | cons a l ih =>
    have h1 : |(a : ℝ) - x| ≤ e := by exact_mod_cast h a (by simp)
    have h2 := ih fun y hy => h y (List.mem_cons_of_mem _ hy)
    have h3 : ((a : ℝ) - x) ^ 2 ≤ (e : ℝ) ^ 2 := sq_le_sq' (abs_le.1 h1).1 (abs_le.1 h1).2
    rw [List.map_cons, List.sum_cons, List.length_cons]
    push_cast
    linarith

/-- The mean and the deviation of samples in a band. -/
theorem level_near (x e : ℚ) (l : List ℚ) (h : ∀ y ∈ l, |y - x| ≤ e) : AtLevel x e (ofSamples l) := by
  intro u hu
  obtain ⟨hne, hv, hs0, hs⟩ := describes_of l u hu
  have hn : (0 : ℝ) < l.length := by exact_mod_cast List.length_pos_iff.2 hne
  have h1 : |((l.sum : ℚ) : ℝ) - l.length * x| ≤ l.length * e := by exact_mod_cast sum_near x e l h
  have he : (0 : ℝ) ≤ e := by
    obtain ⟨a, l', rfl⟩ := List.exists_cons_of_ne_nil hne
    exact_mod_cast (abs_nonneg _).trans (h a (by simp))
  refine ⟨?_, hs0, ?_⟩
  · rw [← hv, show u.value * l.length - l.length * (x : ℝ) = l.length * (u.value - x) by ring, abs_mul, abs_of_pos hn] at h1
    exact le_of_mul_le_mul_left h1 hn
  · have h2 := sum_sq_near x e l h
    rw [sum_sq_shift l u.value x, ← hv] at hs
    have h3 : u.stddev ^ 2 * l.length ≤ (e : ℝ) ^ 2 * l.length := by nlinarith [mul_nonneg hn.le (sq_nonneg (u.value - (x : ℝ)))]
    exact abs_le_of_sq_le_sq' (le_of_mul_le_mul_right h3 hn) he |>.2

theorem amplitude_sub (lo hi e : ℝ) (a b : Option UV) (ha : AtLevel hi e a) (hb : AtLevel lo e b) : Amplitude (hi - lo) e (both UV.sub a b) := by
  intro u hu
  cases a with
  | none => cases hu
  | some x =>
    cases b with
    | none => cases hu
    | some y =>
      obtain rfl := Option.some.inj hu
      obtain ⟨h1, h2, h3⟩ := ha x rfl
      obtain ⟨g1, g2, g3⟩ := hb y rfl
      rw [abs_le] at h1 g1
      simp only [UV.sub]
      refine ⟨?_, Real.sqrt_nonneg _, ?_⟩
      · rw [abs_le]
        constructor <;> linarith
      · rw [Real.sq_sqrt (by positivity)]
        nlinarith

theorem opening_near (lo hi e : ℝ) (a b u : UV) (ha : AtLevel hi e (some a)) (hb : AtLevel lo e (some b)) (h : u = opening a b) :
    hi - lo - 8 * e ≤ u.value ∧ u.value ≤ hi - lo + 2 * e := by
  obtain ⟨h1, h2, h3⟩ := ha a rfl
  obtain ⟨g1, g2, g3⟩ := hb b rfl
  rw [abs_le] at h1 g1
  subst h
  simp only [opening, UV.sub, UV.subC, UV.addC]
  constructor <;> linarith

theorem mem_of_percentile (q x c e : ℚ) (l : List ℚ) (h : ∀ y ∈ l, |y - c| ≤ e) (hp : IsPercentile q x l) : |x - c| ≤ e := by
  obtain ⟨⟨a, ha, hax⟩, ⟨b, hb, hbx⟩, -, -⟩ := hp
  have h1 := abs_le.1 (h a ha)
  have h2 := abs_le.1 (h b hb)
  rw [abs_le]
  constructor <;> linarith

/-- The measures of samples in two bands that do not overlap. -/
theorem measures_near (nf : ℝ) (lo hi e : ℚ) (hA : 2 * e < hi - lo) (v : List VOut) (h0 : ∀ y ∈ v.flatMap (·.y0), |y - lo| ≤ e)
    (h1 : ∀ y ∈ v.flatMap (·.y1), |y - hi| ≤ e) (h2 : ∀ y ∈ v.flatMap (·.y0Cross), |y - lo| ≤ e)
    (h3 : ∀ y ∈ v.flatMap (·.y1Cross), |y - hi| ≤ e) : Measures lo hi e (vMeasures nf v) := by
  have l0 := level_near lo e _ h0
  have l1 := level_near hi e _ h1
  have l2 := level_near lo e _ h2
  have l3 := level_near hi e _ h3
  have hA' : 2 * (e : ℝ) < hi - lo := by exact_mod_cast hA
  have homa : Amplitude (hi - lo) e (vMeasures nf v).omaCross := amplitude_sub lo hi e _ _ l3 l2
  refine ⟨l0, l1, l2, l3, amplitude_sub lo hi e _ _ l1 l0, homa, ?_, ?_, ?_, ?_⟩
  · intro u hu
    change both opening (ofSamples _) (ofSamples _) = some u at hu
    cases k1 : ofSamples (v.flatMap (·.y1)) with
    | none => rw [k1] at hu; cases hu
    | some a =>
      cases k0 : ofSamples (v.flatMap (·.y0)) with
      | none => rw [k1, k0] at hu; cases hu
      | some b =>
        rw [k1] at hu l1
        rw [k0] at hu l0
        exact opening_near lo hi e a b u l1 l0 (Option.some.inj hu).symm
  · intro r hr
    cases k1 : (vMeasures nf v).y1 with
    | none =>
      change (bothDiv (both opening (vMeasures nf v).y1 (vMeasures nf v).y0) (both UV.sub (vMeasures nf v).y1 (vMeasures nf v).y0)).value = some r at hr
      rw [k1] at hr
      cases hr
    | some a =>
      cases k0 : (vMeasures nf v).y0 with
      | none =>
        change (bothDiv (both opening (vMeasures nf v).y1 (vMeasures nf v).y0) (both UV.sub (vMeasures nf v).y1 (vMeasures nf v).y0)).value = some r at hr
        rw [k1, k0] at hr
        cases hr
      | some b =>
        obtain ⟨amp, height, -, -, c1, -, c3, -, c5, -⟩ := C63_vertical nf v b a k0 k1
        obtain ⟨e1, e2, e3⟩ := l1 a k1
        obtain ⟨f1, f2, f3⟩ := l0 b k0
        rw [abs_le] at e1 f1
        have hp : 0 < amp.value := by rw [c1]; linarith
        obtain ⟨r', hr', q1, q2, -⟩ := c5 hp
        rw [hr] at hr'
        obtain rfl := Option.some.inj hr'
        refine ⟨?_, q2⟩
        have : (1 - r) * amp.value = 3 * (a.stddev + b.stddev) := by
          rw [sub_mul, q1, c3]
          ring
        nlinarith
  · intro x hx
    cases k1 : (vMeasures nf v).y1 with
    | none =>
      change ((both (fun b a => nvDivC (b.sub a) (b.stddev + a.stddev)) (vMeasures nf v).y1 (vMeasures nf v).y0).getD NV.nan).value = some x at hx
      rw [k1] at hx
      cases hx
    | some a =>
      cases k0 : (vMeasures nf v).y0 with
      | none =>
        change ((both (fun b a => nvDivC (b.sub a) (b.stddev + a.stddev)) (vMeasures nf v).y1 (vMeasures nf v).y0).getD NV.nan).value = some x at hx
        rw [k1, k0] at hx
        cases hx
      | some b =>
        obtain ⟨amp, height, -, -, c1, -, c3, -, -, c6, -⟩ := C63_vertical nf v b a k0 k1
        obtain ⟨e1, e2, e3⟩ := l1 a k1
        obtain ⟨f1, f2, f3⟩ := l0 b k0
        rw [abs_le] at e1 f1
        have hs := (c6 x hx).1
        have hp : hi - lo - 2 * e ≤ amp.value := by rw [c1]; linarith
        have hx0 : 0 ≤ x := by
          by_contra hneg
          push Not at hneg
          nlinarith
        nlinarith
  · intro x hx
    by_cases n0 : v.flatMap (·.y0) = []
    · rw [C72_empty nf v (Or.inl n0)] at hx
      cases hx
    by_cases n1 : v.flatMap (·.y1) = []
    · rw [C72_empty nf v (Or.inr n1)] at hx
      cases hx
    cases ko : (vMeasures nf v).omaCross with
    | none =>
      exfalso
      change (vecpOf _ _ (vMeasures nf v).omaCross).value = some x at hx
      rw [ko] at hx
      unfold vecpOf at hx
      split at hx
      · rename_i h
        cases h
      · cases hx
    | some o =>
      obtain ⟨p, q, hp, hq, -, -, hv, -⟩ := C72_vecp nf v n0 n1 o ko
      obtain ⟨o1, -, -⟩ := homa o ko
      have hp' : |(p : ℝ) - hi| ≤ e := by exact_mod_cast mem_of_percentile _ p hi e _ h1 hp
      have hq' : |(q : ℝ) - lo| ≤ e := by exact_mod_cast mem_of_percentile _ q lo e _ h0 hq
      rw [abs_le] at o1 hp' hq'
      obtain ⟨x', -, hx', -, hx2, -⟩ := hv (mul_pos (by linarith) (by linarith))
      rw [hx] at hx'
      obtain rfl := Option.some.inj hx'
      have h10 : (0 : ℝ) < (10 : ℝ) ^ (x / 10) := Real.rpow_pos_of_pos (by norm_num) _
      constructor <;> nlinarith

/-! ### One record -/

/-- The levels keep the eye open. -/
theorem flat_open (N : ℕ) (T δ w lo hi e half : ℚ) (r : Sent) (h0 : lo + e ≤ half) (h1 : half < hi - e) (hf : Flat N T δ w lo hi e r) :
    r.Open N T δ half w := by
  intro j hj k hk1 hk2 hd
  have h := abs_le.1 (hf j hj k hk1 hk2.le hd)
  cases hs : r.sym k with
  | true =>
    rw [hs, if_pos rfl] at h
    exact ⟨fun _ => rfl, fun _ => by linarith⟩
  | false =>
    rw [hs, if_neg (by decide)] at h
    exact ⟨fun h' => by linarith, fun h' => by cases h'⟩

/-- The samples around the middle of a sampled symbol are those of the record around its clock edge. -/
theorem near_flat (r : Sent) (T δ lo hi e lw W : ℚ) (hT : 0 < T) (hδ : 0 < δ) (hlw : lw ≤ W) (hf : Flat r.y.length T δ W lo hi e r) (k : ℕ)
    (c : Center) (h : sampleEdge T δ r.t0 r.y.length (r.b + k * T) = some c) (u : ℚ) (z : ℤ) (hz1 : -1 ≤ z) (hz2 : z ≤ r.n)
    (hzu : (z : ℚ) = k + (u - 1 / 2)) : ∀ y ∈ near (around r.y T δ c) u lw, |y - (if r.sym z = true then hi else lo)| ≤ e := by
  obtain ⟨he, hi', -, -⟩ := sample_error T δ r.t0 _ hT hδ _ c h
  intro y hy
  obtain ⟨j, hj, rfl, hjw⟩ := mem_near r.y T δ u _ hT hδ c hi' y hy
  apply hf j hj z hz1 hz2
  have e1 : r.t0 + j * δ - (r.b + z * T) = (1 / 2 + (((j : ℚ) - c.i) * δ + c.t) / T - u) * T + (r.t0 + c.i * δ - c.t - (r.b + k * T)) := by
    rw [hzu]
    field_simp
    ring
  rw [e1]
  refine (abs_add_le _ _).trans (add_le_add ?_ he)
  rw [abs_mul, abs_of_pos hT]
  nlinarith

/-- The three symbols that decide about a sampled one. -/
theorem triple_flat (r : Sent) (T δ lo hi e half lw : ℚ) (hT : 0 < T) (hδ : 0 < δ) (hw : decisionWidth lw T δ < 1) (h0 : lo + e ≤ half)
    (h1 : half < hi - e) (hf : Flat r.y.length T δ (decisionWidth lw T δ) lo hi e r) (k : ℕ) (hk : k < r.n) (c : Center)
    (h : sampleEdge T δ r.t0 r.y.length (r.b + k * T) = some c) :
    logic r.y T δ half lw (-1 / 2) c = r.sym (k - 1) ∧ logic r.y T δ half lw (1 / 2) c = r.sym k ∧
      logic r.y T δ half lw (3 / 2) c = r.sym (k + 1) := by
  obtain ⟨d1, d2⟩ := decide_open r T δ half lw hT hδ hw (flat_open _ T δ _ lo hi e half r h0 h1 hf) k hk c h
  refine ⟨d1, d2, ?_⟩
  have hmem : c ∈ sampleEdges T δ r.t0 r.y.length [r.b + k * T] := List.mem_filterMap.2 ⟨_, by simp, h⟩
  unfold logic
  rw [C44_windows _ _ hw _ (by simp)]
  apply isHigh_all _ _ _ (C44_decided r.y [r.b + k * T] T δ r.t0 lw hT hδ c hmem _ (by simp))
  intro y hy
  have := abs_le.1 (near_flat r T δ lo hi e _ _ hT hδ le_rfl hf k c h (3 / 2) (k + 1) (by omega) (by omega) (by push_cast; ring) y hy)
  cases hs : r.sym (k + 1) with
  | true =>
    rw [hs, if_pos rfl] at this
    exact ⟨fun _ => rfl, fun _ => by linarith⟩
  | false =>
    rw [hs, if_neg (by decide)] at this
    exact ⟨fun h' => by linarith, fun h' => by cases h'⟩

/-- The numbers of the clock edges whose symbols are sampled. -/
def kept (T δ : ℚ) (N : ℕ) (r : Sent) : List ℕ := (List.range r.n).filter fun k : ℕ => (sampleEdge T δ r.t0 N (r.b + k * T)).isSome

theorem mem_centers (T δ : ℚ) (N : ℕ) (r : Sent) (c : Center) (hc : c ∈ sampleEdges T δ r.t0 N (r.clock T)) :
    ∃ k ∈ kept T δ N r, k < r.n ∧ sampleEdge T δ r.t0 N (r.b + k * T) = some c := by
  unfold sampleEdges Sent.clock at hc
  rw [List.filterMap_map] at hc
  obtain ⟨k, hk, h⟩ := List.mem_filterMap.1 hc
  simp only [Function.comp] at h
  exact ⟨k, List.mem_filter.2 ⟨hk, by rw [h]; rfl⟩, List.mem_range.1 hk, h⟩

/-- The vertical samples of a record with flat levels. -/
theorem vertical_flat (r : Sent) (T δ lo hi e half lw cw : ℚ) (hT : 0 < T) (hδ : 0 < δ) (hw : decisionWidth lw T δ < 1) (h0 : lo + e ≤ half)
    (h1 : half < hi - e) (hf : Flat r.y.length T δ (decisionWidth lw T δ) lo hi e r) (v : VOut)
    (hv : sampleVertical r.y (sampleEdges T δ r.t0 r.y.length (r.clock T)) δ T half lw cw = .ok v) :
    (∀ y ∈ v.y0, |y - lo| ≤ e) ∧ (∀ y ∈ v.y1, |y - hi| ≤ e) ∧ (∀ y ∈ v.y0Cross, |y - lo| ≤ e) ∧ (∀ y ∈ v.y1Cross, |y - hi| ≤ e) ∧
      (∀ x y z, v.trans x y z = (kept T δ r.y.length r).countP fun k : ℕ => decide (r.sym (k - 1) = x ∧ r.sym k = y ∧ r.sym (k + 1) = z)) ∧
      (101 / 100 * (δ / T) ≤ lw → (v.y0 ≠ [] ↔ ∃ k ∈ kept T δ r.y.length r, r.sym k = false) ∧
        (v.y1 ≠ [] ↔ ∃ k ∈ kept T δ r.y.length r, r.sym k = true)) := by
  have hin : ∀ c ∈ sampleEdges T δ r.t0 r.y.length (r.clock T), Inside T δ r.y.length c := fun c hc => (sampled_ok T δ _ hδ _ _ c hc).1
  have hlw : lw ≤ decisionWidth lw T δ := le_max_left _ _
  obtain ⟨v', g1, -, gt, g2, g3, -, -⟩ := C44_symbols r.y _ T δ half lw cw hT hδ hin
  rw [hv] at g1
  obtain rfl := Except.ok.inj g1
  obtain ⟨v', f1, f2, f3⟩ := C62_levels_partial r.y _ T δ half lw cw hT hδ hin
  rw [hv] at f1
  obtain rfl := Except.ok.inj f1
  have key : ∀ c ∈ sampleEdges T δ r.t0 r.y.length (r.clock T), ∀ b : Bool, logic r.y T δ half lw (1 / 2) c = b →
      ∀ y ∈ near (around r.y T δ c) (1 / 2) lw, |y - (if b = true then hi else lo)| ≤ e := by
    intro c hc b hb y hy
    obtain ⟨k, -, hk, h⟩ := mem_centers T δ _ r c hc
    obtain ⟨-, d2, -⟩ := triple_flat r T δ lo hi e half lw hT hδ hw h0 h1 hf k hk c h
    rw [hb] at d2
    rw [d2]
    exact near_flat r T δ lo hi e lw _ hT hδ hlw hf k c h (1 / 2) k (by omega) (by omega) (by push_cast; ring) y hy
  refine ⟨?_, ?_, ?_, ?_, ?_, ?_⟩
  · intro y hy
    rw [g2] at hy
    obtain ⟨c, hc, hy⟩ := List.mem_flatMap.1 hy
    obtain ⟨hc1, hc2⟩ := List.mem_filter.1 hc
    simpa using key c hc1 false (by simpa using hc2) y hy
  · intro y hy
    rw [g3] at hy
    obtain ⟨c, hc, hy⟩ := List.mem_flatMap.1 hy
    obtain ⟨hc1, hc2⟩ := List.mem_filter.1 hc
    simpa using key c hc1 true (by simpa using hc2) y hy
  · intro y hy
    rw [f2] at hy
    obtain ⟨c, hc, hy⟩ := List.mem_flatMap.1 hy
    obtain ⟨hc1, hc2⟩ := List.mem_filter.1 hc
    rw [Bool.and_eq_true] at hc2
    simpa using key c hc1 false (by simpa using hc2.2) y hy
  · intro y hy
    rw [f3] at hy
    obtain ⟨c, hc, hy⟩ := List.mem_flatMap.1 hy
    obtain ⟨hc1, hc2⟩ := List.mem_filter.1 hc
    rw [Bool.and_eq_true] at hc2
    simpa using key c hc1 true (by simpa using hc2.2) y hy
  · intro x y z
    rw [gt]
    have hmap := filterMap_map (fun k : ℕ => sampleEdge T δ r.t0 r.y.length (r.b + k * T))
      (fun c => (logic r.y T δ half lw (-1 / 2) c, logic r.y T δ half lw (1 / 2) c, logic r.y T δ half lw (3 / 2) c))
      (fun k : ℕ => (r.sym (k - 1), r.sym k, r.sym (k + 1))) (List.range r.n) (by
        intro k hk c h
        obtain ⟨d1, d2, d3⟩ := triple_flat r T δ lo hi e half lw hT hδ hw h0 h1 hf k (List.mem_range.1 hk) c h
        rw [d1, d2, d3])
    have hc : sampleEdges T δ r.t0 r.y.length (r.clock T) = (List.range r.n).filterMap fun k : ℕ => sampleEdge T δ r.t0 r.y.length (r.b + k * T) := by
      unfold sampleEdges Sent.clock
      rw [List.filterMap_map]
      rfl
    rw [← hc] at hmap
    have := congrArg (List.count (x, y, z)) hmap
    simp only [List.count, List.countP_map] at this
    calc _ = _ := by
          apply List.countP_congr
          intro c _
          simp [Function.comp, and_assoc]
      _ = _ := this
      _ = _ := by
          unfold kept
          apply List.countP_congr
          intro k _
          simp [Function.comp]
  · intro hwide
    have hW : lw = decisionWidth lw T δ := (max_eq_left hwide).symm
    have hex : ∀ b : Bool, ∀ k ∈ kept T δ r.y.length r, r.sym k = b → ∃ c ∈ sampleEdges T δ r.t0 r.y.length (r.clock T),
        logic r.y T δ half lw (1 / 2) c = b ∧ near (around r.y T δ c) (1 / 2) lw ≠ [] := by
      intro b k hk hs
      obtain ⟨hk1, hk2⟩ := List.mem_filter.1 hk
      obtain ⟨c, hc⟩ := Option.isSome_iff_exists.1 hk2
      have hmem : c ∈ sampleEdges T δ r.t0 r.y.length (r.clock T) := by
        unfold sampleEdges Sent.clock
        rw [List.filterMap_map]
        exact List.mem_filterMap.2 ⟨k, hk1, hc⟩
      refine ⟨c, hmem, ?_, ?_⟩
      · rw [(triple_flat r T δ lo hi e half lw hT hδ hw h0 h1 hf k (List.mem_range.1 hk1) c hc).2.1, hs]
      · have := C44_decided r.y (r.clock T) T δ r.t0 lw hT hδ c hmem (1 / 2) (by simp)
        rwa [← hW] at this
    have hback : ∀ b : Bool, ∀ c ∈ sampleEdges T δ r.t0 r.y.length (r.clock T), logic r.y T δ half lw (1 / 2) c = b →
        ∃ k ∈ kept T δ r.y.length r, r.sym k = b := by
      intro b c hc hb
      obtain ⟨k, hk', hk, h⟩ := mem_centers T δ _ r c hc
      exact ⟨k, hk', by rw [← (triple_flat r T δ lo hi e half lw hT hδ hw h0 h1 hf k hk c h).2.1, hb]⟩
    constructor
    · rw [g2]
      constructor
      · intro hne
        obtain ⟨y, hy⟩ := List.exists_mem_of_ne_nil _ hne
        obtain ⟨c, hc, -⟩ := List.mem_flatMap.1 hy
        obtain ⟨hc1, hc2⟩ := List.mem_filter.1 hc
        exact hback false c hc1 (by simpa using hc2)
      · rintro ⟨k, hk, hs⟩
        obtain ⟨c, hc, hb, hne⟩ := hex false k hk hs
        obtain ⟨y, hy⟩ := List.exists_mem_of_ne_nil _ hne
        exact List.ne_nil_of_mem (List.mem_flatMap.2 ⟨c, List.mem_filter.2 ⟨hc, by simpa using hb⟩, hy⟩)
    · rw [g3]
      constructor
      · intro hne
        obtain ⟨y, hy⟩ := List.exists_mem_of_ne_nil _ hne
        obtain ⟨c, hc, -⟩ := List.mem_flatMap.1 hy
        obtain ⟨hc1, hc2⟩ := List.mem_filter.1 hc
        exact hback true c hc1 (by simpa using hc2)
      · rintro ⟨k, hk, hs⟩
        obtain ⟨c, hc, hb, hne⟩ := hex true k hk hs
        obtain ⟨y, hy⟩ := List.exists_mem_of_ne_nil _ hne
        exact List.ne_nil_of_mem (List.mem_flatMap.2 ⟨c, List.mem_filter.2 ⟨hc, by simpa using hb⟩, hy⟩)

/-! ### All records -/

/-- The levels with which step 4 goes on are the updated ones. -/
theorem finish_levels (s : Settings) (mask : Option MaskFn) (T δ : ℚ) (wfs : List Wf) (v : List VOut) (l : Option (Levels ℚ)) (p : Picture)
    (h : finish s mask T δ wfs v l = .ok (some p)) : l = some p.levels := by
  unfold finish at h
  split at h
  · unfold noPicture at h
    split at h
    · cases h
    · cases hd : drawGrid s <;> rw [hd] at h <;> cases h
  · rename_i l' hl
    have hl' : l = some l' := (Option.filter_eq_some_iff.1 hl).1
    simp only [bind, Except.bind, pure, Except.pure] at h
    split at h
    · cases h
    split at h
    · cases h
    split at h
    · cases h
    split at h
    · cases h
    rename_i q hq
    obtain rfl := Option.some.inj (Except.ok.inj h)
    unfold picture at hq
    simp only [bind, Except.bind, pure, Except.pure] at hq
    split at hq
    · cases hq
    split at hq
    · cases hq
    rw [← Except.ok.inj hq, hl']

/-- What `calculate` measures. -/
theorem calculate_v (s : Settings) (m : Level ℚ × Level ℚ) (given : Option (List (List (Option ℚ)))) (clocks : Option (List Wave))
    (cdr : List (Option ℚ) → Except PyErr (List (Option ℚ))) (mask : Option MaskFn) (wfs : List Wave) (δ : ℚ) (hδ : tDelta wfs = .ok δ)
    (hskip : s.skip = false) (a : Analysis) (h : calculateAll s m given clocks cdr mask wfs = .ok a) :
    ∃ v, a.v = some v ∧ a.wfs.mapM (fun w => sampleVertical w.y w.centers δ a.tSym (levels s.level m).half s.levelWidth s.crossWidth) = .ok v ∧
      ∀ p, a.picture = some p → newLevels s.level (mean (v.flatMap (·.y0))) (mean (v.flatMap (·.y1))) (levels s.level m) = some p.levels := by
  unfold calculateAll at h
  simp only [hδ, bind, Except.bind] at h
  split at h
  · cases h
  split at h
  · cases h
  split at h
  · cases h
  split at h
  · cases h
  split at h
  · cases h
  unfold Pipeline.measure at h
  simp only [hskip, Bool.false_eq_true, if_false, bind, Except.bind, pure, Except.pure] at h
  split at h
  · cases h
  rename_i v hv
  split at h
  · cases h
  rename_i p hp
  obtain rfl := Except.ok.inj h
  refine ⟨v, rfl, hv, ?_⟩
  intro q hq
  simp only at hq
  subst hq
  exact finish_levels _ _ _ _ _ _ _ _ hp

theorem forall₂_mapM {α β : Type} (f : α → Except PyErr β) (l : List α) (r : List β) (h : l.mapM f = .ok r) : List.Forall₂ (fun a b => f a = .ok b) l r := by
  induction l generalizing r with
  | nil =>
    rw [List.mapM_nil] at h
    obtain rfl := Except.ok.inj h
    exact .nil
  | cons a l ih =>
    rw [List.mapM_cons] at h
    simp only [bind, Except.bind, pure, Except.pure] at h
    split at h
    · cases h
    rename_i b hb
    split at h
    · cases h
    rename_i bs hbs
    obtain rfl := Except.ok.inj h
    exact .cons hb (ih bs hbs)

theorem forall₂_mem {α β : Type} (R : α → β → Prop) (l : List α) (r : List β) (h : List.Forall₂ R l r) :
    List.Forall₂ (fun a b => a ∈ l ∧ R a b) l r := by
  induction h with
  | nil => exact .nil
  | cons h _ ih => exact .cons ⟨by simp, h⟩ (List.Forall₂.imp (fun a b hab => ⟨List.mem_cons_of_mem _ hab.1, hab.2⟩) ih)

theorem zip_right {α β : Type} (l : List α) (r : List β) (h : l.length = r.length) (b : β) (hb : b ∈ r) : ∃ a, (a, b) ∈ l.zip r := by
  obtain ⟨i, hi, rfl⟩ := List.mem_iff_getElem.1 hb
  exact ⟨l[i], List.mem_iff_getElem.2 ⟨i, by simp; omega, by simp⟩⟩

theorem zip_left {α β : Type} (l : List α) (r : List β) (h : l.length = r.length) (a : α) (ha : a ∈ l) : ∃ b, (a, b) ∈ l.zip r := by
  obtain ⟨i, hi, rfl⟩ := List.mem_iff_getElem.1 ha
  exact ⟨r[i], List.mem_iff_getElem.2 ⟨i, by simp; omega, by simp⟩⟩

theorem mean_near (x e : ℚ) (l : List ℚ) (h : ∀ y ∈ l, |y - x| ≤ e) (a : ℚ) (ha : mean l = some a) : |a - x| ≤ e := by
  unfold mean at ha
  split at ha
  · cases ha
  · rename_i hl
    have hne : l ≠ [] := by simpa using hl
    have hn : (0 : ℚ) < l.length := by exact_mod_cast List.length_pos_iff.2 hne
    obtain rfl := Option.some.inj ha
    have := sum_near x e l h
    rw [show l.sum - l.length * x = l.length * (l.sum / l.length - x) by rw [mul_sub, mul_div_cancel₀ _ hn.ne'], abs_mul, abs_of_pos hn] at this
    exact le_of_mul_le_mul_left this hn

/-- **C96**: with a regular clock, and with the samples around the middle of the symbols within `e` of the level sent (on the right side of the
threshold), `calculate` completes, and measures the levels to within `e`, the amplitudes to within `2 e`, the eye height, the ratios and the closure
penalty accordingly.  The transitions are those that were sent.  A level is measured exactly if a symbol with it is sampled (unless the windows are
narrower than a sample).  Levels that are not given end up within the noise. -/
theorem C96_measures (s : Settings) (m : Level ℚ × Level ℚ) (given : Option (List (List (Option ℚ)))) (clocks : Option (List Wave))
    (cdr : List (Option ℚ) → Except PyErr (List (Option ℚ))) (mask : Option MaskFn) (rs : List Sent) (N : ℕ) (T δ lo hi e : ℚ)
    (hT : 0 < T) (hδ : 0 < δ) (hN : 2 ≤ N) (hlen : ∀ r ∈ rs, r.y.length = N) (htwo : ∃ r ∈ rs, 2 ≤ r.n)
    (he : clockEdges given clocks (rs.map (Sent.wave N δ)) (levels s.level m) s.polarity cdr s.period =
      .ok (rs.map fun r => (r.clock T).map some))
    (hskip : s.skip = false) (hr : 0 < s.resolution) (hl : Drawable s.resolution s.edgeLower) (hu : Drawable s.resolution s.edgeUpper)
    (hm : MaskOk mask s.level T δ (rs.map (·.y))) (hw : decisionWidth s.levelWidth T δ < 1)
    (h0 : lo + e ≤ (levels s.level m).half) (h1 : (levels s.level m).half < hi - e)
    (hf : ∀ r ∈ rs, Flat N T δ (decisionWidth s.levelWidth T δ) lo hi e r) :
    ∃ (a : Analysis) (v : List VOut) (start count : Sent → ℕ), calculateAll s m given clocks cdr mask (rs.map (Sent.wave N δ)) = .ok a ∧
      a.tSym = T ∧ a.v = some v ∧ (∀ nf, Measures lo hi e (vMeasures nf v)) ∧
      (∀ nf x y z, (vMeasures nf v).trans x y z = (rs.map fun r => (List.range' (start r) (count r)).countP fun k : ℕ =>
        decide (r.sym (k - 1) = x ∧ r.sym k = y ∧ r.sym (k + 1) = z)).sum) ∧
      (101 / 100 * (δ / T) ≤ s.levelWidth → ∀ nf,
        ((vMeasures nf v).y0 ≠ none ↔ ∃ r ∈ rs, ∃ k : ℕ, start r ≤ k ∧ k < start r + count r ∧ r.sym k = false) ∧
        ((vMeasures nf v).y1 ≠ none ↔ ∃ r ∈ rs, ∃ k : ℕ, start r ≤ k ∧ k < start r + count r ∧ r.sym k = true)) ∧
      (s.level.y0 = none → s.level.y1 = none → ∀ p, a.picture = some p → |p.levels.zero - lo| ≤ e ∧ |p.levels.ua - (hi - lo)| ≤ 2 * e) ∧
      ∀ r ∈ rs, start r + count r ≤ r.n ∧
        (∀ k < r.n, r.t0 + T + 4 * δ ≤ r.b + k * T → r.b + k * T ≤ r.t0 + (N - 1) * δ - T - 3 * δ → start r ≤ k ∧ k < start r + count r) ∧
        (∀ k, start r ≤ k → k < start r + count r → r.t0 + T + δ < r.b + k * T ∧ r.b + k * T < r.t0 + (N - 1) * δ - T) := by
  have hne : rs ≠ [] := by rintro rfl; simp at htwo
  have hwave : ∀ r : Sent, (r.wave N δ).1.headD 0 = r.t0 ∧ (r.wave N δ).1 ≠ [] := by
    intro r
    unfold Sent.wave
    obtain ⟨M, rfl⟩ : ∃ M, N = M + 1 := ⟨N - 1, by omega⟩
    rw [List.range_succ_eq_map]
    simp
  have hdelta : tDelta (rs.map (Sent.wave N δ)) = .ok δ := by
    obtain ⟨r, rs', rfl⟩ := List.exists_cons_of_ne_nil hne
    exact tDelta_wave N hN δ r _
  obtain ⟨a, c1, c2, c3, -⟩ := calculate_ok s m given clocks cdr mask (rs.map (Sent.wave N δ)) (rs.map (Sent.clock T)) T δ
    (by rw [he, List.map_map]; rfl) hdelta hδ (period_regular T hT rs htwo) hT (by
      intro w hw
      obtain ⟨r, -, rfl⟩ := List.mem_map.1 hw
      exact (hwave r).2) (drawGrid_ok s hr hl hu) (by rw [List.map_map]; exact hm)
  obtain ⟨v, v1, v2, v3⟩ := calculate_v s m given clocks cdr mask _ δ hdelta hskip a c1
  rw [c3, c2, List.zip_map', List.map_map] at v2
  have hall := forall₂_mapM _ _ _ v2
  rw [List.forall₂_map_left_iff] at hall
  have hall' := forall₂_mem _ _ _ (List.Forall₂.imp (S := fun r v => sampleVertical r.y (sampleEdges T δ r.t0 r.y.length (r.clock T)) δ T
    (levels s.level m).half s.levelWidth s.crossWidth = .ok v) (by
      intro r v h
      simp only [Function.comp, (hwave r).1] at h
      exact h) hall)
  clear hall v2
  have key : List.Forall₂ (fun r v => (∀ y ∈ v.y0, |y - lo| ≤ e) ∧ (∀ y ∈ v.y1, |y - hi| ≤ e) ∧ (∀ y ∈ v.y0Cross, |y - lo| ≤ e) ∧
      (∀ y ∈ v.y1Cross, |y - hi| ≤ e) ∧
      (∀ x y z, v.trans x y z = (kept T δ N r).countP fun k : ℕ => decide (r.sym (k - 1) = x ∧ r.sym k = y ∧ r.sym (k + 1) = z)) ∧
      (101 / 100 * (δ / T) ≤ s.levelWidth → (v.y0 ≠ [] ↔ ∃ k ∈ kept T δ N r, r.sym k = false) ∧
        (v.y1 ≠ [] ↔ ∃ k ∈ kept T δ N r, r.sym k = true))) rs v := by
    refine List.Forall₂.imp ?_ hall'
    rintro r v ⟨hr', hv⟩
    have := vertical_flat r T δ lo hi e (levels s.level m).half s.levelWidth s.crossWidth hT hδ hw h0 h1 (by rw [hlen r hr']; exact hf r hr') v hv
    rwa [hlen r hr'] at this
  clear hall'
  choose start count hsum hrange hin hout using fun r : Sent => kept_range T δ r.t0 r.b hT hδ N r.n
  have hkept : ∀ r, kept T δ N r = List.range' (start r) (count r) := hrange
  have flat : ∀ (f : VOut → List ℚ) (x : ℚ), (∀ r o, (r, o) ∈ rs.zip v → ∀ y ∈ f o, |y - x| ≤ e) → ∀ y ∈ v.flatMap f, |y - x| ≤ e := by
    intro f x hx y hy
    obtain ⟨o, ho, hy⟩ := List.mem_flatMap.1 hy
    obtain ⟨r, hr⟩ := zip_right _ _ key.length_eq o ho
    exact hx r o hr y hy
  have hzip := fun r o (h : (r, o) ∈ rs.zip v) => (List.forall₂_iff_zip.1 key).2 h
  have f0 := flat (·.y0) lo fun r o h => (hzip r o h).1
  have f1 := flat (·.y1) hi fun r o h => (hzip r o h).2.1
  have f2 := flat (·.y0Cross) lo fun r o h => (hzip r o h).2.2.1
  have f3 := flat (·.y1Cross) hi fun r o h => (hzip r o h).2.2.2.1
  refine ⟨a, v, start, count, c1, c2, v1, fun nf => measures_near nf lo hi e (by linarith) v f0 f1 f2 f3, ?_, ?_, ?_,
    fun r _ => ⟨hsum r, hin r, hout r⟩⟩
  · intro nf x y z
    show (v.map fun o => o.trans x y z).sum = _
    clear flat hzip f0 f1 f2 f3 v1 v3 c1 hf hlen htwo he hm hdelta hne c3
    induction key with
    | nil => rfl
    | cons h _ ih =>
      rw [List.map_cons, List.sum_cons, List.map_cons, List.sum_cons, ih, h.2.2.2.2.1, hkept]
  · intro hwide nf
    have nn : ∀ l : List ℚ, ofSamples l ≠ none ↔ l ≠ [] := by
      intro l
      constructor
      · rintro h rfl
        exact h ((describes_iff []).1 rfl)
      · intro h
        obtain ⟨u, hu, -⟩ := (describes_iff l).2 h
        rw [hu]
        simp
    have some_iff : ∀ (f : VOut → List ℚ) (b : Bool), (∀ r o, (r, o) ∈ rs.zip v → (f o ≠ [] ↔ ∃ k ∈ kept T δ N r, r.sym k = b)) →
        (ofSamples (v.flatMap f) ≠ none ↔ ∃ r ∈ rs, ∃ k : ℕ, start r ≤ k ∧ k < start r + count r ∧ r.sym k = b) := by
      intro f b hb
      rw [nn]
      constructor
      · intro h
        obtain ⟨y, hy⟩ := List.exists_mem_of_ne_nil _ h
        obtain ⟨o, ho, hy⟩ := List.mem_flatMap.1 hy
        obtain ⟨r, hr⟩ := zip_right _ _ key.length_eq o ho
        obtain ⟨k, hk, hs⟩ := (hb r o hr).1 (List.ne_nil_of_mem hy)
        rw [hkept, List.mem_range'_1] at hk
        exact ⟨r, (List.of_mem_zip hr).1, k, hk.1, hk.2, hs⟩
      · rintro ⟨r, hr, k, hk1, hk2, hs⟩
        obtain ⟨o, ho⟩ := zip_left _ _ key.length_eq r hr
        have : f o ≠ [] := (hb r o ho).2 ⟨k, by rw [hkept, List.mem_range'_1]; exact ⟨hk1, hk2⟩, hs⟩
        obtain ⟨y, hy⟩ := List.exists_mem_of_ne_nil _ this
        exact List.ne_nil_of_mem (List.mem_flatMap.2 ⟨o, (List.of_mem_zip ho).2, hy⟩)
    exact ⟨some_iff (·.y0) false fun r o h => ((hzip r o h).2.2.2.2.2 hwide).1, some_iff (·.y1) true fun r o h => ((hzip r o h).2.2.2.2.2 hwide).2⟩
  · intro n0 n1 p hp
    obtain ⟨g1, g2, -⟩ := (C61_measured_partial s.level m _ _ (Or.inl n0)).2 _ (v3 p hp)
    rw [n0, Option.none_or] at g1
    rw [n1, Option.none_or] at g2
    have k0 := abs_le.1 (mean_near lo e _ f0 _ g1)
    have k1 := abs_le.1 (mean_near hi e _ f1 _ g2)
    refine ⟨abs_le.2 k0, ?_⟩
    rw [abs_le]
    constructor <;> linarith

/-! ### Square waves -/

/-- The levels of a square wave are flat. -/
theorem square_flat (S M : ℕ) (δ y0 y1 W : ℚ) (p : Polarity) (q : Square) (hS : 0 < S) (hδ : 0 < δ) (hW : W < 1) (h2 : 2 ≤ (q.changes M p).length) :
    Flat (S * M) (S * δ) δ W y0 y1 0 (q.sent S M δ y0 y1 p) := by
  intro j hj k hk1 hk2 hd
  have hj0 : 1 ≤ (q.changes M p).headD 0 := by
    cases hl : q.changes M p with
    | nil => rw [hl] at h2; simp at h2
    | cons a l => exact (mem_changes M q p a (by rw [hl]; simp)).1
  unfold Square.sent at hd ⊢
  simp only at hd ⊢
  rw [values_get S M y0 y1 q j hj]
  obtain ⟨s, hs⟩ := Int.eq_ofNat_of_zero_le (by omega : 0 ≤ ((q.changes M p).headD 0 : ℤ) + k)
  have hdiv : j / S = s := by
    have hsq : (((q.changes M p).headD 0 : ℕ) : ℚ) + k = s := by exact_mod_cast hs
    have hSq : (0 : ℚ) < S := by exact_mod_cast hS
    unfold edgeAt at hd
    have e : q.t0 + j * δ - (q.t0 + ((((q.changes M p).headD 0 : ℕ) : ℚ) * S - 1 / 2) * δ + S * δ / 2 + k * (S * δ)) =
        (j - (s * S - 1 / 2 + S / 2)) * δ := by rw [← hsq]; ring
    rw [e, abs_mul, abs_of_pos hδ, show W * (S * δ) / 2 + δ / 2 = (W * S / 2 + 1 / 2) * δ by ring] at hd
    have hd2 := le_of_mul_le_mul_right hd hδ
    rw [abs_le] at hd2
    have hWS : W * S < S := by nlinarith
    rw [Nat.div_eq_iff hS]
    have e1 : (s : ℚ) * S < j + 1 := by linarith [hd2.1]
    have e2 : (j : ℚ) < s * S + S := by linarith [hd2.2]
    have e1' : s * S < j + 1 := by exact_mod_cast e1
    have e2' : j < s * S + S := by exact_mod_cast e2
    constructor <;> omega
  have hsym : (((q.changes M p).headD 0 : ℤ) + k).toNat = s := by rw [hs]; rfl
  simp only [hdiv, hsym]
  cases q.sym s <;> simp

theorem exact_level (x : ℝ) (m : Option UV) (h : AtLevel x 0 m) (hm : m ≠ none) : m = some ⟨x, 0⟩ := by
  obtain ⟨u, rfl⟩ := Option.ne_none_iff_exists'.1 hm
  obtain ⟨h1, h2, h3⟩ := h u rfl
  have e1 : u.value = x := by linarith [(abs_le.1 h1).1, (abs_le.1 h1).2]
  have e2 : u.stddev = 0 := le_antisymm h3 h2
  rw [← e1, ← e2]

/-- **C96 (square waves)**: from square waves of `M` symbols of `S` samples, with the clock recovered from their edges, the levels are measured
exactly, with no deviation; the eye is as high as the amplitude; and the transitions are those of the symbols, if a zero and a one are far enough from
the ends. -/
theorem C96_square (sort : List Cdr.Scored → List Cdr.Scored) (finer : List Cdr.Finer) (hsort : CdrSearch.Reorders sort)
    (hbest : CdrSearch.BestFirst sort) (s : Settings) (m : Level ℚ × Level ℚ) (mask : Option MaskFn) (qs : List Square) (S M : ℕ)
    (δ y0 y1 tSym : ℚ) (hS : 0 < S) (hδ : 0 < δ)
    (h0 : s.level.y0 = some y0) (h1 : s.level.y1 = some y1) (hth : s.level.yTh = none)
    (hh : 0 ≤ s.level.hys.getD (s.level.hysUa * (y1 - y0)) ∧ s.level.hys.getD (s.level.hysUa * (y1 - y0)) < y1 - y0)
    (hrec : ∀ q ∈ qs, q.Recoverable M s.polarity) (htwo : ∃ q ∈ qs, (q.changes M s.polarity).headD 0 + 2 ≤ (q.changes M s.polarity).getLastD 0)
    (ht : 0 < tSym) (hunit : tSym ≤ 200) (htT : |S * δ - tSym| ≤ tSym / 100)
    (hskip : s.skip = false) (hr : 0 < s.resolution) (hl : Drawable s.resolution s.edgeLower) (hu : Drawable s.resolution s.edgeUpper)
    (hm : MaskOk mask s.level (S * δ) δ (qs.map fun q => q.values S M y0 y1)) (hw : s.levelWidth < 1) (hwide : 101 / 100 ≤ s.levelWidth * S)
    (hboth : ∀ b : Bool, ∃ q ∈ qs, ∃ j, (q.changes M s.polarity).headD 0 ≤ j ∧ j < (q.changes M s.polarity).getLastD 0 ∧ S + 9 ≤ 2 * (j * S) ∧
      2 * (j * S) + 3 * S + 7 ≤ 2 * (S * M) ∧ q.sym j = b) :
    ∃ (a : Analysis) (v : List VOut) (start count : Square → ℕ),
      calculateAll s m none none (recover fun e => Cdr.runWith sort finer ⟨some tSym, false⟩ e true) mask (qs.map (Square.wave S M δ y0 y1)) = .ok a ∧
      a.tSym = S * δ ∧ a.v = some v ∧
      (∀ nf, (vMeasures nf v).y0 = some ⟨y0, 0⟩ ∧ (vMeasures nf v).y1 = some ⟨y1, 0⟩ ∧ (vMeasures nf v).amp = some ⟨y1 - y0, 0⟩ ∧
        (vMeasures nf v).height = some ⟨y1 - y0, 0⟩ ∧ (vMeasures nf v).heightR.value = some 1) ∧
      (∀ nf x y z, (vMeasures nf v).trans x y z = (qs.map fun q => (List.range' (start q) (count q)).countP fun j : ℕ =>
        decide (q.sym (j - 1) = x ∧ q.sym j = y ∧ q.sym (j + 1) = z)).sum) ∧
      ∀ q ∈ qs, Decoded S M s.polarity q (start q) (count q) := by
  have hSq : (0 : ℚ) < S := by exact_mod_cast hS
  have hT : (0 : ℚ) < S * δ := mul_pos hSq hδ
  obtain ⟨e1, e2, e3, e4, e5⟩ := manual_thresholds s.level m y0 y1 h0 h1 hth hh
  have hratio : 101 / 100 * (δ / (S * δ)) ≤ s.levelWidth := by
    rw [show δ / (S * δ) = 1 / S by field_simp, mul_one_div, div_le_iff₀ hSq]
    exact hwide
  have hdw : decisionWidth s.levelWidth (S * δ) δ < 1 := by
    unfold decisionWidth
    rw [max_eq_left hratio]
    exact hw
  have hwaves : qs.map (Square.wave S M δ y0 y1) = (qs.map (Square.sent S M δ y0 y1 s.polarity)).map (Sent.wave (S * M) δ) := by
    rw [List.map_map]
    rfl
  have hN : 2 ≤ S * M := by
    obtain ⟨q, hq, -⟩ := htwo
    have hne : q.changes M s.polarity ≠ [] := by
      intro h
      have := (hrec q hq).1
      rw [h] at this
      simp at this
    obtain ⟨j, l, hj⟩ := List.exists_cons_of_ne_nil hne
    have := mem_changes M q s.polarity j (by rw [hj]; simp)
    nlinarith
  obtain ⟨a, v, start, count, g1, g2, g3, g4, g5, g6, -, g8⟩ := C96_measures s m none none
    (recover fun e => Cdr.runWith sort finer ⟨some tSym, false⟩ e true) mask (qs.map (Square.sent S M δ y0 y1 s.polarity)) (S * M) (S * δ) δ y0 y1 0
    hT hδ hN (by
      intro r hr
      obtain ⟨q, -, rfl⟩ := List.mem_map.1 hr
      simp [Square.sent, Square.values]) (by
      obtain ⟨q, hq, h⟩ := htwo
      exact ⟨_, List.mem_map_of_mem hq, by unfold Square.sent; simp only; omega⟩) (by
      rw [← hwaves, List.map_map]
      exact clock_square sort finer hsort hbest _ s.polarity s.period S M δ y0 y1 tSym qs hS hδ e1 e2 e3 e4 e5 hrec ht hunit htT)
    hskip hr hl hu (by rw [List.map_map]; exact hm) hdw (by linarith) (by linarith) (by
      intro r hr
      obtain ⟨q, hq, rfl⟩ := List.mem_map.1 hr
      exact square_flat S M δ y0 y1 _ s.polarity q hS hδ hdw (hrec q hq).1)
  have hdec : ∀ q ∈ qs, Decoded S M s.polarity q ((q.changes M s.polarity).headD 0 + start (q.sent S M δ y0 y1 s.polarity))
      (count (q.sent S M δ y0 y1 s.polarity)) := by
    intro q hq
    obtain ⟨i1, i2, -⟩ := g8 _ (List.mem_map_of_mem hq)
    exact decoded_of S M δ y0 y1 s.polarity q hδ (hrec q hq).1 _ _ i1 i2
  refine ⟨a, v, fun q => (q.changes M s.polarity).headD 0 + start (q.sent S M δ y0 y1 s.polarity), fun q => count (q.sent S M δ y0 y1 s.polarity),
    by rw [hwaves]; exact g1, g2, g3, ?_, ?_, hdec⟩
  · intro nf
    have hex : ∀ b : Bool, ∃ r ∈ qs.map (Square.sent S M δ y0 y1 s.polarity), ∃ k : ℕ, start r ≤ k ∧ k < start r + count r ∧ r.sym k = b := by
      intro b
      obtain ⟨q, hq, j, hj1, hj2, hj3, hj4, hj5⟩ := hboth b
      obtain ⟨k1, k2⟩ := (hdec q hq).2.2 j hj1 hj2 hj3 hj4
      refine ⟨_, List.mem_map_of_mem hq, j - (q.changes M s.polarity).headD 0, by omega, by omega, ?_⟩
      rw [sym_shift, ← hj5]
      congr 1
      omega
    obtain ⟨k0, k1⟩ := g6 hratio nf
    have M4 := g4 nf
    rw [show ((0 : ℚ) : ℝ) = 0 by norm_num] at M4
    have z0 := exact_level _ _ M4.zero (k0.2 (hex false))
    have z1 := exact_level _ _ M4.one (k1.2 (hex true))
    have hs0 : Real.sqrt ((0 : ℝ) ^ 2 + 0 ^ 2) = 0 := by norm_num
    have hpos : (0 : ℝ) < y1 - y0 := by
      have : (0 : ℚ) < y1 - y0 := by linarith
      exact_mod_cast this
    have hamp : (vMeasures nf v).amp = some ⟨y1 - y0, 0⟩ := by
      show both UV.sub (vMeasures nf v).y1 (vMeasures nf v).y0 = _
      rw [z0, z1]
      show some (UV.sub _ _) = _
      simp only [UV.sub, hs0]
    have hhei : (vMeasures nf v).height = some ⟨y1 - y0, 0⟩ := by
      show both opening (vMeasures nf v).y1 (vMeasures nf v).y0 = _
      rw [z0, z1]
      show some (opening _ _) = _
      simp only [opening, UV.sub, UV.subC, UV.addC, hs0, mul_zero, sub_zero, add_zero]
    refine ⟨z0, z1, hamp, hhei, ?_⟩
    obtain ⟨amp, height, c1, c2, -, -, -, -, c5, -⟩ := C63_vertical nf v _ _ z0 z1
    rw [hamp] at c1
    rw [hhei] at c2
    obtain rfl := Option.some.inj c1
    obtain rfl := Option.some.inj c2
    obtain ⟨r, hr1, hr2, -⟩ := c5 hpos
    rw [hr1, mul_right_cancel₀ hpos.ne' (hr2.trans (one_mul _).symm)]
  · intro nf x y z
    rw [g5, List.map_map]
    congr 1
    apply List.map_congr_left
    intro q hq
    have hj0 := (head_le_last M s.polarity q (hrec q hq).1).1
    simp only [Function.comp, range'_shift, List.countP_map]
    apply List.countP_congr
    intro k _
    have hk1 : (q.sent S M δ y0 y1 s.polarity).sym k = q.sym ((q.changes M s.polarity).headD 0 + k) := sym_shift ..
    have hk2 : (q.sent S M δ y0 y1 s.polarity).sym (k - 1) = q.sym ((q.changes M s.polarity).headD 0 + k - 1) := sym_pred _ _ _ _ _ _ _ _ hj0
    have hk3 : (q.sent S M δ y0 y1 s.polarity).sym (k + 1) = q.sym ((q.changes M s.polarity).headD 0 + k + 1) := by
      have := sym_shift S M δ y0 y1 s.polarity q (k + 1)
      push_cast at this
      rw [this, add_assoc]
    simp only [Function.comp, hk1, hk2, hk3]

/-! ### Examples -/

/-- Symbols of four samples, zero and one in turn, with noise of 1/10. -/
def exNoisy : Sent := ⟨0, (List.range 40).map fun i : ℕ => (if i / 4 % 2 = 1 then 1 else 0) + (((i % 3 : ℕ) : ℚ) - 1) / 10, 11 / 2, 8, fun k => k % 2 == 0⟩

/-- Settings with automatic levels. -/
def exAuto : Settings := { exSettings (4 / 5) with level := ⟨none, none, none, none, 1 / 10⟩, levelWidth := 3 / 10 }

/-- The hypotheses of C96 are met. -/
example : ∃ (a : Analysis) (v : List VOut) (u : UV),
    calculateAll exAuto (⟨0, 1 / 20⟩, ⟨1, 1 / 20⟩) (some [(exNoisy.clock 4).map some]) none (fun _ => .ok []) none [exNoisy.wave 40 1] = .ok a ∧
    a.v = some v ∧ (vMeasures 0 v).y1 = some u ∧ |u.value - 1| ≤ 1 / 10 ∧ u.stddev ≤ 1 / 10 := by
  obtain ⟨a, v, start, count, h1, -, h3, h4, -, h6, -, h8⟩ := C96_measures exAuto (⟨0, 1 / 20⟩, ⟨1, 1 / 20⟩) (some [(exNoisy.clock 4).map some]) none
    (fun _ => .ok []) none [exNoisy] 40 4 1 0 1 (1 / 10) (by norm_num) (by norm_num) (by norm_num) (by
      intro r hr
      obtain rfl := List.mem_singleton.1 hr
      decide +kernel) ⟨exNoisy, by simp, by decide⟩ rfl rfl (by decide) (by unfold Drawable; decide +kernel) (by unfold Drawable; decide +kernel)
    (by intro f hf; cases hf) (by decide +kernel) (by decide +kernel) (by decide +kernel) (by
      intro r hr
      obtain rfl := List.mem_singleton.1 hr
      intro j hj k hk1 hk2
      obtain ⟨i, hi⟩ := Int.eq_ofNat_of_zero_le (by omega : 0 ≤ k + 1)
      obtain rfl : k = (i : ℤ) - 1 := by omega
      have hi8 : i < 10 := by
        have : exNoisy.n = 8 := rfl
        omega
      have key : ∀ j < 40, ∀ i < 10, |exNoisy.t0 + (j : ℕ) * 1 - (exNoisy.b + (((i : ℕ) : ℤ) - 1 : ℤ) * 4)| ≤
          decisionWidth exAuto.levelWidth 4 1 * 4 / 2 + 1 / 2 →
          |exNoisy.y.getD j 0 - (if exNoisy.sym ((i : ℤ) - 1) = true then 1 else 0)| ≤ 1 / 10 := by decide +kernel
      exact key j hj i hi8)
  obtain ⟨-, g2, -⟩ := h8 exNoisy (by simp)
  obtain ⟨k1, k2⟩ := g2 2 (by decide) (by norm_num [exNoisy]) (by norm_num [exNoisy])
  obtain ⟨u, hu⟩ := Option.ne_none_iff_exists'.1 ((h6 (by norm_num [exAuto]) 0).2.2 ⟨exNoisy, by simp, 2, k1, k2, by decide⟩)
  obtain ⟨b1, -, b3⟩ := (h4 0).one u hu
  exact ⟨a, v, u, h1, h3, hu, by push_cast at b1; exact b1, by push_cast at b3; exact b3⟩

/-- The hypotheses for square waves are met. -/
example : ∃ (a : Analysis) (v : List VOut),
    calculateAll (exSettings (4 / 5)) (⟨0, 0⟩, ⟨0, 0⟩) none none
      (recover fun e => Cdr.runWith (·.mergeSort CdrSearch.byScore) [] ⟨some (201 / 200), false⟩ e true) none [exSquare.wave 10 10 (1 / 10) 0 1] = .ok a ∧
    a.v = some v ∧ (vMeasures 0 v).heightR.value = some 1 := by
  have hch : exSquare.changes 10 .falling = [2, 4, 8] := by decide +kernel
  obtain ⟨a, v, -, -, h1, -, h3, h4, -⟩ := C96_square (·.mergeSort CdrSearch.byScore) [] CdrSearch.mergeSort_sorts.1 CdrSearch.mergeSort_sorts.2
    (exSettings (4 / 5)) (⟨0, 0⟩, ⟨0, 0⟩) none [exSquare] 10 10 (1 / 10) 0 1 (201 / 200) (by norm_num) (by norm_num) rfl rfl rfl
    (by norm_num [exSettings]) (by
      intro q hq
      obtain rfl := List.mem_singleton.1 hq
      unfold Square.Recoverable
      rw [show (exSettings (4 / 5)).polarity = .falling from rfl, hch]
      decide) ⟨exSquare, by simp, by rw [show (exSettings (4 / 5)).polarity = .falling from rfl, hch]; decide⟩
    (by norm_num) (by norm_num) (by rw [abs_le]; norm_num) rfl (by decide) (by unfold Drawable; decide +kernel) (by unfold Drawable; decide +kernel)
    (by intro f hf; cases hf) (by norm_num [exSettings]) (by norm_num [exSettings]) (by
      rw [show (exSettings (4 / 5)).polarity = .falling from rfl]
      intro b
      refine ⟨exSquare, by simp, if b then 3 else 2, ?_⟩
      rw [hch]
      cases b <;> decide)
  exact ⟨a, v, h1, h3, (h4 0).2.2.2.2⟩

end Verif.Props.NoisyLevels
