import Verif.Model.Pam2Measures
import Verif.Props.Pam2Horizontal
import Mathlib.Analysis.Real.Sqrt
import Mathlib.Tactic.FieldSimp

/-!
C63: the measures derived from the samples of the PAM2 eye diagram.
-/

namespace Verif.Props.Pam2Measures

open Verif Verif.Eye Verif.Stats Verif.Pam2 Verif.Props.EyeWindow Verif.Props.EyeMask Verif.Props.Pam2Vertical Verif.Props.Pam2Horizontal

/-! ### Specification -/

/-- `v` is the mean of the samples, with their population standard deviation. -/
def Describes (v : UV) (l : List ℚ) : Prop :=
  l ≠ [] ∧ v.value * l.length = ((l.sum : ℚ) : ℝ) ∧ 0 ≤ v.stddev ∧ v.stddev ^ 2 * l.length = (l.map fun x : ℚ => ((x : ℝ) - v.value) ^ 2).sum

theorem describes_iff (l : List ℚ) : (l = [] → ofSamples l = none) ∧ (l ≠ [] → ∃ v, ofSamples l = some v ∧ Describes v l) := by
  constructor
  · rintro rfl
    simp [ofSamples, UV.samples]
  · intro h
    have hl : 0 < l.length := List.length_pos_iff.2 h
    have hl' : (0 : ℝ) < l.length := by exact_mod_cast hl
    have hs : (l.map fun x : ℚ => (x : ℝ)).sum = ((l.sum : ℚ) : ℝ) := by
      clear h hl hl'
      induction l with
      | nil => simp
      | cons a l ih => rw [List.map_cons, List.sum_cons, List.sum_cons, ih]; push_cast; rfl
    unfold ofSamples UV.samples
    rw [List.length_map, if_neg (by omega), hs]
    refine ⟨_, rfl, h, ?_, Real.sqrt_nonneg _, ?_⟩
    · simp only
      rw [div_mul_cancel₀ _ hl'.ne']
    · simp only [List.map_map]
      rw [Real.sq_sqrt, div_mul_cancel₀ _ hl'.ne']
      · congr 1
        apply List.map_congr_left
        intro x _
        simp only [Function.comp]
        ring
      · apply div_nonneg _ hl'.le
        apply List.sum_nonneg
        intro x hx
        obtain ⟨y, -, rfl⟩ := List.mem_map.1 hx
        exact mul_self_nonneg _

theorem describes_of (l : List ℚ) (v : UV) (h : ofSamples l = some v) : Describes v l := by
  by_cases hl : l = []
  · rw [(describes_iff l).1 hl] at h
    cases h
  · obtain ⟨w, h1, h2⟩ := (describes_iff l).2 hl
    rw [h1] at h
    rw [← Option.some.inj h]
    exact h2

/-! ### C63: vertical measures -/

/-- C63: the levels are the means of the samples of all waveforms; nan without samples. -/
theorem C63_levels (nf : ℝ) (o : List VOut) :
    ∀ p ∈ ([((vMeasures nf o).y0, o.flatMap (·.y0)), ((vMeasures nf o).y1, o.flatMap (·.y1)), ((vMeasures nf o).cross, o.flatMap (·.cross)),
      ((vMeasures nf o).y0Cross, o.flatMap (·.y0Cross)), ((vMeasures nf o).y1Cross, o.flatMap (·.y1Cross)),
      ((vMeasures nf o).avg, o.flatMap (·.avg))] : List (Option UV × List ℚ)),
      (p.2 = [] → p.1 = none) ∧ (p.2 ≠ [] → ∃ v, p.1 = some v ∧ Describes v p.2) := by
  intro p hp
  simp only [List.mem_cons, List.not_mem_nil, or_false] at hp
  rcases hp with rfl | rfl | rfl | rfl | rfl | rfl <;> exact describes_iff _

/-- C63: amplitude, eye height, signal to noise ratio, and their relation. -/
theorem C63_vertical (nf : ℝ) (o : List VOut) (y0 y1 : UV) (h0 : (vMeasures nf o).y0 = some y0) (h1 : (vMeasures nf o).y1 = some y1) :
    ∃ amp height, (vMeasures nf o).amp = some amp ∧ (vMeasures nf o).height = some height ∧
      amp.value = y1.value - y0.value ∧ amp.stddev ^ 2 = y1.stddev ^ 2 + y0.stddev ^ 2 ∧
      height.value = amp.value - 3 * (y1.stddev + y0.stddev) ∧ height.value ≤ amp.value ∧
      (0 < amp.value → ∃ r, (vMeasures nf o).heightR.value = some r ∧ r * amp.value = height.value ∧ r ≤ 1 ∧ (0 ≤ r ↔ 0 ≤ height.value)) ∧
      (∀ s, (vMeasures nf o).snr.value = some s → s * (y1.stddev + y0.stddev) = amp.value ∧
        (0 < amp.value → ∃ r, (vMeasures nf o).heightR.value = some r ∧ r = 1 - 3 / s)) ∧
      (∀ c, (vMeasures nf o).cross = some c → amp.value ≠ 0 → ∃ r, (vMeasures nf o).crossR.value = some r ∧ y0.value + r * amp.value = c.value) ∧
      (y0.value ≠ nf → ∃ r, (vMeasures nf o).extinction.value = some r ∧ r * (y0.value - nf) = y1.value - nf) := by
  obtain ⟨-, -, p0, -⟩ := describes_of _ _ h0
  obtain ⟨-, -, p1, -⟩ := describes_of _ _ h1
  have ha : (vMeasures nf o).amp = some (y1.sub y0) := by
    show both UV.sub (vMeasures nf o).y1 (vMeasures nf o).y0 = _
    rw [h0, h1]
    rfl
  have hh : (vMeasures nf o).height = some (opening y1 y0) := by
    show both opening (vMeasures nf o).y1 (vMeasures nf o).y0 = _
    rw [h0, h1]
    rfl
  have hr : (vMeasures nf o).heightR = nvDiv (opening y1 y0) (y1.sub y0) := by
    show bothDiv (vMeasures nf o).height (vMeasures nf o).amp = _
    rw [ha, hh]
    rfl
  have hs : (vMeasures nf o).snr = nvDivC (y1.sub y0) (y1.stddev + y0.stddev) := by
    show ((both (fun b a => nvDivC (b.sub a) (b.stddev + a.stddev)) (vMeasures nf o).y1 (vMeasures nf o).y0)).getD NV.nan = _
    rw [h0, h1]
    rfl
  have hv : (opening y1 y0).value = (y1.sub y0).value - 3 * (y1.stddev + y0.stddev) := by
    simp only [opening, UV.sub, UV.subC, UV.addC]
    ring
  refine ⟨_, _, ha, hh, rfl, ?_, hv, by rw [hv]; linarith, ?_, ?_, ?_, ?_⟩
  · simp only [UV.sub]
    rw [Real.sq_sqrt (by positivity)]
  · intro hp
    rw [hr]
    refine ⟨(opening y1 y0).value / (y1.sub y0).value, ?_, div_mul_cancel₀ _ hp.ne', ?_, ?_⟩
    · simp only [nvDiv, npDiv, if_neg hp.ne']
    · rw [div_le_one hp, hv]
      linarith
    · rw [le_div_iff₀ hp, zero_mul]
  · intro s hsv
    rw [hs] at hsv
    simp only [nvDivC, npDiv] at hsv
    split at hsv
    · cases hsv
    · rename_i hne
      obtain rfl := Option.some.inj hsv
      refine ⟨div_mul_cancel₀ _ hne, fun hp => ?_⟩
      rw [hr]
      refine ⟨(opening y1 y0).value / (y1.sub y0).value, ?_, ?_⟩
      · simp only [nvDiv, npDiv, if_neg hp.ne']
      · rw [hv]
        field_simp
  · intro c hc hne
    have : (vMeasures nf o).crossR = nvDiv (c.sub y0) (y1.sub y0) := by
      show bothDiv (both UV.sub (vMeasures nf o).cross (vMeasures nf o).y0) (vMeasures nf o).amp = _
      rw [ha, hc, h0]
      rfl
    rw [this]
    refine ⟨(c.sub y0).value / (y1.sub y0).value, ?_, ?_⟩
    · simp only [nvDiv, npDiv, if_neg hne]
    · rw [div_mul_cancel₀ _ hne]
      simp only [UV.sub]
      ring
  · intro hne
    have : (vMeasures nf o).extinction = nvDiv (y1.subC nf) (y0.subC nf) := by
      show bothDiv ((vMeasures nf o).y1.map fun a => a.subC nf) ((vMeasures nf o).y0.map fun a => a.subC nf) = _
      rw [h0, h1]
      rfl
    have hne' : y0.value - nf ≠ 0 := sub_ne_zero.2 hne
    rw [this]
    refine ⟨(y1.value - nf) / (y0.value - nf), ?_, div_mul_cancel₀ _ hne'⟩
    exact if_neg hne'

theorem flatMap_le {α : Type} (half : ℚ) (l : List α) (f : α → List ℚ) (h : ∀ a ∈ l, (f a).sum ≤ half * (f a).length) :
    (l.flatMap f).sum ≤ half * (l.flatMap f).length := by
  induction l with
  | nil => simp
  | cons a l ih =>
    have h1 := h a (by simp)
    have h2 := ih fun x hx => h x (List.mem_cons_of_mem _ hx)
    rw [List.flatMap_cons, List.sum_append, List.length_append]
    push_cast
    linarith

theorem flatMap_lt {α : Type} (half : ℚ) (l : List α) (f : α → List ℚ) (h : ∀ a ∈ l, f a = [] ∨ half * (f a).length < (f a).sum)
    (hne : l.flatMap f ≠ []) : half * (l.flatMap f).length < (l.flatMap f).sum := by
  induction l with
  | nil => exact absurd rfl hne
  | cons a l ih =>
    rw [List.flatMap_cons] at hne ⊢
    by_cases hl : l.flatMap f = []
    · rw [hl, List.append_nil] at hne ⊢
      exact (h a (by simp)).resolve_left hne
    · have h2 := ih (fun x hx => h x (List.mem_cons_of_mem _ hx)) hl
      rw [List.sum_append, List.length_append]
      push_cast
      rcases h a (by simp) with h1 | h1
      · rw [h1]
        simp only [List.sum_nil, List.length_nil, Nat.cast_zero]
        linarith
      · linarith

/-- C63: with the samples of the levels taken from the windows the decision is made on (at least a bit wider than a sample period and less than a
symbol), the level of a 0 is not above the threshold and that of a 1 is: the amplitude is positive. -/
theorem C63_amplitude (nf : ℝ) (wfs : List (List ℚ × List Center)) (o : List VOut) (T δ half lw cw : ℚ) (hT : 0 < T) (hδ : 0 < δ)
    (hw : 101 / 100 * (δ / T) ≤ lw) (hw1 : lw < 1) (hc : ∀ w ∈ wfs, ∀ c ∈ w.2, Inside T δ w.1.length c)
    (ho : List.Forall₂ (fun w v => sampleVertical w.1 w.2 δ T half lw cw = .ok v) wfs o) :
    (∀ y0, (vMeasures nf o).y0 = some y0 → y0.value ≤ half) ∧ (∀ y1, (vMeasures nf o).y1 = some y1 → half < y1.value) ∧
    ∀ amp, (vMeasures nf o).amp = some amp → 0 < amp.value := by
  have hd : decisionWidth lw T δ = lw := max_eq_left hw
  have each : ∀ v ∈ o, v.y0.sum ≤ half * v.y0.length ∧ (v.y1 = [] ∨ half * v.y1.length < v.y1.sum) := by
    intro v hv
    obtain ⟨w, hwm, he⟩ : ∃ w ∈ wfs, sampleVertical w.1 w.2 δ T half lw cw = .ok v := by
      clear hc
      induction ho with
      | nil => cases hv
      | cons h _ ih =>
        rcases List.mem_cons.1 hv with rfl | hv
        · exact ⟨_, by simp, h⟩
        · obtain ⟨w, h1, h2⟩ := ih hv
          exact ⟨w, List.mem_cons_of_mem _ h1, h2⟩
    obtain ⟨v', h1, -, -, h0, h1', -⟩ := C44_symbols w.1 w.2 T δ half lw cw hT hδ (hc w hwm)
    obtain rfl : v' = v := by rw [h1] at he; exact Except.ok.inj he
    have hlog : ∀ c, logic w.1 T δ half lw (1 / 2) c = isHigh half (near (around w.1 T δ c) (1 / 2) lw) := by
      intro c
      unfold logic
      rw [hd, C44_windows _ lw hw1 (1 / 2) (by simp)]
    constructor
    · rw [h0]
      apply flatMap_le
      intro c hc
      have := (List.mem_filter.1 hc).2
      rw [hlog] at this
      simp only [isHigh, Bool.not_eq_true', decide_eq_false_iff_not, not_and, not_lt] at this
      by_cases hn : near (around w.1 T δ c) (1 / 2) lw = []
      · rw [hn]; simp
      · have hp : (0 : ℚ) < (near (around w.1 T δ c) (1 / 2) lw).length := by exact_mod_cast List.length_pos_iff.2 hn
        exact (div_le_iff₀ hp).1 (this hn)
    · rw [h1']
      by_cases hn : (w.2.filter fun c => logic w.1 T δ half lw (1 / 2) c).flatMap (fun c => near (around w.1 T δ c) (1 / 2) lw) = []
      · exact Or.inl hn
      · right
        apply flatMap_lt _ _ _ _ hn
        intro c hc
        right
        have := (List.mem_filter.1 hc).2
        rw [hlog] at this
        simp only [isHigh, decide_eq_true_iff] at this
        have hp : (0 : ℚ) < (near (around w.1 T δ c) (1 / 2) lw).length := by exact_mod_cast List.length_pos_iff.2 this.1
        exact (lt_div_iff₀ hp).1 this.2
  have r0 : ∀ y0, (vMeasures nf o).y0 = some y0 → y0.value ≤ half := by
    intro y0 h
    obtain ⟨g1, g2, -⟩ := describes_of _ _ h
    have hl : (0 : ℝ) < (o.flatMap (·.y0)).length := by exact_mod_cast List.length_pos_iff.2 g1
    have := flatMap_le half o (·.y0) fun v hv => (each v hv).1
    have : (((o.flatMap (·.y0)).sum : ℚ) : ℝ) ≤ half * (o.flatMap (·.y0)).length := by exact_mod_cast this
    by_contra hcon
    push Not at hcon
    nlinarith
  have r1 : ∀ y1, (vMeasures nf o).y1 = some y1 → half < y1.value := by
    intro y1 h
    obtain ⟨g1, g2, -⟩ := describes_of _ _ h
    have hl : (0 : ℝ) < (o.flatMap (·.y1)).length := by exact_mod_cast List.length_pos_iff.2 g1
    have := flatMap_lt half o (·.y1) (fun v hv => (each v hv).2) g1
    have : (half : ℝ) * (o.flatMap (·.y1)).length < ((o.flatMap (·.y1)).sum : ℚ) := by exact_mod_cast this
    by_contra hcon
    push Not at hcon
    nlinarith
  refine ⟨r0, r1, ?_⟩
  intro amp h
  have h : both UV.sub (vMeasures nf o).y1 (vMeasures nf o).y0 = some amp := h
  cases h0 : (vMeasures nf o).y0 with
  | none => rw [h0] at h; cases hh : (vMeasures nf o).y1 <;> rw [hh] at h <;> cases h
  | some y0 =>
    cases h1 : (vMeasures nf o).y1 with
    | none => rw [h0, h1] at h; cases h
    | some y1 =>
      rw [h0, h1] at h
      obtain rfl : y1.sub y0 = amp := Option.some.inj h
      have := r0 y0 h0
      have := r1 y1 h1
      show 0 < y1.value - y0.value
      linarith

/-- Two samples around the centre of a symbol, of which only one is in a window of a sample period. -/
def exNarrow : List ℚ := [0, 0, 0, 0, 0, 0, 0, 0, 3, 0, 0, 0, 0, 0, 0, 0]

/-- C63 fails for windows narrower than a bit more than a sample period, which are widened for the decision but not for the levels: the samples of
the only symbol decided to be a 1 are below the threshold. -/
theorem C63_narrow_fails : ∃ (ys : List ℚ) (c : Center) (T δ half lw cw : ℚ), 0 < T ∧ 0 < δ ∧ 0 < lw ∧ Inside T δ ys.length c ∧
    ∃ v, sampleVertical ys [c] δ T half lw cw = .ok v ∧ v.y1 = [0] ∧ v.y0 = [] ∧ 0 < half := by
  have hi : ∀ c ∈ ([⟨7, -499 / 1000⟩] : List Center), Inside 4 1 exNarrow.length c := by unfold Inside; decide +kernel
  obtain ⟨v, h1, -, -, h2, h3, -⟩ := C44_symbols exNarrow [⟨7, -499 / 1000⟩] 4 1 1 (1 / 4) (1 / 4) (by norm_num) (by norm_num) hi
  exact ⟨exNarrow, ⟨7, -499 / 1000⟩, 4, 1, 1, 1 / 4, 1 / 4, by norm_num, by norm_num, by norm_num, hi _ (by simp), v, h1,
    h3.trans (by decide +kernel), h2.trans (by decide +kernel), by norm_num⟩

theorem describes_const (x : ℚ) : ofSamples [x] = some ⟨x, 0⟩ := by
  simp [ofSamples, UV.samples]

/-- C63: the documented range 0 to 1 of the extinction ratio is that of its inverse; ratios of signals are above 1. -/
theorem C63_extinction_fails : ∃ (o : List VOut), (vMeasures 0 o).extinction.value = some 10 ∧
    (∃ y, (vMeasures 0 o).y0 = some y ∧ y.value = 1) ∧ ∃ y, (vMeasures 0 o).y1 = some y ∧ y.value = 10 := by
  have e0 : (vMeasures 0 [{ VOut.empty with y0 := [1], y1 := [10] }]).y0 = some ⟨1, 0⟩ := by
    have := describes_const 1
    simpa [vMeasures] using this
  have e1 : (vMeasures 0 [{ VOut.empty with y0 := [1], y1 := [10] }]).y1 = some ⟨10, 0⟩ := by
    have := describes_const 10
    simpa [vMeasures] using this
  refine ⟨_, ?_, ⟨_, e0, rfl⟩, ⟨_, e1, rfl⟩⟩
  obtain ⟨-, -, -, -, -, -, -, -, -, -, -, h⟩ := C63_vertical 0 _ _ _ e0 e1
  obtain ⟨r, hr, h⟩ := h (by norm_num)
  rw [hr]
  simp only at h
  have : r = 10 := by linarith
  rw [this]

/-! ### C63: horizontal measures -/

/-- C63: durations, rise and fall times, distortion. -/
theorem C63_horizontal (T : ℚ) (o : List HOut) (rise fall : UV) (hr : (hMeasures T o).t1Start = some rise)
    (hf : (hMeasures T o).t0Start = some fall) :
    Describes rise ((o.flatMap (·.riseHalf)).map (· * T)) ∧ Describes fall ((o.flatMap (·.fallHalf)).map (· * T)) ∧
    ∃ t0 t1 dcd, (hMeasures T o).t0 = some t0 ∧ (hMeasures T o).t1 = some t1 ∧ (hMeasures T o).dcd = some dcd ∧
      t0.value = T - (fall.value - rise.value) ∧ t1.value = T + (fall.value - rise.value) ∧ t0.value + t1.value = 2 * T ∧
      dcd.value = fall.value - rise.value ∧ dcd.value = t1.value - T ∧
      ∀ t, (hMeasures T o).tSym = some t → t.value ≠ 0 → ∃ r, (hMeasures T o).dcdR.value = some r ∧ r * t.value = dcd.value := by
  have h0 : (hMeasures T o).t0 = some ((rise.sub fall).addC T) := by
    show both (fun r f => (r.sub f).addC (T : ℝ)) (hMeasures T o).t1Start (hMeasures T o).t0Start = _
    rw [hr, hf]
    rfl
  have h1 : (hMeasures T o).t1 = some ((fall.sub rise).addC T) := by
    show both (fun r f => (r.sub f).addC (T : ℝ)) (hMeasures T o).t0Start (hMeasures T o).t1Start = _
    rw [hr, hf]
    rfl
  have hd : (hMeasures T o).dcd = some (let d := ((fall.sub rise).addC T).sub ((rise.sub fall).addC T); ⟨d.value / 2, d.stddev / |2|⟩) := by
    show both (fun a b => (⟨(a.sub b).value / 2, (a.sub b).stddev / |2|⟩ : UV)) (hMeasures T o).t1 (hMeasures T o).t0 = _
    rw [h0, h1]
    rfl
  refine ⟨describes_of _ _ hr, describes_of _ _ hf, _, _, _, h0, h1, hd, ?_, ?_, ?_, ?_, ?_, ?_⟩
  · simp only [UV.sub, UV.addC]; ring
  · simp only [UV.sub, UV.addC]; ring
  · simp only [UV.sub, UV.addC]; ring
  · simp only [UV.sub, UV.addC]; ring
  · simp only [UV.sub, UV.addC]; ring
  · intro t ht hne
    have : (hMeasures T o).dcdR = bothDiv (hMeasures T o).dcd (hMeasures T o).tSym := rfl
    rw [this, hd, ht]
    simp only [bothDiv, both, bind, Option.bind, pure, Option.getD, nvDiv, npDiv, if_neg hne]
    exact ⟨_, rfl, div_mul_cancel₀ _ hne⟩

/-- C63: rise and fall times are the differences of the mean times of the outer and inner levels. -/
theorem C63_edges (T : ℚ) (o : List HOut) :
    (∀ a b, ofSamples ((o.flatMap (·.riseLower)).map (· * T)) = some a → ofSamples ((o.flatMap (·.riseUpper)).map (· * T)) = some b →
      (hMeasures T o).tRiseStart = some a ∧ ∃ t, (hMeasures T o).tRise = some t ∧ t.value = b.value - a.value) ∧
    ∀ a b, ofSamples ((o.flatMap (·.fallUpper)).map (· * T)) = some a → ofSamples ((o.flatMap (·.fallLower)).map (· * T)) = some b →
      (hMeasures T o).tFallStart = some a ∧ ∃ t, (hMeasures T o).tFall = some t ∧ t.value = b.value - a.value := by
  constructor
  · intro a b ha hb
    refine ⟨ha, b.sub a, ?_, rfl⟩
    show both UV.sub (ofSamples ((o.flatMap (·.riseUpper)).map (· * T))) (ofSamples ((o.flatMap (·.riseLower)).map (· * T))) = _
    rw [ha, hb]
    rfl
  · intro a b ha hb
    refine ⟨ha, b.sub a, ?_, rfl⟩
    show both UV.sub (ofSamples ((o.flatMap (·.fallLower)).map (· * T))) (ofSamples ((o.flatMap (·.fallUpper)).map (· * T))) = _
    rw [ha, hb]
    rfl

/-- Crossing times are in the left and the right half of the eye diagram. -/
def Crossing (v : HOut) : Prop := (∀ t ∈ v.crossLeft, -1 / 2 ≤ t ∧ t ≤ 1 / 2) ∧ ∀ t ∈ v.crossRight, 1 / 2 < t ∧ t ≤ 3 / 2

/-- C45: the crossing times of the samples are (fallback and compiled version). -/
theorem C45_crossing (mem : ℤ → ℚ) (ys : List ℚ) (syms : List (Center × ℤ)) (T δ yZero yUa : ℚ) (yCross : Option ℚ) (height lower upper : ℚ)
    (hT : 0 < T) (hδ : 0 < δ) (hc : ∀ s ∈ syms, Inside T δ ys.length s.1) :
    (∀ v, sampleHorizontal ys (syms.map Prod.fst) (syms.map Prod.snd) δ T yZero yUa yCross height lower upper = .ok v → Crossing v) ∧
    Crossing (sampleHorizontalC mem ys (syms.map Prod.fst) (syms.map Prod.snd) δ T yZero yUa yCross height lower upper) := by
  obtain ⟨v, lo, hi, hv, -, -, -, -, -, -, -, hs, hn⟩ := C45_samples ys syms T δ yZero yUa yCross height lower upper hT hδ hc
  have key : Crossing v := by
    cases yCross with
    | none =>
      obtain ⟨h1, h2⟩ := hn rfl
      unfold Crossing
      rw [h1, h2]
      simp
    | some y =>
      obtain ⟨h1, h2⟩ := hs y rfl
      unfold Crossing
      rw [h1, h2]
      constructor
      · intro t ht
        obtain ⟨s, -, ht⟩ := List.mem_flatMap.1 ht
        exact of_decide_eq_true (List.mem_filter.1 ht).2
      · intro t ht
        obtain ⟨s, -, ht⟩ := List.mem_flatMap.1 ht
        exact of_decide_eq_true (List.mem_filter.1 ht).2
  refine ⟨fun w hw => ?_, ?_⟩
  · obtain rfl : v = w := by rw [hv] at hw; exact Except.ok.inj hw
    exact key
  · obtain ⟨-, -, -, -, -, -, h⟩ := C45_compiled mem ys syms T δ yZero yUa yCross height lower upper hT hδ hc
    obtain ⟨h1, h2⟩ := h v hv
    unfold Crossing at key ⊢
    rw [h1, h2]
    exact key

theorem mean_bounds (l : List ℚ) (v : UV) (a b : ℚ) (h : Describes v l) (hl : ∀ x ∈ l, a ≤ x ∧ x ≤ b) : (a : ℝ) ≤ v.value ∧ v.value ≤ b := by
  obtain ⟨h1, h2, -⟩ := h
  have hp : (0 : ℝ) < l.length := by exact_mod_cast List.length_pos_iff.2 h1
  have : ∀ m : List ℚ, (∀ x ∈ m, a ≤ x ∧ x ≤ b) → a * m.length ≤ m.sum ∧ m.sum ≤ b * m.length := by
    intro m
    induction m with
    | nil => simp
    | cons x m ih =>
      intro hm
      have h1 := hm x (by simp)
      have h2 := ih fun y hy => hm y (List.mem_cons_of_mem _ hy)
      rw [List.sum_cons, List.length_cons]
      push_cast
      constructor <;> linarith [h1.1, h1.2, h2.1, h2.2]
  obtain ⟨k1, k2⟩ := this l hl
  have k1' : (a : ℝ) * l.length ≤ (l.sum : ℚ) := by exact_mod_cast k1
  have k2' : ((l.sum : ℚ) : ℝ) ≤ b * l.length := by exact_mod_cast k2
  constructor
  · by_contra hcon; push Not at hcon; nlinarith
  · by_contra hcon; push Not at hcon; nlinarith

theorem mean_above (l : List ℚ) (v : UV) (a : ℚ) (h : Describes v l) (hl : ∀ x ∈ l, a < x) : (a : ℝ) < v.value := by
  obtain ⟨h1, h2, -⟩ := h
  have hp : (0 : ℝ) < l.length := by exact_mod_cast List.length_pos_iff.2 h1
  have : ∀ m : List ℚ, m ≠ [] → (∀ x ∈ m, a < x) → a * m.length < m.sum := by
    intro m
    induction m with
    | nil => intro h; exact absurd rfl h
    | cons x m ih =>
      intro _ hm
      have h1 := hm x (by simp)
      rw [List.sum_cons, List.length_cons]
      push_cast
      by_cases hn : m = []
      · subst hn
        simp only [List.length_nil, Nat.cast_zero, List.sum_nil]
        linarith
      · have h2 := ih hn fun y hy => hm y (List.mem_cons_of_mem _ hy)
        linarith
  have k1 := this l h1 hl
  have k1' : (a : ℝ) * l.length < (l.sum : ℚ) := by exact_mod_cast k1
  by_contra hcon
  push Not at hcon
  nlinarith

/-- C63: the measured duration of a symbol is positive and at most two symbols, the frequency is its inverse, and the eye is not wider than it. -/
theorem C63_period (T : ℚ) (hT : 0 < T) (o : List HOut) (hc : ∀ v ∈ o, Crossing v) (left right : UV)
    (hl : ofSamples ((o.flatMap (·.crossLeft)).map (· * T)) = some left)
    (hr : ofSamples ((o.flatMap (·.crossRight)).map (· * T)) = some right) :
    (hMeasures T o).tCross = some left ∧ -((T : ℝ) / 2) ≤ left.value ∧ left.value ≤ T / 2 ∧
    ∃ t w, (hMeasures T o).tSym = some t ∧ (hMeasures T o).width = some w ∧ t.value = right.value - left.value ∧ 0 < t.value ∧ t.value ≤ 2 * T ∧
      w.value = t.value - 3 * (right.stddev + left.stddev) ∧
      (∃ f, (hMeasures T o).fSym.value = some f ∧ f * t.value = 1 ∧ 0 < f) ∧
      ∃ r, (hMeasures T o).widthR.value = some r ∧ r * t.value = w.value ∧ r ≤ 1 := by
  have dl := describes_of _ _ hl
  have dr := describes_of _ _ hr
  have bl := mean_bounds _ left (-(1 / 2) * T) (1 / 2 * T) dl (by
    intro x hx
    obtain ⟨y, hy, rfl⟩ := List.mem_map.1 hx
    obtain ⟨v, hv, hy⟩ := List.mem_flatMap.1 hy
    obtain ⟨h1, h2⟩ := (hc v hv).1 y hy
    constructor <;> nlinarith)
  have br := mean_bounds _ right (1 / 2 * T) (3 / 2 * T) dr (by
    intro x hx
    obtain ⟨y, hy, rfl⟩ := List.mem_map.1 hx
    obtain ⟨v, hv, hy⟩ := List.mem_flatMap.1 hy
    obtain ⟨h1, h2⟩ := (hc v hv).2 y hy
    constructor <;> nlinarith)
  have br' := mean_above _ right (1 / 2 * T) dr (by
    intro x hx
    obtain ⟨y, hy, rfl⟩ := List.mem_map.1 hx
    obtain ⟨v, hv, hy⟩ := List.mem_flatMap.1 hy
    obtain ⟨h1, h2⟩ := (hc v hv).2 y hy
    nlinarith)
  push_cast at bl br br'
  have et : (hMeasures T o).tSym = some (right.sub left) := by
    show both UV.sub (ofSamples ((o.flatMap (·.crossRight)).map (· * T))) (ofSamples ((o.flatMap (·.crossLeft)).map (· * T))) = _
    rw [hl, hr]
    rfl
  have ew : (hMeasures T o).width = some (opening right left) := by
    show both opening (ofSamples ((o.flatMap (·.crossRight)).map (· * T))) (ofSamples ((o.flatMap (·.crossLeft)).map (· * T))) = _
    rw [hl, hr]
    rfl
  have hpos : 0 < (right.sub left).value := by simp only [UV.sub]; linarith [bl.2]
  have hv : (opening right left).value = (right.sub left).value - 3 * (right.stddev + left.stddev) := by
    simp only [opening, UV.sub, UV.subC, UV.addC]
    ring
  have p1 := dl.2.2.1
  have p2 := dr.2.2.1
  refine ⟨hl, by linarith [bl.1], by linarith [bl.2], _, _, et, ew, rfl, hpos, ?_, hv, ?_, ?_⟩
  · simp only [UV.sub]; linarith [bl.1, br.2]
  · have : (hMeasures T o).fSym = bothDiv (some ⟨1, 0⟩) (hMeasures T o).tSym := rfl
    rw [this, et]
    refine ⟨1 / (right.sub left).value, ?_, div_mul_cancel₀ _ hpos.ne', div_pos one_pos hpos⟩
    simp only [bothDiv, both, bind, Option.bind, pure, Option.getD, nvDiv, npDiv, if_neg hpos.ne']
  · have : (hMeasures T o).widthR = bothDiv (hMeasures T o).width (hMeasures T o).tSym := rfl
    rw [this, et, ew]
    refine ⟨(opening right left).value / (right.sub left).value, ?_, div_mul_cancel₀ _ hpos.ne', ?_⟩
    · simp only [bothDiv, both, bind, Option.bind, pure, Option.getD, nvDiv, npDiv, if_neg hpos.ne']
    · rw [div_le_one hpos, hv]
      linarith

/-! ### Jitter -/

theorem foldl_max_spec (l : List ℝ) (x : ℝ) : x ≤ l.foldl max x ∧ (∀ y ∈ l, y ≤ l.foldl max x) ∧ (l.foldl max x = x ∨ l.foldl max x ∈ l) := by
  induction l generalizing x with
  | nil => simp
  | cons a l ih =>
    obtain ⟨h1, h2, h3⟩ := ih (max x a)
    rw [List.foldl_cons]
    refine ⟨(le_max_left _ _).trans h1, ?_, ?_⟩
    · intro y hy
      rcases List.mem_cons.1 hy with rfl | hy
      · exact (le_max_right _ _).trans h1
      · exact h2 y hy
    · rcases h3 with h3 | h3
      · rw [h3]
        rcases max_choice x a with h | h <;> rw [h] <;> simp
      · exact Or.inr (List.mem_cons_of_mem _ h3)

theorem foldl_min_spec (l : List ℝ) (x : ℝ) : l.foldl min x ≤ x ∧ (∀ y ∈ l, l.foldl min x ≤ y) ∧ (l.foldl min x = x ∨ l.foldl min x ∈ l) := by
  induction l generalizing x with
  | nil => simp
  | cons a l ih =>
    obtain ⟨h1, h2, h3⟩ := ih (min x a)
    rw [List.foldl_cons]
    refine ⟨h1.trans (min_le_left _ _), ?_, ?_⟩
    · intro y hy
      rcases List.mem_cons.1 hy with rfl | hy
      · exact h1.trans (min_le_right _ _)
      · exact h2 y hy
    · rcases h3 with h3 | h3
      · rw [h3]
        rcases min_choice x a with h | h <;> rw [h] <;> simp
      · exact Or.inr (List.mem_cons_of_mem _ h3)

theorem spread (l : List ℚ) (m c r : ℝ) (hm : m * l.length = ((l.sum : ℚ) : ℝ)) (h : ∀ x ∈ l, |(x : ℝ) - c| ≤ r) :
    (l.map fun x : ℚ => ((x : ℝ) - m) ^ 2).sum ≤ r ^ 2 * l.length := by
  have e : ∀ k : List ℚ, (k.map fun x : ℚ => ((x : ℝ) - m) ^ 2).sum =
      (k.map fun x : ℚ => ((x : ℝ) - c) ^ 2).sum + 2 * (c - m) * ((k.sum : ℚ) : ℝ) - 2 * (c - m) * c * k.length + (c - m) ^ 2 * k.length := by
    intro k
    induction k with
    | nil => simp
    | cons x k ih =>
      rw [List.map_cons, List.sum_cons, ih, List.map_cons, List.sum_cons, List.sum_cons, List.length_cons]
      push_cast
      ring
  have b : ∀ k : List ℚ, (∀ x ∈ k, |(x : ℝ) - c| ≤ r) → (k.map fun x : ℚ => ((x : ℝ) - c) ^ 2).sum ≤ r ^ 2 * k.length := by
    intro k
    induction k with
    | nil => simp
    | cons x k ih =>
      intro hk
      rw [List.map_cons, List.sum_cons, List.length_cons]
      push_cast
      have h1 := sq_le_sq' (abs_le.1 (hk x (by simp))).1 (abs_le.1 (hk x (by simp))).2
      have h2 := ih fun y hy => hk y (List.mem_cons_of_mem _ hy)
      linarith
  rw [e l, ← hm]
  have := b l h
  have hn : (0 : ℝ) ≤ l.length := Nat.cast_nonneg _
  nlinarith [sq_nonneg (c - m), mul_nonneg (sq_nonneg (c - m)) hn]

/-- C63: peak to peak jitter is the distance of the extreme crossing times; the root mean square jitter is at most half of it. -/
theorem C63_jitter (T : ℚ) (o : List HOut) (p : ℝ) (h : (hMeasures T o).jitterPp = some p) :
    (∃ a b : ℚ, a ∈ (o.flatMap (·.crossLeft)).map (· * T) ∧ b ∈ (o.flatMap (·.crossLeft)).map (· * T) ∧ p = ((b - a : ℚ) : ℝ)) ∧
    (∀ a b : ℚ, a ∈ (o.flatMap (·.crossLeft)).map (· * T) → b ∈ (o.flatMap (·.crossLeft)).map (· * T) → ((b - a : ℚ) : ℝ) ≤ p) ∧
    ∃ r, (hMeasures T o).jitterRms = some r ∧ 0 ≤ r ∧ r ≤ p / 2 := by
  have hrm : (hMeasures T o).jitterRms = (ofSamples ((o.flatMap (·.crossLeft)).map (· * T))).map (·.stddev) := rfl
  have hpp : ptp (((o.flatMap (·.crossLeft)).map (· * T)).map fun x : ℚ => (x : ℝ)) = some p := by
    rw [List.map_map]
    exact h
  rw [hrm]
  generalize (o.flatMap (·.crossLeft)).map (· * T) = l at hpp ⊢
  cases l with
  | nil => cases hpp
  | cons x l =>
    have hp := Option.some.inj hpp
    obtain ⟨m1, m2, m3⟩ := foldl_max_spec (l.map fun x : ℚ => (x : ℝ)) x
    obtain ⟨n1, n2, n3⟩ := foldl_min_spec (l.map fun x : ℚ => (x : ℝ)) x
    have hmax : ∀ y ∈ x :: l, (y : ℝ) ≤ (l.map fun x : ℚ => (x : ℝ)).foldl max (x : ℝ) := by
      intro y hy
      rcases List.mem_cons.1 hy with rfl | hy
      · exact m1
      · exact m2 _ (List.mem_map.2 ⟨y, hy, rfl⟩)
    have hmin : ∀ y ∈ x :: l, (l.map fun x : ℚ => (x : ℝ)).foldl min (x : ℝ) ≤ (y : ℝ) := by
      intro y hy
      rcases List.mem_cons.1 hy with rfl | hy
      · exact n1
      · exact n2 _ (List.mem_map.2 ⟨y, hy, rfl⟩)
    have hmaxm : ∃ b ∈ x :: l, (b : ℝ) = (l.map fun x : ℚ => (x : ℝ)).foldl max (x : ℝ) := by
      rcases m3 with h | h
      · exact ⟨x, by simp, h.symm⟩
      · obtain ⟨b, hb, hbe⟩ := List.mem_map.1 h
        exact ⟨b, List.mem_cons_of_mem _ hb, hbe⟩
    have hminm : ∃ b ∈ x :: l, (b : ℝ) = (l.map fun x : ℚ => (x : ℝ)).foldl min (x : ℝ) := by
      rcases n3 with h | h
      · exact ⟨x, by simp, h.symm⟩
      · obtain ⟨b, hb, hbe⟩ := List.mem_map.1 h
        exact ⟨b, List.mem_cons_of_mem _ hb, hbe⟩
    generalize (l.map fun x : ℚ => (x : ℝ)).foldl max (x : ℝ) = M at *
    generalize (l.map fun x : ℚ => (x : ℝ)).foldl min (x : ℝ) = N at *
    refine ⟨?_, ?_, ?_⟩
    · obtain ⟨b, hb, hbe⟩ := hmaxm
      obtain ⟨a, ha, hae⟩ := hminm
      refine ⟨a, b, ha, hb, ?_⟩
      push_cast
      rw [hae, hbe, hp]
    · intro a b ha hb
      push_cast
      rw [← hp]
      have := hmax b hb
      have := hmin a ha
      linarith
    · obtain ⟨v, hv, -, g1, g2, g3⟩ := (describes_iff (x :: l)).2 (by simp)
      rw [hv]
      refine ⟨v.stddev, rfl, g2, ?_⟩
      have hs := spread (x :: l) v.value ((M + N) / 2) (p / 2) g1 (by
        intro y hy
        have h1 := hmax y hy
        have h2 := hmin y hy
        rw [abs_le, ← hp]
        constructor <;> linarith)
      rw [← g3] at hs
      have hl : (0 : ℝ) < (x :: l).length := by exact_mod_cast List.length_pos_iff.2 (by simp)
      have h4 : v.stddev ^ 2 ≤ (p / 2) ^ 2 := le_of_mul_le_mul_right hs hl
      have hp0 : 0 ≤ p / 2 := by
        have := hmax x (by simp)
        have := hmin x (by simp)
        linarith
      exact (le_abs_self _).trans (abs_le_of_sq_le_sq h4 hp0)

/-! ### Examples -/

/-- The hypotheses of `C63_amplitude` are met by the example of C44. -/
example : ∃ v, List.Forall₂ (fun (w : List ℚ × List Center) v => sampleVertical w.1 w.2 1 4 6 (1 / 2) (1 / 4) = .ok v)
    [(Pam2Vertical.exYs, exCenters)] [v] ∧ v.y0 ≠ [] ∧ v.y1 ≠ [] ∧ (101 : ℚ) / 100 * (1 / 4) ≤ 1 / 2 := by
  obtain ⟨v, h1, -, -, h2, h3, -⟩ := C44_symbols Pam2Vertical.exYs exCenters 4 1 6 (1 / 2) (1 / 4) (by norm_num) (by norm_num)
    fun c hc => (sampled_ok 4 1 0 (by norm_num) _ exEdges c hc).1
  refine ⟨v, .cons h1 .nil, ?_, ?_, by norm_num⟩
  · rw [h2]; decide +kernel
  · rw [h3]; decide +kernel

/-- The hypotheses of the theorems on horizontal measures are met: crossings at both sides, an edge of either direction. -/
example : let v : HOut := ⟨[-1 / 10], [1 / 10], [0, 1 / 50], [1 / 10], [-1 / 10], [0], [-1 / 10, 1 / 10], [9 / 10, 11 / 10]⟩
    Crossing v ∧ (∃ x, ofSamples (([v].flatMap (·.crossLeft)).map (· * 2)) = some x) ∧
    (∃ x, (hMeasures 2 [v]).t0Start = some x) ∧ (∃ x, (hMeasures 2 [v]).t1Start = some x) ∧ ∃ p, (hMeasures 2 [v]).jitterPp = some p := by
  refine ⟨by unfold Crossing; norm_num, ?_, ?_, ?_, ⟨_, rfl⟩⟩
  · obtain ⟨x, hx, -⟩ := (describes_iff (([(⟨[-1 / 10], [1 / 10], [0, 1 / 50], [1 / 10], [-1 / 10], [0], [-1 / 10, 1 / 10], [9 / 10, 11 / 10]⟩ : HOut)].flatMap (·.crossLeft)).map (· * 2))).2 (by simp)
    exact ⟨x, hx⟩
  · obtain ⟨x, hx, -⟩ := (describes_iff ([(0 : ℚ)].map (· * 2))).2 (by simp)
    exact ⟨x, hx⟩
  · obtain ⟨x, hx, -⟩ := (describes_iff ([(0 : ℚ), 1 / 50].map (· * 2))).2 (by simp)
    exact ⟨x, hx⟩

end Verif.Props.Pam2Measures
