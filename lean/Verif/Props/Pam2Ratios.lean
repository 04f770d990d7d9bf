import Verif.Props.Pam2Measures

/-!
C63: the uncertainties of the measures, the optical modulation amplitude and the transitions.  C72: percentiles and the vertical eye closure penalty.
-/

namespace Verif.Props.Pam2Ratios

open Verif Verif.Eye Verif.Stats Verif.Pam2 Verif.Props.EyeWindow Verif.Props.EyeMask Verif.Props.Pam2Vertical Verif.Props.Pam2Horizontal
  Verif.Props.Pam2Measures

/-! ### Specification -/

/-- `q` is the ratio of two independent quantities `a / b`; its variance is that of the first order approximation. -/
def Ratio (q : NV) (a b : UV) : Prop :=
  b.value ≠ 0 → a.value ≠ 0 → ∃ r s, q.value = some r ∧ q.stddev = some s ∧ r * b.value = a.value ∧ 0 ≤ s ∧
    (s * b.value) ^ 2 = a.stddev ^ 2 + (r * b.stddev) ^ 2

/-- `v` is the difference of two independent quantities plus a constant. -/
def Difference (v a b : UV) (c : ℝ) : Prop := v.value = a.value - b.value + c ∧ 0 ≤ v.stddev ∧ v.stddev ^ 2 = a.stddev ^ 2 + b.stddev ^ 2

theorem ratio_nvDiv (a b : UV) : Ratio (nvDiv a b) a b := by
  intro hb ha
  refine ⟨_, |a.value / b.value| * Real.sqrt ((a.stddev / a.value) ^ 2 + (b.stddev / b.value) ^ 2), if_neg hb, ?_, div_mul_cancel₀ _ hb, ?_, ?_⟩
  · simp only [nvDiv, npDiv, if_neg hb, if_neg ha, bind, Option.bind, pure]
  · positivity
  · rw [mul_pow, mul_pow, Real.sq_sqrt (by positivity), sq_abs]
    field_simp

theorem difference_sub (a b : UV) : Difference (a.sub b) a b 0 := by
  refine ⟨by simp [UV.sub], Real.sqrt_nonneg _, ?_⟩
  simp only [UV.sub]
  rw [Real.sq_sqrt (by positivity)]

/-- C63: the ratios of the vertical measures, with their uncertainties. -/
theorem C63_ratios_vertical (nf : ℝ) (o : List VOut) (y0 y1 : UV) (h0 : (vMeasures nf o).y0 = some y0) (h1 : (vMeasures nf o).y1 = some y1) :
    ∃ amp height, (vMeasures nf o).amp = some amp ∧ (vMeasures nf o).height = some height ∧
      Difference amp y1 y0 0 ∧ Difference height y1 y0 (-3 * (y1.stddev + y0.stddev)) ∧
      Ratio (vMeasures nf o).heightR height amp ∧
      Ratio (vMeasures nf o).extinction ⟨y1.value - nf, y1.stddev⟩ ⟨y0.value - nf, y0.stddev⟩ ∧
      (∀ c, (vMeasures nf o).cross = some c → ∃ d, Difference d c y0 0 ∧ Ratio (vMeasures nf o).crossR d amp) ∧
      (y1.stddev + y0.stddev ≠ 0 → ∃ r s, (vMeasures nf o).snr.value = some r ∧ (vMeasures nf o).snr.stddev = some s ∧
        r * (y1.stddev + y0.stddev) = amp.value ∧ s * (y1.stddev + y0.stddev) = amp.stddev) := by
  have ha : (vMeasures nf o).amp = some (y1.sub y0) := by
    show both UV.sub (vMeasures nf o).y1 (vMeasures nf o).y0 = _
    rw [h0, h1]
    rfl
  have hh : (vMeasures nf o).height = some (opening y1 y0) := by
    show both opening (vMeasures nf o).y1 (vMeasures nf o).y0 = _
    rw [h0, h1]
    rfl
  obtain ⟨-, -, p0, -⟩ := describes_of _ _ h0
  obtain ⟨-, -, p1, -⟩ := describes_of _ _ h1
  refine ⟨_, _, ha, hh, difference_sub _ _, ?_, ?_, ?_, ?_, ?_⟩
  · have := difference_sub (y1.subC (3 * y1.stddev)) (y0.addC (3 * y0.stddev))
    refine ⟨?_, this.2⟩
    show (opening y1 y0).value = _
    simp only [opening, UV.sub, UV.subC, UV.addC]
    ring
  · have : (vMeasures nf o).heightR = nvDiv (opening y1 y0) (y1.sub y0) := by
      show bothDiv (vMeasures nf o).height (vMeasures nf o).amp = _
      rw [ha, hh]
      rfl
    rw [this]
    exact ratio_nvDiv _ _
  · have : (vMeasures nf o).extinction = nvDiv (y1.subC nf) (y0.subC nf) := by
      show bothDiv ((vMeasures nf o).y1.map fun a => a.subC nf) ((vMeasures nf o).y0.map fun a => a.subC nf) = _
      rw [h0, h1]
      rfl
    rw [this]
    exact ratio_nvDiv _ _
  · intro c hc
    have : (vMeasures nf o).crossR = nvDiv (c.sub y0) (y1.sub y0) := by
      show bothDiv (both UV.sub (vMeasures nf o).cross (vMeasures nf o).y0) (vMeasures nf o).amp = _
      rw [ha, hc, h0]
      rfl
    rw [this]
    exact ⟨_, difference_sub _ _, ratio_nvDiv _ _⟩
  · intro hne
    have : (vMeasures nf o).snr = nvDivC (y1.sub y0) (y1.stddev + y0.stddev) := by
      show ((both (fun b a => nvDivC (b.sub a) (b.stddev + a.stddev)) (vMeasures nf o).y1 (vMeasures nf o).y0)).getD NV.nan = _
      rw [h0, h1]
      rfl
    rw [this]
    have habs : |y1.stddev + y0.stddev| = y1.stddev + y0.stddev := abs_of_nonneg (by linarith)
    refine ⟨_, _, if_neg hne, ?_, div_mul_cancel₀ _ hne, div_mul_cancel₀ _ hne⟩
    simp only [nvDivC, habs, npDiv, if_neg hne]

/-- C63: the uncertainties and ratios of the horizontal measures, for the samples of all waveforms; `T` is the duration of a symbol. -/
theorem C63_ratios_horizontal (T : ℚ) (o : List HOut) (rise fall left right : UV)
    (h1 : ofSamples ((o.flatMap (·.riseHalf)).map (· * T)) = some rise) (h2 : ofSamples ((o.flatMap (·.fallHalf)).map (· * T)) = some fall)
    (h3 : ofSamples ((o.flatMap (·.crossLeft)).map (· * T)) = some left) (h4 : ofSamples ((o.flatMap (·.crossRight)).map (· * T)) = some right) :
    ∃ t t0 t1 dcd width, (hMeasures T o).tSym = some t ∧ (hMeasures T o).t0 = some t0 ∧ (hMeasures T o).t1 = some t1 ∧
      (hMeasures T o).dcd = some dcd ∧ (hMeasures T o).width = some width ∧
      Difference t right left 0 ∧ Difference t0 rise fall T ∧ Difference t1 fall rise T ∧ Difference width right left (-3 * (right.stddev + left.stddev)) ∧
      dcd.value = (t1.value - t0.value) / 2 ∧ 0 ≤ dcd.stddev ∧ dcd.stddev ^ 2 = (t1.stddev ^ 2 + t0.stddev ^ 2) / 4 ∧
      Ratio (hMeasures T o).fSym ⟨1, 0⟩ t ∧ Ratio (hMeasures T o).widthR width t ∧ Ratio (hMeasures T o).dcdR dcd t := by
  have e : ∀ f : HOut → List ℚ, ((o.flatMap f).map fun t : ℚ => t * T) = (o.flatMap f).map (· * T) := fun _ => rfl
  have ht : (hMeasures T o).tSym = some (right.sub left) := by
    show both UV.sub (ofSamples ((o.flatMap (·.crossRight)).map (· * T))) (ofSamples ((o.flatMap (·.crossLeft)).map (· * T))) = _
    rw [h3, h4]
    rfl
  have ht0 : (hMeasures T o).t0 = some ((rise.sub fall).addC T) := by
    show both (fun r f => (r.sub f).addC (T : ℝ)) (ofSamples ((o.flatMap (·.riseHalf)).map (· * T))) (ofSamples ((o.flatMap (·.fallHalf)).map (· * T))) = _
    rw [h1, h2]
    rfl
  have ht1 : (hMeasures T o).t1 = some ((fall.sub rise).addC T) := by
    show both (fun r f => (r.sub f).addC (T : ℝ)) (ofSamples ((o.flatMap (·.fallHalf)).map (· * T))) (ofSamples ((o.flatMap (·.riseHalf)).map (· * T))) = _
    rw [h1, h2]
    rfl
  have hd : (hMeasures T o).dcd = some ⟨(((fall.sub rise).addC T).sub ((rise.sub fall).addC T)).value / 2,
      (((fall.sub rise).addC T).sub ((rise.sub fall).addC T)).stddev / |2|⟩ := by
    show both (fun a b => (⟨(a.sub b).value / 2, (a.sub b).stddev / |2|⟩ : UV)) (hMeasures T o).t1 (hMeasures T o).t0 = _
    rw [ht0, ht1]
    rfl
  have hw : (hMeasures T o).width = some (opening right left) := by
    show both opening (ofSamples ((o.flatMap (·.crossRight)).map (· * T))) (ofSamples ((o.flatMap (·.crossLeft)).map (· * T))) = _
    rw [h3, h4]
    rfl
  refine ⟨_, _, _, _, _, ht, ht0, ht1, hd, hw, difference_sub _ _, ?_, ?_, ?_, ?_, ?_, ?_, ?_, ?_, ?_⟩
  · refine ⟨?_, (difference_sub rise fall).2⟩
    simp only [UV.sub, UV.addC]
  · refine ⟨?_, (difference_sub fall rise).2⟩
    simp only [UV.sub, UV.addC]
  · have := difference_sub (right.subC (3 * right.stddev)) (left.addC (3 * left.stddev))
    refine ⟨?_, this.2⟩
    show (opening right left).value = _
    simp only [opening, UV.sub, UV.subC, UV.addC]
    ring
  · simp only [UV.sub]
  · exact div_nonneg (Real.sqrt_nonneg _) (abs_nonneg _)
  · have := (difference_sub ((fall.sub rise).addC T) ((rise.sub fall).addC T)).2.2
    simp only
    rw [div_pow, this, sq_abs]
    norm_num
  · show Ratio (bothDiv (some ⟨1, 0⟩) (hMeasures T o).tSym) _ _
    rw [ht]
    exact ratio_nvDiv _ _
  · show Ratio (bothDiv (hMeasures T o).width (hMeasures T o).tSym) _ _
    rw [ht, hw]
    exact ratio_nvDiv _ _
  · show Ratio (bothDiv (hMeasures T o).dcd (hMeasures T o).tSym) _ _
    rw [ht, hd]
    exact ratio_nvDiv _ _

theorem ofSamples_none (l : List ℚ) : ofSamples l = none ↔ l = [] := by
  unfold ofSamples UV.samples
  cases l <;> simp

theorem both_none {α : Type} (f : UV → UV → α) (a b : Option UV) : both f a b = none ↔ a = none ∨ b = none := by
  cases a <;> cases b <;> simp [both]

theorem bothDiv_none (a b : Option UV) (h : a = none ∨ b = none) : bothDiv a b = NV.nan := by
  unfold bothDiv
  rw [(both_none nvDiv a b).mpr h]
  rfl

/-- C63: which vertical measures are nan: those of which samples are missing. -/
theorem C63_nan_vertical (nf : ℝ) (o : List VOut) :
    (∀ p ∈ ([((vMeasures nf o).amp, o.flatMap (·.y0), o.flatMap (·.y1)), ((vMeasures nf o).height, o.flatMap (·.y0), o.flatMap (·.y1)),
      ((vMeasures nf o).omaCross, o.flatMap (·.y0Cross), o.flatMap (·.y1Cross))] : List (Option UV × List ℚ × List ℚ)),
      p.1 = none ↔ p.2.1 = [] ∨ p.2.2 = []) ∧
    (o.flatMap (·.y0) = [] ∨ o.flatMap (·.y1) = [] → (vMeasures nf o).heightR = NV.nan ∧ (vMeasures nf o).snr = NV.nan ∧
      (vMeasures nf o).crossR = NV.nan ∧ (vMeasures nf o).extinction = NV.nan) ∧
    (o.flatMap (·.cross) = [] → (vMeasures nf o).crossR = NV.nan) := by
  have ha : (vMeasures nf o).amp = none ↔ o.flatMap (·.y0) = [] ∨ o.flatMap (·.y1) = [] := by
    show both UV.sub (ofSamples _) (ofSamples _) = none ↔ _
    rw [both_none, ofSamples_none, ofSamples_none, or_comm]
  have hh : (vMeasures nf o).height = none ↔ o.flatMap (·.y0) = [] ∨ o.flatMap (·.y1) = [] := by
    show both opening (ofSamples _) (ofSamples _) = none ↔ _
    rw [both_none, ofSamples_none, ofSamples_none, or_comm]
  have hm : (vMeasures nf o).omaCross = none ↔ o.flatMap (·.y0Cross) = [] ∨ o.flatMap (·.y1Cross) = [] := by
    show both UV.sub (ofSamples _) (ofSamples _) = none ↔ _
    rw [both_none, ofSamples_none, ofSamples_none, or_comm]
  refine ⟨?_, fun h => ⟨bothDiv_none _ _ (Or.inl (hh.mpr h)), ?_, bothDiv_none _ _ (Or.inr (ha.mpr h)), bothDiv_none _ _ ?_⟩,
    fun h => bothDiv_none _ _ (Or.inl ((both_none _ _ _).mpr (Or.inl ((ofSamples_none _).mpr h))))⟩
  · intro p hp
    simp only [List.mem_cons, List.not_mem_nil, or_false] at hp
    rcases hp with rfl | rfl | rfl
    · exact ha
    · exact hh
    · exact hm
  · show (both _ (ofSamples _) (ofSamples _)).getD NV.nan = _
    rw [(both_none _ _ _).mpr (by rw [ofSamples_none, ofSamples_none]; exact h.symm)]
    rfl
  · show Option.map _ (ofSamples _) = none ∨ Option.map _ (ofSamples _) = none
    rw [Option.map_eq_none_iff, Option.map_eq_none_iff, ofSamples_none, ofSamples_none]
    exact h.symm

/-- C63: which horizontal measures are nan: those of which samples are missing. -/
theorem C63_nan_horizontal (T : ℚ) (o : List HOut) :
    (∀ p ∈ ([((hMeasures T o).t0Start, o.flatMap (·.fallHalf)), ((hMeasures T o).t1Start, o.flatMap (·.riseHalf)),
      ((hMeasures T o).tRiseStart, o.flatMap (·.riseLower)), ((hMeasures T o).tFallStart, o.flatMap (·.fallUpper)),
      ((hMeasures T o).tCross, o.flatMap (·.crossLeft))] : List (Option UV × List ℚ)), p.1 = none ↔ p.2 = []) ∧
    (∀ p ∈ ([((hMeasures T o).tSym, o.flatMap (·.crossLeft), o.flatMap (·.crossRight)),
      ((hMeasures T o).width, o.flatMap (·.crossLeft), o.flatMap (·.crossRight)), ((hMeasures T o).t0, o.flatMap (·.fallHalf), o.flatMap (·.riseHalf)),
      ((hMeasures T o).t1, o.flatMap (·.fallHalf), o.flatMap (·.riseHalf)), ((hMeasures T o).dcd, o.flatMap (·.fallHalf), o.flatMap (·.riseHalf)),
      ((hMeasures T o).tRise, o.flatMap (·.riseLower), o.flatMap (·.riseUpper)),
      ((hMeasures T o).tFall, o.flatMap (·.fallLower), o.flatMap (·.fallUpper))] : List (Option UV × List ℚ × List ℚ)),
      p.1 = none ↔ p.2.1 = [] ∨ p.2.2 = []) ∧
    (o.flatMap (·.crossLeft) = [] ∨ o.flatMap (·.crossRight) = [] →
      (hMeasures T o).fSym = NV.nan ∧ (hMeasures T o).widthR = NV.nan ∧ (hMeasures T o).dcdR = NV.nan) ∧
    (o.flatMap (·.fallHalf) = [] ∨ o.flatMap (·.riseHalf) = [] → (hMeasures T o).dcdR = NV.nan) ∧
    ((hMeasures T o).jitterPp = none ↔ o.flatMap (·.crossLeft) = []) ∧ ((hMeasures T o).jitterRms = none ↔ o.flatMap (·.crossLeft) = []) := by
  have one : ∀ f : HOut → List ℚ, ofSamples ((o.flatMap f).map fun t : ℚ => t * T) = none ↔ o.flatMap f = [] := fun f => by
    rw [ofSamples_none, List.map_eq_nil_iff]
  have two : ∀ (f g : HOut → List ℚ) (k : UV → UV → UV),
      both k (ofSamples ((o.flatMap f).map fun t : ℚ => t * T)) (ofSamples ((o.flatMap g).map fun t : ℚ => t * T)) = none ↔
        o.flatMap f = [] ∨ o.flatMap g = [] := fun f g k => by rw [both_none, one, one]
  have hs : (hMeasures T o).tSym = none ↔ o.flatMap (·.crossLeft) = [] ∨ o.flatMap (·.crossRight) = [] := (two (·.crossRight) (·.crossLeft) _).trans or_comm
  have hw : (hMeasures T o).width = none ↔ o.flatMap (·.crossLeft) = [] ∨ o.flatMap (·.crossRight) = [] := (two (·.crossRight) (·.crossLeft) _).trans or_comm
  have h0 : (hMeasures T o).t0 = none ↔ o.flatMap (·.fallHalf) = [] ∨ o.flatMap (·.riseHalf) = [] := (two (·.riseHalf) (·.fallHalf) _).trans or_comm
  have h1 : (hMeasures T o).t1 = none ↔ o.flatMap (·.fallHalf) = [] ∨ o.flatMap (·.riseHalf) = [] := two (·.fallHalf) (·.riseHalf) _
  have hd : (hMeasures T o).dcd = none ↔ o.flatMap (·.fallHalf) = [] ∨ o.flatMap (·.riseHalf) = [] := by
    show both _ (hMeasures T o).t1 (hMeasures T o).t0 = none ↔ _
    rw [both_none, h0, h1, or_self]
  refine ⟨?_, ?_, fun h => ⟨bothDiv_none _ _ (Or.inr (hs.mpr h)), bothDiv_none _ _ (Or.inr (hs.mpr h)), bothDiv_none _ _ (Or.inr (hs.mpr h))⟩,
    fun h => bothDiv_none _ _ (Or.inl (hd.mpr h)), ?_, ?_⟩
  · intro p hp
    simp only [List.mem_cons, List.not_mem_nil, or_false] at hp
    rcases hp with rfl | rfl | rfl | rfl | rfl
    · exact one (·.fallHalf)
    · exact one (·.riseHalf)
    · exact one (·.riseLower)
    · exact one (·.fallUpper)
    · exact one (·.crossLeft)
  · intro p hp
    simp only [List.mem_cons, List.not_mem_nil, or_false] at hp
    rcases hp with rfl | rfl | rfl | rfl | rfl | rfl | rfl
    · exact hs
    · exact hw
    · exact h0
    · exact h1
    · exact hd
    · exact (two (·.riseUpper) (·.riseLower) _).trans or_comm
    · exact two (·.fallLower) (·.fallUpper) _
  · show ptp _ = none ↔ _
    cases o.flatMap (·.crossLeft) <;> simp [ptp]
  · show Option.map _ (ofSamples _) = none ↔ _
    rw [Option.map_eq_none_iff]
    exact one (·.crossLeft)

/-- C63: rise and fall times are differences of independent measures. -/
theorem C63_edge_times (T : ℚ) (o : List HOut) :
    (∀ a b, ofSamples ((o.flatMap (·.riseLower)).map (· * T)) = some a → ofSamples ((o.flatMap (·.riseUpper)).map (· * T)) = some b →
      ∃ t, (hMeasures T o).tRise = some t ∧ Difference t b a 0) ∧
    ∀ a b, ofSamples ((o.flatMap (·.fallUpper)).map (· * T)) = some a → ofSamples ((o.flatMap (·.fallLower)).map (· * T)) = some b →
      ∃ t, (hMeasures T o).tFall = some t ∧ Difference t b a 0 := by
  constructor
  · intro a b ha hb
    refine ⟨b.sub a, ?_, difference_sub _ _⟩
    show both UV.sub (ofSamples ((o.flatMap (·.riseUpper)).map (· * T))) (ofSamples ((o.flatMap (·.riseLower)).map (· * T))) = _
    rw [ha, hb]
    rfl
  · intro a b ha hb
    refine ⟨b.sub a, ?_, difference_sub _ _⟩
    show both UV.sub (ofSamples ((o.flatMap (·.fallLower)).map (· * T))) (ofSamples ((o.flatMap (·.fallUpper)).map (· * T))) = _
    rw [ha, hb]
    rfl

/-- C63: the optical modulation amplitude is the difference of the levels at the crossing. -/
theorem C63_oma (nf : ℝ) (o : List VOut) (a b : UV) (h0 : (vMeasures nf o).y0Cross = some a) (h1 : (vMeasures nf o).y1Cross = some b) :
    ∃ v, (vMeasures nf o).omaCross = some v ∧ Difference v b a 0 := by
  refine ⟨b.sub a, ?_, difference_sub _ _⟩
  show both UV.sub (vMeasures nf o).y1Cross (vMeasures nf o).y0Cross = _
  rw [h0, h1]
  rfl

/-- C63: the transitions are counted over all waveforms: symbols with that value, the one before it, and the one after it. -/
theorem C63_transitions (nf : ℝ) (wfs : List (List ℚ × List Center)) (o : List VOut) (T δ half lw cw : ℚ) (hT : 0 < T) (hδ : 0 < δ)
    (hc : ∀ w ∈ wfs, ∀ c ∈ w.2, Inside T δ w.1.length c)
    (ho : List.Forall₂ (fun w v => sampleVertical w.1 w.2 δ T half lw cw = .ok v) wfs o) (x y z : Bool) :
    (vMeasures nf o).trans x y z = (wfs.flatMap fun w => w.2.map fun c =>
      (logic w.1 T δ half lw (-1 / 2) c, logic w.1 T δ half lw (1 / 2) c, logic w.1 T δ half lw (3 / 2) c)).count (x, y, z) := by
  show (o.map fun v => v.trans x y z).sum = _
  induction ho with
  | nil => rfl
  | cons h _ ih =>
    rename_i w v wfs o _
    obtain ⟨v', h', -, ht, -⟩ := C44_symbols w.1 w.2 T δ half lw cw hT hδ (hc w (by simp))
    rw [h] at h'
    obtain rfl := Except.ok.inj h'
    rw [List.map_cons, List.sum_cons, List.flatMap_cons, List.count_append, ih fun a ha => hc a (List.mem_cons_of_mem _ ha), ht]
    congr 1
    rw [List.count, List.countP_map]
    apply List.countP_congr
    intro c _
    simp [Function.comp, and_assoc]

/-! ### C72: percentiles -/

/-- `x` is a percentile of the samples: not more than the fraction `q` of them (and two thirds of a sample) are below, and not less than it
(except for one sample) are not above. -/
def IsPercentile (q x : ℚ) (l : List ℚ) : Prop :=
  (∃ a ∈ l, a ≤ x) ∧ (∃ b ∈ l, x ≤ b) ∧ ((l.countP fun v => decide (v < x) : ℕ) : ℚ) < l.length * q + 2 / 3 ∧
    l.length * q - 1 < (l.countP fun v => decide (v ≤ x) : ℕ)

theorem sorted_count_lt (s : List ℚ) (hs : s.Pairwise (· ≤ ·)) (i : ℕ) (hi : i < s.length) (x : ℚ) (hx : x ≤ s[i]) :
    s.countP (fun v => decide (v < x)) ≤ i := by
  conv_lhs => rw [← List.take_append_drop i s]
  rw [List.countP_append]
  have h1 : (s.take i).countP (fun v => decide (v < x)) ≤ i := (List.countP_le_length).trans (by simp)
  have h2 : (s.drop i).countP (fun v => decide (v < x)) = 0 := by
    rw [List.countP_eq_zero]
    intro v hv
    obtain ⟨j, hj, rfl⟩ := List.getElem_of_mem hv
    rw [List.getElem_drop]
    have : s[i] ≤ s[i + j]'(by simp at hj; omega) := by
      rcases Nat.eq_zero_or_pos j with rfl | hp
      · exact le_refl _
      · exact List.pairwise_iff_getElem.1 hs i (i + j) hi _ (by omega)
    simp only [decide_eq_true_eq, not_lt]
    exact hx.trans this
  omega

theorem sorted_count_le (s : List ℚ) (hs : s.Pairwise (· ≤ ·)) (i : ℕ) (hi : i < s.length) (x : ℚ) (hx : s[i] ≤ x) :
    i + 1 ≤ s.countP (fun v => decide (v ≤ x)) := by
  conv_rhs => rw [← List.take_append_drop (i + 1) s]
  rw [List.countP_append]
  have h1 : (s.take (i + 1)).countP (fun v => decide (v ≤ x)) = i + 1 := by
    rw [List.countP_eq_length.2, List.length_take, min_eq_left (by omega)]
    intro v hv
    obtain ⟨j, hj, rfl⟩ := List.getElem_of_mem hv
    rw [List.getElem_take]
    have hj' : j < i + 1 := by simp at hj; omega
    have : s[j]'(by omega) ≤ s[i] := by
      rcases Nat.lt_or_ge j i with hp | hp
      · exact List.pairwise_iff_getElem.1 hs j i _ hi hp
      · have : j = i := by omega
        subst this
        exact le_refl _
    simp only [decide_eq_true_eq]
    exact this.trans hx
  omega

/-- **C72 (percentiles)**: for a fraction between 0 and 1 and at least one sample. -/
theorem C72_percentile (q : ℚ) (l : List ℚ) (h0 : 0 ≤ q) (h1 : q ≤ 1) (hl : l ≠ []) : ∃ x, percentile q l = some x ∧ IsPercentile q x l := by
  have hp : (l.insertionSort (· ≤ ·)).Perm l := List.perm_insertionSort _ _
  have hs : (l.insertionSort (· ≤ ·)).Pairwise (· ≤ ·) := List.pairwise_insertionSort _ _
  unfold percentile IsPercentile
  simp only
  have hlen : l.length = (l.insertionSort (· ≤ ·)).length := hp.length_eq.symm
  have hex : ∀ P : ℚ → Prop, (∃ a ∈ l, P a) ↔ ∃ a ∈ l.insertionSort (· ≤ ·), P a := fun P => by simp only [hp.mem_iff]
  have hcount : ∀ P : ℚ → Bool, l.countP P = (l.insertionSort (· ≤ ·)).countP P := fun P => (hp.countP_eq P).symm
  have hne : l.insertionSort (· ≤ ·) ≠ [] := by
    intro h
    rw [h] at hlen
    exact hl (List.length_eq_zero_iff.1 hlen)
  simp only [hex, hcount, hlen]
  generalize l.insertionSort (· ≤ ·) = s at *
  have hpos : 0 < s.length := List.length_pos_iff.2 hne
  have hposq : (1 : ℚ) ≤ s.length := by exact_mod_cast hpos
  split
  · rename_i hneg
    refine ⟨s[0], by rw [List.head?_eq_getElem?, List.getElem?_eq_getElem hpos], ⟨_, List.getElem_mem hpos, le_refl _⟩, ⟨_, List.getElem_mem hpos, le_refl _⟩, ?_, ?_⟩
    · have := sorted_count_lt s hs 0 hpos s[0] (le_refl _)
      have : ((s.countP fun v => decide (v < s[0]) : ℕ) : ℚ) ≤ 0 := by exact_mod_cast this
      nlinarith
    · have := sorted_count_le s hs 0 hpos s[0] (le_refl _)
      have : (1 : ℚ) ≤ (s.countP fun v => decide (v ≤ s[0]) : ℕ) := by exact_mod_cast this
      linarith
  · rename_i hnneg
    split
    · rename_i hbig
      have hlast : s.length - 1 < s.length := by omega
      refine ⟨s[s.length - 1], by rw [List.getLast?_eq_getElem?, List.getElem?_eq_getElem hlast],
        ⟨_, List.getElem_mem hlast, le_refl _⟩, ⟨_, List.getElem_mem hlast, le_refl _⟩, ?_, ?_⟩
      · have := sorted_count_lt s hs _ hlast _ (le_refl _)
        have : (s.countP fun v => decide (v < s[s.length - 1])) + 1 ≤ s.length := by omega
        have : ((s.countP fun v => decide (v < s[s.length - 1]) : ℕ) : ℚ) + 1 ≤ s.length := by exact_mod_cast this
        linarith
      · have := sorted_count_le s hs _ hlast _ (le_refl _)
        have : s.length ≤ s.countP fun v => decide (v ≤ s[s.length - 1]) := by omega
        have : (s.length : ℚ) ≤ (s.countP fun v => decide (v ≤ s[s.length - 1]) : ℕ) := by exact_mod_cast this
        nlinarith
    · rename_i hbig
      push Not at hnneg hbig
      generalize hpv : (s.length : ℚ) * q + (1 / 3 + q * (1 - 1 / 3 - 1 / 3)) - 1 = p at *
      obtain ⟨i, hi⟩ := Int.eq_ofNat_of_zero_le (Int.floor_nonneg.2 hnneg)
      have f1 := Int.floor_le p
      have f2 := Int.lt_floor_add_one p
      rw [hi] at f1 f2 ⊢
      simp only [Int.toNat_natCast, Int.cast_natCast] at f1 f2 ⊢
      have hi1 : i + 1 < s.length := by
        have : (i : ℚ) + 1 < s.length := by linarith
        exact_mod_cast this
      rw [List.getElem?_eq_getElem (by omega : i < s.length), List.getElem?_eq_getElem hi1]
      have hab : s[i] ≤ s[i + 1] := List.pairwise_iff_getElem.1 hs i (i + 1) _ hi1 (by omega)
      have x1 : s[i] ≤ s[i] + (s[i + 1] - s[i]) * (p - i) := by nlinarith
      have x2 : s[i] + (s[i + 1] - s[i]) * (p - i) ≤ s[i + 1] := by nlinarith
      refine ⟨_, rfl, ⟨_, List.getElem_mem (by omega : i < s.length), x1⟩, ⟨_, List.getElem_mem hi1, x2⟩, ?_, ?_⟩
      · rcases f1.lt_or_eq with hlt | heq
        · have := sorted_count_lt s hs (i + 1) hi1 _ x2
          have : ((s.countP fun v => decide (v < s[i] + (s[i + 1] - s[i]) * (p - i)) : ℕ) : ℚ) ≤ i + 1 := by exact_mod_cast this
          linarith
        · have := sorted_count_lt s hs i (by omega) (s[i] + (s[i + 1] - s[i]) * (p - i)) (by rw [heq]; linarith)
          have : ((s.countP fun v => decide (v < s[i] + (s[i + 1] - s[i]) * (p - i)) : ℕ) : ℚ) ≤ i := by exact_mod_cast this
          linarith
      · have := sorted_count_le s hs i (by omega) _ x1
        have : (i : ℚ) + 1 ≤ (s.countP fun v => decide (v ≤ s[i] + (s[i + 1] - s[i]) * (p - i)) : ℕ) := by exact_mod_cast this
        linarith

/-- C72: with up to 1332 samples the percentiles of `vecp` are the minimum and the maximum. -/
theorem C72_extremes (l : List ℚ) (hl : l ≠ []) (hn : l.length ≤ 1332) :
    (∃ x ∈ l, percentile (5 / 10000) l = some x ∧ ∀ v ∈ l, x ≤ v) ∧ ∃ x ∈ l, percentile (9995 / 10000) l = some x ∧ ∀ v ∈ l, v ≤ x := by
  have hp : (l.insertionSort (· ≤ ·)).Perm l := List.perm_insertionSort _ _
  have hs : (l.insertionSort (· ≤ ·)).Pairwise (· ≤ ·) := List.pairwise_insertionSort _ _
  unfold percentile
  simp only
  have hlen : l.length = (l.insertionSort (· ≤ ·)).length := hp.length_eq.symm
  rw [hlen] at hn
  have hpos : 0 < (l.insertionSort (· ≤ ·)).length := by
    rw [← hlen]
    exact List.length_pos_iff.2 hl
  simp only [← hp.mem_iff]
  generalize l.insertionSort (· ≤ ·) = s at *
  have hnq : (s.length : ℚ) ≤ 1332 := by exact_mod_cast hn
  have hposq : (1 : ℚ) ≤ s.length := by exact_mod_cast hpos
  have hlast : s.length - 1 < s.length := by omega
  have hle : ∀ i j (hi : i < s.length) (hj : j < s.length), i ≤ j → s[i] ≤ s[j] := by
    intro i j hi hj hij
    rcases hij.lt_or_eq with h | rfl
    · exact List.pairwise_iff_getElem.1 hs i j hi hj h
    · exact le_refl _
  constructor
  · refine ⟨s[0], List.getElem_mem hpos, ?_, ?_⟩
    · by_cases h : (s.length : ℚ) * (5 / 10000) + (1 / 3 + 5 / 10000 * (1 - 1 / 3 - 1 / 3)) - 1 < 0
      · rw [if_pos h, List.head?_eq_getElem?, List.getElem?_eq_getElem hpos]
      · exact absurd (by linarith) h
    · intro v hv
      obtain ⟨j, hj, rfl⟩ := List.getElem_of_mem hv
      exact hle 0 j hpos hj (by omega)
  · refine ⟨s[s.length - 1], List.getElem_mem hlast, ?_, ?_⟩
    · rw [if_neg (by linarith), if_pos (by linarith), List.getLast?_eq_getElem?, List.getElem?_eq_getElem hlast]
    · intro v hv
      obtain ⟨j, hj, rfl⟩ := List.getElem_of_mem hv
      exact hle j _ hj hlast (by omega)

/-- **C72**: the vertical eye closure penalty is the ratio of the optical modulation amplitude and the inner eye amplitude in decibels.  The inner
eye amplitude is between the 0.05 % percentile of the ones and the 99.95 % percentile of the zeros. -/
theorem C72_vecp (nf : ℝ) (o : List VOut) (h0 : o.flatMap (·.y0) ≠ []) (h1 : o.flatMap (·.y1) ≠ []) (oma : UV)
    (ho : (vMeasures nf o).omaCross = some oma) :
    ∃ lo hi : ℚ, IsPercentile (5 / 10000) lo (o.flatMap (·.y1)) ∧ IsPercentile (9995 / 10000) hi (o.flatMap (·.y0)) ∧
      (((o.flatMap (·.y1)).length ≤ 1332 → lo ∈ o.flatMap (·.y1) ∧ ∀ v ∈ o.flatMap (·.y1), lo ≤ v)) ∧
      (((o.flatMap (·.y0)).length ≤ 1332 → hi ∈ o.flatMap (·.y0) ∧ ∀ v ∈ o.flatMap (·.y0), v ≤ hi)) ∧
      (0 < oma.value * (lo - hi) → ∃ v s : ℝ, (vMeasures nf o).vecp.value = some v ∧ (vMeasures nf o).vecp.stddev = some s ∧
        (10 : ℝ) ^ (v / 10) * (lo - hi) = oma.value ∧ s = 10 / Real.log 10 * |oma.stddev / oma.value|) ∧
      (oma.value * (lo - hi) ≤ 0 → (vMeasures nf o).vecp = NV.nan) := by
  obtain ⟨lo, hlo, plo⟩ := C72_percentile (5 / 10000) _ (by norm_num) (by norm_num) h1
  obtain ⟨hi, hhi, phi⟩ := C72_percentile (9995 / 10000) _ (by norm_num) (by norm_num) h0
  have he : (vMeasures nf o).vecp = decibels (nvDivC oma ((lo - hi : ℚ) : ℝ)) := by
    show vecpOf (o.flatMap (·.y0)) (o.flatMap (·.y1)) (vMeasures nf o).omaCross = _
    unfold vecpOf
    rw [hlo, hhi, ho]
  refine ⟨lo, hi, plo, phi, ?_, ?_, ?_, ?_⟩
  · intro hn
    obtain ⟨⟨x, hx, hx', hm⟩, -⟩ := C72_extremes _ h1 hn
    rw [hlo] at hx'
    rw [Option.some.inj hx']
    exact ⟨hx, hm⟩
  · intro hn
    obtain ⟨-, x, hx, hx', hm⟩ := C72_extremes _ h0 hn
    rw [hhi] at hx'
    rw [Option.some.inj hx']
    exact ⟨hx, hm⟩
  · intro hpos
    have hd : ((lo - hi : ℚ) : ℝ) = (lo : ℝ) - hi := by push_cast; rfl
    have hne : (lo : ℝ) - hi ≠ 0 := by
      intro h
      rw [h, mul_zero] at hpos
      exact lt_irrefl _ hpos
    have hr : 0 < oma.value / ((lo : ℝ) - hi) := by
      rcases lt_or_gt_of_ne hne with h | h
      · exact div_pos_of_neg_of_neg (by nlinarith) h
      · exact div_pos (by nlinarith) h
    have hon : oma.value ≠ 0 := by
      intro h
      rw [h, zero_mul] at hpos
      exact lt_irrefl _ hpos
    refine ⟨Real.logb 10 (oma.value / ((lo : ℝ) - hi)) * 10, |oma.stddev / |(lo : ℝ) - hi| / (oma.value / ((lo : ℝ) - hi) * Real.log 10)| * |10|, ?_, ?_, ?_, ?_⟩
    · rw [he]
      simp only [decibels, nvDivC, npDiv, hd, if_neg hne, if_neg (not_le.2 hr)]
    · rw [he]
      simp only [decibels, nvDivC, npDiv, hd, if_neg hne, if_neg (not_le.2 hr), if_neg (abs_ne_zero.2 hne), Option.map_some]
    · rw [mul_div_assoc, div_self (by norm_num), mul_one, Real.rpow_logb (by norm_num) (by norm_num) hr, div_mul_cancel₀ _ hne]
    · have hlog : 0 < Real.log 10 := Real.log_pos (by norm_num)
      rw [abs_div, abs_div, abs_mul, abs_div, abs_abs, abs_div, abs_of_pos hlog, abs_of_pos (by norm_num : (0 : ℝ) < 10)]
      have a1 : |(lo : ℝ) - hi| ≠ 0 := abs_ne_zero.2 hne
      have a2 : |oma.value| ≠ 0 := abs_ne_zero.2 hon
      field_simp
  · intro hneg
    have hd : ((lo - hi : ℚ) : ℝ) = (lo : ℝ) - hi := by push_cast; rfl
    rw [he]
    simp only [decibels, nvDivC, npDiv, hd]
    by_cases hz : (lo : ℝ) - hi = 0
    · rw [if_pos hz]
    · rw [if_neg hz]
      simp only
      rw [if_pos]
      rcases lt_or_gt_of_ne hz with h | h
      · exact div_nonpos_of_nonneg_of_nonpos (by nlinarith) h.le
      · exact div_nonpos_of_nonpos_of_nonneg (by nlinarith) h.le

/-- C72: without samples of one of the levels, nan. -/
theorem C72_empty (nf : ℝ) (o : List VOut) (h : o.flatMap (·.y0) = [] ∨ o.flatMap (·.y1) = []) : (vMeasures nf o).vecp = NV.nan := by
  show vecpOf (o.flatMap (·.y0)) (o.flatMap (·.y1)) (vMeasures nf o).omaCross = _
  have he : ∀ q : ℚ, percentile q [] = none := by
    intro q
    unfold percentile
    simp
  unfold vecpOf
  rcases h with h | h
  · rw [h, he]
    split
    · rename_i h2 _
      cases h2
    · rfl
  · rw [h, he]

/-- Percentiles of a few samples. -/
example : percentile (1 / 2) [3, 1, 2, 7] = some (5 / 2) ∧ percentile (5 / 10000) [3, 1, 2, 7] = some 1 := by decide +kernel

/-- The hypotheses of C72 are met: an amplitude of 8 at the crossing, an inner amplitude of 4: 3 dB. -/
example : ∃ o : List VOut, o.flatMap (·.y0) ≠ [] ∧ o.flatMap (·.y1) ≠ [] ∧ ∃ oma, (vMeasures 0 o).omaCross = some oma ∧ oma.value = 8 := by
  refine ⟨[{ VOut.empty with y0 := [1, 3], y1 := [7, 9], y0Cross := [1], y1Cross := [9] }], by simp, by simp, ?_⟩
  obtain ⟨v, h1, h2, -⟩ := C63_oma 0 [{ VOut.empty with y0 := [1, 3], y1 := [7, 9], y0Cross := [1], y1Cross := [9] }] ⟨1, 0⟩ ⟨9, 0⟩
    (by have := describes_const 1; simpa [vMeasures] using this) (by have := describes_const 9; simpa [vMeasures] using this)
  exact ⟨v, h1, by rw [h2]; norm_num⟩

/-- Measures with and without samples. -/
example : (vMeasures 0 [{ VOut.empty with y0 := [1], cross := [2] }]).amp = none ∧ (hMeasures 4 [{ HOut.empty with riseHalf := [1] }]).t1Start ≠ none := by
  constructor
  · exact ((C63_nan_vertical 0 _).1 _ (List.mem_cons_self)).mpr (by simp [VOut.empty])
  · intro h
    have := ((C63_nan_horizontal 4 [{ HOut.empty with riseHalf := [1] }]).1 _ (List.mem_cons_of_mem _ List.mem_cons_self)).mp h
    simp at this

/-- The hypotheses of the other theorems are met. -/
example : (∃ o : List VOut, (vMeasures 0 o).y0 = some ⟨1, 0⟩ ∧ (vMeasures 0 o).y1 = some ⟨3, 0⟩) ∧
    ∃ o : List HOut, ofSamples ((o.flatMap (·.riseHalf)).map (· * 4)) = some ⟨4, 0⟩ ∧ ofSamples ((o.flatMap (·.crossRight)).map (· * 4)) = some ⟨8, 0⟩ := by
  refine ⟨⟨[{ VOut.empty with y0 := [1], y1 := [3] }], ?_, ?_⟩, ⟨[{ HOut.empty with riseHalf := [1], crossRight := [2] }], ?_, ?_⟩⟩
  · have := describes_const 1
    simpa [vMeasures] using this
  · have := describes_const 3
    simpa [vMeasures] using this
  · have := describes_const 4
    simpa using this
  · have := describes_const 8
    norm_num
    simpa using this

end Verif.Props.Pam2Ratios
