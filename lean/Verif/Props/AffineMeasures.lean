import Verif.Props.Affine
import Verif.Props.AutoLevels
import Verif.Model.Pam2Measures
import Mathlib.Tactic.Positivity

/-!
C75, continued: masks and measures.
-/

namespace Verif.Props.AffineMeasures

open Verif Verif.Props Verif.Lines Verif.Eye Verif.Pam2 Verif.Pipeline Verif.Mask Verif.Stats Verif.Props.Affine

/-! ### Masks -/

/-- A vertical coordinate of a mask in the other unit: those in UA have none. -/
def affQ (α : ℚ) (q : Qty) : Qty := if q.real then ⟨true, α * q.v⟩ else q

/-- A hexagon mask in the other unit. -/
def affHex (α : ℚ) (m : Hexagon) : Hexagon := { m with y1 := affQ α m.y1, yl := affQ α m.yl, yu := affQ α m.yu }

/-- A decagon mask in the other unit. -/
def affDec (α : ℚ) (m : Decagon) : Decagon := { m with y1 := affQ α m.y1, y2 := affQ α m.y2, yl := affQ α m.yl, yu := affQ α m.yu }

section
variable {α β : ℚ} (hα : 0 < α)
include hα

theorem convertUnit_aff (q : Qty) (u : ℚ) : convertUnit (affQ α q) (α * u) = convertUnit q u := by
  unfold convertUnit affQ
  by_cases h : q.real = true
  · simp only [h, if_true, mul_eq_zero, hα.ne', false_or, mul_div_mul_left _ _ hα.ne']
  · simp only [if_neg h]

theorem maskLoop_aff (δ T z u : ℚ) (paths : List (List (List Pt))) (ws : List Wf) (a : MaskAll) :
    maskLoop δ T (aff α β z) (α * u) paths (ws.map (affWf α β)) a = maskLoop δ T z u paths ws a := by
  induction ws generalizing a with
  | nil => rfl
  | cons w ws ih =>
    rw [List.map_cons]
    unfold maskLoop
    simp only [sampleMask, affWf, normalise_aff hα, ih]

/-- **C75.** A hexagon mask in the two units tests the same. -/
theorem C75_hexagon (m : Hexagon) : SameMask α β (some (sampleHexMask m)) (some (sampleHexMask (affHex α m))) := by
  intro δ T z u ws
  unfold sampleHexMask
  have : (affHex α m).convert (α * u) T = m.convert u T := by
    unfold Hexagon.convert affHex
    simp only [convertUnit_aff hα]
  rw [this]
  simp only [maskLoop_aff hα]

/-- **C75.** A decagon mask in the two units tests the same. -/
theorem C75_decagon (m : Decagon) : SameMask α β (some (sampleDecMask m)) (some (sampleDecMask (affDec α m))) := by
  intro δ T z u ws
  unfold sampleDecMask
  have : (affDec α m).convert (α * u) T = m.convert u T := by
    unfold Decagon.convert affDec
    simp only [convertUnit_aff hα]
  rw [this]
  simp only [maskLoop_aff hα]

omit hα in
/-- **C75.** The bits are the same. -/
theorem C75_bits (a : Analysis) (nrzm : Bool) : bits (affA α β a) nrzm = bits a nrzm := by
  unfold bits affA
  congr 1
  rw [Option.map_map]
  congr 1
  funext v
  simp only [Function.comp, List.map_map]
  rfl

end

/-! ### Measures -/

/-- A measure in the other unit. -/
noncomputable def affUV (α β : ℝ) (a : UV) : UV := ⟨α * a.value + β, α * a.stddev⟩

section
variable {α β : ℝ} (hα : 0 < α)
include hα

theorem sqrt_scale (s t : ℝ) : Real.sqrt ((α * s) ^ 2 + (α * t) ^ 2) = α * Real.sqrt (s ^ 2 + t ^ 2) := by
  rw [show (α * s) ^ 2 + (α * t) ^ 2 = α ^ 2 * (s ^ 2 + t ^ 2) by ring, Real.sqrt_mul (by positivity), Real.sqrt_sq hα.le]

theorem samples_affUV (x : List ℝ) : UV.samples (x.map fun v => α * v + β) = (UV.samples x).map (affUV α β) := by
  unfold UV.samples
  rw [List.length_map]
  by_cases h : x.length < 1
  · rw [if_pos h, if_pos h]; rfl
  · have hl : (x.length : ℝ) ≠ 0 := by
      have : x.length ≠ 0 := by omega
      exact_mod_cast this
    rw [if_neg h, if_neg h]
    have hs : ∀ l : List ℝ, (l.map fun v => α * v + β).sum = α * l.sum + β * l.length := by
      intro l
      induction l with
      | nil => simp
      | cons a l ih => rw [List.map_cons, List.sum_cons, ih, List.sum_cons, List.length_cons]; push_cast; ring
    have hm : (α * x.sum + β * x.length) / x.length = α * (x.sum / x.length) + β := by field_simp
    simp only [Option.map_some, affUV, hs, hm]
    congr 2
    have hv : ∀ (l : List ℝ) (m : ℝ), ((l.map fun v => α * v + β).map fun v => (v - (α * m + β)) * (v - (α * m + β))).sum =
        α ^ 2 * (l.map fun v => (v - m) * (v - m)).sum := by
      intro l m
      induction l with
      | nil => simp
      | cons a l ih => simp only [List.map_cons, List.sum_cons] at ih ⊢; rw [ih]; ring
    rw [hv, mul_div_assoc, Real.sqrt_mul (by positivity), Real.sqrt_sq hα.le]

theorem sub_affUV (a b : UV) : (affUV α β a).sub (affUV α β b) = affUV α 0 (a.sub b) := by
  unfold UV.sub affUV
  simp only [sqrt_scale hα, UV.mk.injEq, and_true]
  ring

omit hα in
theorem subC_affUV (a : UV) (c : ℝ) : (affUV α β a).subC (α * c + β) = affUV α 0 (a.subC c) := by
  unfold UV.subC affUV
  simp only [UV.mk.injEq, and_true]
  ring

theorem opening_affUV (a b : UV) : opening (affUV α β a) (affUV α β b) = affUV α 0 (opening a b) := by
  unfold opening UV.sub UV.subC UV.addC affUV
  simp only [sqrt_scale hα, UV.mk.injEq, and_true]
  ring

theorem npDiv_scale (a b : ℝ) : npDiv (α * a) (α * b) = npDiv a b := by
  unfold npDiv
  by_cases h : b = 0
  · simp [h]
  · rw [if_neg h, if_neg (mul_ne_zero hα.ne' h), mul_div_mul_left _ _ hα.ne']

theorem nvDiv_affUV (a b : UV) : nvDiv (affUV α 0 a) (affUV α 0 b) = nvDiv a b := by
  unfold nvDiv affUV
  simp only [add_zero, npDiv_scale hα]

theorem bothDiv_affUV (a b : Option UV) : bothDiv (a.map (affUV α 0)) (b.map (affUV α 0)) = bothDiv a b := by
  cases a <;> cases b <;> simp only [bothDiv, both, Option.map_none, Option.map_some, nvDiv_affUV hα, bind, Option.bind]

theorem nvDivC_affUV (a : UV) (c : ℝ) : nvDivC (affUV α 0 a) (α * c) = nvDivC a c := by
  unfold nvDivC affUV
  rw [abs_mul, abs_of_pos hα]
  simp only [add_zero, npDiv_scale hα]

omit hα in
theorem bothMap (f : UV → UV → UV) (h : ∀ a b, f (affUV α β a) (affUV α β b) = affUV α 0 (f a b)) (a b : Option UV) :
    both f (a.map (affUV α β)) (b.map (affUV α β)) = (both f a b).map (affUV α 0) := by
  cases a <;> cases b <;> simp only [both, Option.map_none, Option.map_some, bind, Option.bind, pure, h]

end

section
variable {α β : ℚ} (hα : 0 < α)
include hα

theorem ofSamples_aff (l : List ℚ) : ofSamples (l.map (aff α β)) = (ofSamples l).map (affUV α β) := by
  have : (0 : ℝ) < α := by exact_mod_cast hα
  unfold ofSamples
  rw [← samples_affUV this, List.map_map, List.map_map]
  congr 1
  apply List.map_congr_left
  intro x _
  unfold aff
  simp only [Function.comp]
  push_cast
  rfl

theorem percentile_aff (q : ℚ) (l : List ℚ) : percentile q (l.map (aff α β)) = (percentile q l).map (aff α β) := by
  have hs : (l.map (aff α β)).insertionSort (· ≤ ·) = (l.insertionSort (· ≤ ·)).map (aff α β) := by
    rw [List.map_insertionSort (r := (· ≤ ·)) (s := (· ≤ ·))]
    intro a _ b _
    rw [← not_lt, ← not_lt, aff_lt hα]
  unfold percentile
  simp only [hs, List.length_map, List.head?_map, List.getLast?_map, List.getElem?_map]
  split
  · rfl
  · split
    · rfl
    · generalize (l.insertionSort (· ≤ ·)) = s
      generalize (s.length : ℚ) * q + (1 / 3 + q * (1 - 1 / 3 - 1 / 3)) - 1 = p
      generalize s[⌊p⌋.toNat]? = a
      generalize s[⌊p⌋.toNat + 1]? = b
      cases a <;> cases b <;> simp only [Option.map_none, Option.map_some, bind, Option.bind, pure]
      congr 1
      unfold aff
      ring

theorem vecpOf_aff (l0 l1 : List ℚ) (oma : Option UV) :
    vecpOf (l0.map (aff α β)) (l1.map (aff α β)) (oma.map (affUV α 0)) = vecpOf l0 l1 oma := by
  have hR : (0 : ℝ) < α := by exact_mod_cast hα
  unfold vecpOf
  rw [percentile_aff hα, percentile_aff hα]
  generalize percentile (5 / 10000) l1 = a
  generalize percentile (9995 / 10000) l0 = b
  cases a <;> cases b <;> cases oma <;> simp only [Option.map_none, Option.map_some]
  rename_i a b o
  rw [show ((aff α β a - aff α β b : ℚ) : ℝ) = α * ((a - b : ℚ) : ℝ) by unfold aff; push_cast; ring, nvDivC_affUV hR]

/-- The vertical measures in the other unit: the levels follow the unit, the distances have no offset, the ratios have no unit. -/
noncomputable def affVM (α β : ℝ) (m : VMeasures) : VMeasures :=
  { y0 := m.y0.map (affUV α β), y1 := m.y1.map (affUV α β), cross := m.cross.map (affUV α β)
    y0Cross := m.y0Cross.map (affUV α β), y1Cross := m.y1Cross.map (affUV α β), avg := m.avg.map (affUV α β)
    amp := m.amp.map (affUV α 0), height := m.height.map (affUV α 0), omaCross := m.omaCross.map (affUV α 0)
    heightR := m.heightR, snr := m.snr, crossR := m.crossR, extinction := m.extinction, vecp := m.vecp, trans := m.trans }

/-- **C75.** The vertical measures of the samples in two units with an offset: the levels are those in the other unit, the distances are scaled,
the ratios, the signal to noise ratio, the eye closure penalty and the counts of transitions are the same.  The noise floor is a level. -/
theorem C75_measures (nf : ℝ) (o : List VOut) : vMeasures (α * nf + β) (o.map (affV α β)) = affVM α β (vMeasures nf o) := by
  have hR : (0 : ℝ) < α := by exact_mod_cast hα
  have hf : ∀ (f : VOut → List ℚ), (∀ v, f (affV α β v) = (f v).map (aff α β)) →
      (o.map (affV α β)).flatMap f = (o.flatMap f).map (aff α β) := by
    intro f h
    rw [List.flatMap_map, List.map_flatMap]
    congr 1
    funext v
    exact h v
  unfold vMeasures affVM
  simp only [hf (·.y0) fun _ => rfl, hf (·.y1) fun _ => rfl, hf (·.cross) fun _ => rfl, hf (·.y0Cross) fun _ => rfl,
    hf (·.y1Cross) fun _ => rfl, hf (·.avg) fun _ => rfl, ofSamples_aff hα, bothMap UV.sub (sub_affUV hR),
    bothMap opening (opening_affUV hR), bothDiv_affUV hR, vecpOf_aff hα]
  congr 1
  · generalize ofSamples (o.flatMap (·.y0)) = a
    generalize ofSamples (o.flatMap (·.y1)) = b
    cases a <;> cases b <;> simp only [both, Option.map_none, Option.map_some, bind, Option.bind, pure]
    rename_i a b
    congr 1
    rw [sub_affUV hR, show (affUV α β b).stddev + (affUV α β a).stddev = α * (b.stddev + a.stddev) by unfold affUV; ring, nvDivC_affUV hR]
  · refine Eq.trans ?_ (bothDiv_affUV hR _ _)
    simp only [Option.map_map]
    congr 2 <;> funext a <;> exact subC_affUV a nf
  · funext x y z
    rw [List.map_map]
    rfl

end

/-! ### Automatic levels -/

section
variable {α β : ℚ} (hα : 0 < α)
include hα

theorem aff_le (x y : ℚ) : aff α β x ≤ aff α β y ↔ x ≤ y := by
  rw [← not_lt, ← not_lt, aff_lt hα]

theorem minimum_aff (y : List ℚ) : minimum (y.map (aff α β)) = (minimum y).map (aff α β) := by
  cases y with
  | nil => rfl
  | cons a l =>
    rw [List.map_cons]
    simp only [minimum, Except.map]
    congr 1
    induction l generalizing a with
    | nil => rfl
    | cons b l ih =>
      rw [List.map_cons, List.foldl_cons, List.foldl_cons, ← ih]
      congr 1
      rcases le_total a b with h | h
      · rw [min_eq_left h, min_eq_left ((aff_le hα a b).2 h)]
      · rw [min_eq_right h, min_eq_right ((aff_le hα b a).2 h)]

theorem maximum_aff (y : List ℚ) : maximum (y.map (aff α β)) = (maximum y).map (aff α β) := by
  cases y with
  | nil => rfl
  | cons a l =>
    rw [List.map_cons]
    simp only [maximum, Except.map]
    congr 1
    induction l generalizing a with
    | nil => rfl
    | cons b l ih =>
      rw [List.map_cons, List.foldl_cons, List.foldl_cons, ← ih]
      congr 1
      rcases le_total a b with h | h
      · rw [max_eq_right h, max_eq_right ((aff_le hα a b).2 h)]
      · rw [max_eq_left h, max_eq_left ((aff_le hα b a).2 h)]

theorem linearRange_aff (y : List ℚ) (h : ∃ a ∈ y, ∃ b ∈ y, a ≠ b) :
    linearRange (y.map (aff α β)) = (linearRange y).map fun r => (aff α β r.1, aff α β r.2) := by
  obtain ⟨a, ha, b, hb, hab⟩ := h
  have hne : y ≠ [] := List.ne_nil_of_mem ha
  obtain ⟨lo, e1, -, l1⟩ := Verif.Props.Stats.min_spec y hne
  obtain ⟨hi, e2, -, l2⟩ := Verif.Props.Stats.max_spec y hne
  have hlh : lo ≠ hi := by
    intro h
    apply hab
    have := l1 a ha; have := l2 a ha; have := l1 b hb; have := l2 b hb
    linarith
  unfold linearRange
  rw [minimum_aff hα, maximum_aff hα, e1, e2]
  simp only [Except.map, bind, Except.bind, pure, Except.pure]
  rw [if_neg hlh, if_neg (fun h => hlh ((aff_inj hα _ _).1 h))]

omit hα in
theorem linspace_aff (lo hi : ℚ) (n : ℕ) : linspace (aff α β lo) (aff α β hi) n = (linspace lo hi n).map (aff α β) := by
  unfold linspace
  rw [List.map_map]
  apply List.map_congr_left
  intro i _
  simp only [Function.comp, aff]
  ring

theorem histogram_aff (y e : List ℚ) : histogram (y.map (aff α β)) (e.map (aff α β)) = histogram y e := by
  have h1 : ∀ v, (y.map (aff α β)).countP (· < aff α β v) = y.countP (· < v) := by
    intro v
    rw [List.countP_map]
    congr 1
    funext x
    simp only [Function.comp, aff_lt hα]
  have h2 : ∀ v, (y.map (aff α β)).countP (· ≤ aff α β v) = y.countP (· ≤ v) := by
    intro v
    rw [List.countP_map]
    congr 1
    funext x
    simp only [Function.comp, aff_le hα]
  unfold histogram
  rw [← List.map_dropLast, List.map_map, List.getLast?_map]
  congr 2
  · apply List.map_congr_left
    intro v _
    simp only [Function.comp, h1]
  · cases e.getLast? with
    | none => rfl
    | some v => simp only [Option.map_some, h2]

omit hα in
theorem midpoints_aff (e : List ℚ) : midpoints (e.map (aff α β)) = (midpoints e).map (aff α β) := by
  induction e with
  | nil => rfl
  | cons a e ih =>
    cases e with
    | nil => rfl
    | cons b e =>
      simp only [List.map_cons, midpoints] at ih ⊢
      rw [ih]
      congr 1
      unfold aff
      ring

omit hα in
theorem expand_aff (c : ℚ) (n : List ℤ) (b : List ℚ) : expand c n (b.map (aff α β)) = (expand c n b).map (aff α β) := by
  unfold expand
  rw [List.zip_map_right, List.flatMap_map, List.map_flatMap]
  congr 1
  funext p
  rw [List.map_replicate]
  rfl

theorem downsample_aff (y : List ℚ) (n : ℚ) (k : ℕ) (h : ∃ a ∈ y, ∃ b ∈ y, a ≠ b) :
    downsample (y.map (aff α β)) n (some k) = (downsample y n (some k)).map fun d => d.map (aff α β) := by
  unfold downsample binLinear
  rw [List.length_map, linearRange_aff hα y h]
  split
  · rfl
  · simp only
    split
    · rfl
    · cases linearRange y with
      | error e => rfl
      | ok r =>
        simp only [Except.map, bind, Except.bind, pure, Except.pure, linspace_aff, histogram_aff hα, midpoints_aff, expand_aff]

omit hα in
theorem decimate_aff (k : ℕ) (y : List ℚ) : AutoLevels.decimate k (y.map (aff α β)) = (AutoLevels.decimate k y).map (aff α β) := by
  unfold AutoLevels.decimate
  rw [List.length_map, List.map_filterMap]
  simp only [List.getElem?_map]

omit hα in
theorem thinned_aff (n : ℚ) (y : List ℚ) : AutoLevels.thinned n (y.map (aff α β)) = (AutoLevels.thinned n y).map (aff α β) := by
  unfold AutoLevels.thinned
  rw [List.length_map]
  split
  · exact decimate_aff _ y
  · rfl

theorem constant_aff (l : List ℚ) : AutoLevels.constant (l.map (aff α β)) = AutoLevels.constant l := by
  cases l with
  | nil => rfl
  | cons a l =>
    simp only [List.map_cons, AutoLevels.constant, List.all_map]
    congr 1
    funext x
    simp only [Function.comp]
    rw [Bool.eq_iff_iff, beq_iff_eq, beq_iff_eq, aff_inj hα]

/-- **C75.** The measured levels in another unit.  `hf`, `hd`: so does the fit of a mixture, and the standard deviation is scaled. -/
theorem C75_levels (dev : List ℚ → ℚ) (fit : List ℚ → Except PyErr ℚ) (hf : ∀ l, fit (l.map (aff α β)) = (fit l).map (aff α β))
    (hd : ∀ l, dev (l.map (aff α β)) = α * dev l) (nMax : Option ℚ) (hn : ∀ n, nMax = some n → 0 < n) (y : List ℚ) :
    AutoLevels.runnerLevels dev fit nMax (y.map (aff α β)) =
      (AutoLevels.runnerLevels dev fit nMax y).map fun m => (affLevel α β m.1, affLevel α β m.2) := by
  have hc : ∀ l, AutoLevels.fitCenter fit (l.map (aff α β)) = (AutoLevels.fitCenter fit l).map (aff α β) := by
    intro l
    cases l with
    | nil => rfl
    | cons a l =>
      have := constant_aff hα (β := β) (a :: l)
      have h2 := hf (a :: l)
      rw [List.map_cons] at this h2 ⊢
      simp only [AutoLevels.fitCenter]
      rw [this, h2]
      split <;> rfl
  have hv : ∀ l, AutoLevels.deviation dev (l.map (aff α β)) = α * AutoLevels.deviation dev l := by
    intro l
    unfold AutoLevels.deviation
    rw [constant_aff hα, hd]
    split <;> simp
  have key : AutoLevels.reduced nMax (y.map (aff α β)) = (AutoLevels.reduced nMax y).map (fun d => d.map (aff α β)) →
      AutoLevels.runnerLevels dev fit nMax (y.map (aff α β)) =
      (AutoLevels.runnerLevels dev fit nMax y).map fun m => (affLevel α β m.1, affLevel α β m.2) := by
    intro h
    unfold AutoLevels.runnerLevels
    rw [h]
    cases AutoLevels.reduced nMax y with
    | error e => rfl
    | ok d =>
      simp only [Except.map, bind, Except.bind, minimum_aff hα, maximum_aff hα]
      cases minimum d with
      | error e => rfl
      | ok lo =>
        cases maximum d with
        | error e => rfl
        | ok hi =>
          simp only
          have hm : (aff α β lo + aff α β hi) / 2 = aff α β ((lo + hi) / 2) := by unfold aff; ring
          have f0 : (d.map (aff α β)).filter (· < aff α β ((lo + hi) / 2)) = (d.filter (· < (lo + hi) / 2)).map (aff α β) := by
            rw [List.filter_map]
            congr 1
            apply List.filter_congr
            intro x _
            simp only [Function.comp, aff_lt hα]
          have f1 : (d.map (aff α β)).filter (aff α β ((lo + hi) / 2) < ·) = (d.filter ((lo + hi) / 2 < ·)).map (aff α β) := by
            rw [List.filter_map]
            congr 1
            apply List.filter_congr
            intro x _
            simp only [Function.comp, aff_lt hα]
          rw [hm, f0, f1, hc, hc, hv, hv]
          cases AutoLevels.fitCenter fit (d.filter (· < (lo + hi) / 2)) with
          | error e => rfl
          | ok c0 =>
            cases AutoLevels.fitCenter fit (d.filter ((lo + hi) / 2 < ·)) with
            | error e => rfl
            | ok c1 => rfl
  cases nMax with
  | none => exact key rfl
  | some n =>
    have h0 := hn n rfl
    by_cases hy : y = []
    · apply key
      subst hy
      simp only [AutoLevels.reduced, h0.ne', List.map_nil, List.length_nil, Nat.cast_zero, zero_div, if_false, downsample]
      norm_num
      rfl
    · by_cases hd : ∃ a ∈ AutoLevels.thinned n y, ∃ b ∈ AutoLevels.thinned n y, a ≠ b
      · apply key
        have : ∀ y, AutoLevels.reduced (some n) y = downsample (AutoLevels.thinned n y) n (some 500) := by
          intro y
          unfold AutoLevels.reduced AutoLevels.thinned
          simp only [h0.ne', if_false]
        rw [this, this, thinned_aff, downsample_aff hα _ n 500 hd]
      · push Not at hd
        have : ∃ a, ∀ v ∈ AutoLevels.thinned n y, v = a := by
          cases ht : AutoLevels.thinned n y with
          | nil => exact ⟨0, by simp⟩
          | cons a l => exact ⟨a, fun v hv => hd v (by rw [ht]; exact hv) a (by rw [ht]; simp)⟩
        obtain ⟨a, ha⟩ := this
        rw [AutoLevels.constant_levels dev fit n h0 y hy a ha,
          AutoLevels.constant_levels dev fit n h0 (y.map (aff α β)) (by simpa using hy) (aff α β a)]
        · rfl
        · intro v hv
          rw [thinned_aff, List.mem_map] at hv
          obtain ⟨u, hu, rfl⟩ := hv
          rw [ha u hu]

/-- **C75.** The whole analysis with measured levels. -/
theorem C75_auto (dev : List ℚ → ℚ) (fit : List ℚ → Except PyErr ℚ) (hf : ∀ l, fit (l.map (aff α β)) = (fit l).map (aff α β))
    (hd : ∀ l, dev (l.map (aff α β)) = α * dev l) (nMax : Option ℚ) (hn : ∀ n, nMax = some n → 0 < n) (s : Settings)
    (given : Option (List (List (Option ℚ)))) (clocks : Option (List Wave)) (cdr : List (Option ℚ) → Except PyErr (List (Option ℚ)))
    (mask mask' : Option MaskFn) (hm : SameMask α β mask mask') (wfs : List Wave) :
    AutoLevels.calculateAuto dev fit nMax (affS α β s) given (clocks.map fun c => c.map (affW α β)) cdr mask' (wfs.map (affW α β)) =
      (AutoLevels.calculateAuto dev fit nMax s given clocks cdr mask wfs).map (affA α β) := by
  have hy : (wfs.map (affW α β)).flatMap (·.2) = (wfs.flatMap (·.2)).map (aff α β) := by
    rw [List.flatMap_map, List.map_flatMap]
    rfl
  unfold AutoLevels.calculateAuto AutoLevels.measured
  rw [hy, C75_levels hα dev fit hf hd nMax hn]
  by_cases h : s.level.y0 = none ∨ s.level.y1 = none
  · have h' : (affS α β s).level.y0 = none ∨ (affS α β s).level.y1 = none := by simpa [affS, affC] using h
    rw [if_pos h, if_pos h']
    cases AutoLevels.runnerLevels dev fit nMax (wfs.flatMap (·.2)) with
    | error e => rfl
    | ok m =>
      simp only [Except.map, bind, Except.bind]
      exact C75_vertical hα s m given clocks cdr mask mask' hm wfs
  · have h' : ¬((affS α β s).level.y0 = none ∨ (affS α β s).level.y1 = none) := by simpa [affS, affC] using h
    rw [if_neg h, if_neg h']
    have hl : ∀ m, levels (affS α β s).level (⟨0, 0⟩, ⟨0, 0⟩) = levels (affS α β s).level m := by
      intro m
      unfold levels startLevels
      simp only [if_neg h']
    refine Eq.trans ?_ (C75_vertical hα s _ given clocks cdr mask mask' hm wfs)
    simp only [bind, Except.bind]
    unfold calculateAll
    rw [hl]

end

/-! ### Cases -/

/-- A fit as in `C75_levels`: the mean of the extremes. -/
def exFit (l : List ℚ) : Except PyErr ℚ := do
  let a ← minimum l
  let b ← maximum l
  return (a + b) / 2

/-- A deviation as in `C75_levels`: the range. -/
def exDev (l : List ℚ) : ℚ :=
  match minimum l, maximum l with
  | .ok a, .ok b => b - a
  | _, _ => 0

/-- The conditions on the fit and the deviation can be met. -/
example : (∀ l, exFit (l.map (aff 1000 5)) = (exFit l).map (aff 1000 5)) ∧ (∀ l, exDev (l.map (aff 1000 5)) = 1000 * exDev l) ∧
    exFit [0, 1, 1] = .ok (1 / 2) ∧ exDev [0, 1, 1] = 1 := by
  have h : (0 : ℚ) < 1000 := by norm_num
  refine ⟨fun l => ?_, fun l => ?_, by decide +kernel, by decide +kernel⟩
  · simp only [exFit, minimum_aff h, maximum_aff h]
    cases minimum l <;> cases maximum l <;> simp only [Except.map, bind, Except.bind, pure, Except.pure]
    congr 1
    unfold aff
    ring
  · simp only [exDev, minimum_aff h, maximum_aff h]
    cases minimum l <;> cases maximum l <;> simp only [Except.map]
    · simp
    · simp
    · simp
    · unfold aff
      ring

open Verif.Props.Pipeline Verif.Props.EyeMask in
/-- The square wave of C69 in volts and in millivolts with an offset of 5 mV, with a mask that has its upper limit in
volts: the same analysis, which completes. -/
example : calculateAll (affS 1000 5 (exSettings (4 / 5))) (⟨5, 0⟩, ⟨5, 0⟩) (some [[some 6, some 10, some 14]]) none (fun _ => .ok [])
    (some (sampleHexMask (affHex 1000 exHexZero))) [affW 1000 5 exWave] =
      (calculateAll (exSettings (4 / 5)) (⟨0, 0⟩, ⟨0, 0⟩) (some [[some 6, some 10, some 14]]) none (fun _ => .ok []) (some (sampleHexMask exHexZero))
        [exWave]).map (affA 1000 5) := by
  have := C75_vertical (α := 1000) (β := 5) (by norm_num) (exSettings (4 / 5)) (⟨0, 0⟩, ⟨0, 0⟩) (some [[some 6, some 10, some 14]]) none
    (fun _ => .ok []) _ _ (C75_hexagon (β := 5) (by norm_num) exHexZero) [exWave]
  have h5 : affLevel 1000 5 (⟨0, 0⟩ : Level ℚ) = ⟨5, 0⟩ := by unfold affLevel aff; norm_num
  simp only [h5] at this
  exact this

open Verif.Props.Pipeline in
/-- The settings in millivolts: levels 5 and 1005. -/
example : (affS 1000 5 (exSettings (4 / 5))).level = ⟨some 5, some 1005, none, none, 1 / 10⟩ := by
  unfold affS affC exSettings aff
  norm_num

open Verif.Props.EyeMask in
/-- Its upper limit is 250 mV above, all else is in UI and UA. -/
example : affHex 1000 exHexZero = { exHexZero with yu := ⟨true, 250⟩ } := by decide +kernel

/-- A mask of 200 mV given in volts is one of 200 in millivolts. -/
example : affQ 1000 ⟨true, 1 / 5⟩ = ⟨true, 200⟩ ∧ affQ 1000 ⟨false, 1 / 5⟩ = ⟨false, 1 / 5⟩ := by decide +kernel

/-- An amplitude of 1 V between samples at 0, 0 and 1, 1 is 1000 mV. -/
example : (affVM 1000 5 (vMeasures 0 [⟨[0, 0], [1, 1], [], [], [], [], fun _ _ _ => 0, []⟩])).amp = some ⟨1000, 0⟩ := by
  unfold affVM vMeasures
  simp [ofSamples, UV.samples, both, UV.sub, affUV]

end Verif.Props.AffineMeasures
