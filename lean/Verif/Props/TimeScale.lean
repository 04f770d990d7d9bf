import Verif.Props.AffineMeasures
import Verif.Props.CdrSearch

/-!
C76: the results do not depend on the unit of time, nor on the start of the records if it moves by whole samples.
-/

namespace Verif.Props.TimeScale

open Verif Verif.Props Verif.Lines Verif.Eye Verif.Pam2 Verif.Pipeline Verif.Mask Verif.Props.Affine Verif.Props.AffineMeasures

/-- A waveform with other times: `aff α β t = α * t + β`. -/
def tW (α β : ℚ) (w : Wave) : Wave := (w.1.map (aff α β), w.2)

/-- Clock edges with other times. -/
def tE (α β : ℚ) (e : List (Option ℚ)) : List (Option ℚ) := e.map fun t => t.map (aff α β)

/-- A symbol with other times: the index is the same, the remainder of its time is a duration. -/
def tC (α : ℚ) (c : Center) : Center := ⟨c.i, α * c.t⟩

/-- A waveform and its symbols. -/
def tWf (α : ℚ) (w : Wf) : Wf := ⟨w.y, w.centers.map (tC α)⟩

/-- The settings: only the period is a time. -/
def tS (α : ℚ) (s : Settings) : Settings := { s with period := s.period.map (α * ·) }

/-- The results: only the symbol period and the remainders of the symbols are times, all else is in UI. -/
def tA (α : ℚ) (a : Analysis) : Analysis := ⟨α * a.tSym, a.wfs.map (tWf α), a.v, a.picture⟩

/-- A mask in the two units: the same test. -/
def SameMaskT (α : ℚ) (mask mask' : Option MaskFn) : Prop :=
  match mask, mask' with
  | none, none => True
  | some f, some f' => ∀ δ T z u ws, f' (α * δ) (α * T) z u (ws.map (tWf α)) = f δ T z u ws
  | _, _ => False

section
variable {α β : ℚ} (hα : 0 < α)
include hα

/-! ### Edges -/

omit hα in
theorem crossing_t (ret srch : List ℚ) (i : ℤ) (value : ℚ) (fwd : Bool) (n : ℕ) :
    crossing (ret.map (aff α β)) srch i value fwd n = (crossing ret srch i value fwd n).map fun c => (c.1.map (aff α β), c.2) := by
  unfold crossing
  simp only [pyGet_map]
  generalize (if n = 0 then srch.length else n) = n
  cases crossLoop srch value fwd n (n + 1) i with
  | error e => rfl
  | ok j =>
    simp only [bind, Except.bind]
    by_cases h : j < 1 ∨ j ≥ n
    · rw [if_pos h, if_pos h]
      rfl
    · rw [if_neg h, if_neg h]
      cases pyGet ret (j.toNat - 1) <;> cases pyGet ret j.toNat <;> cases pyGet srch (j.toNat - 1) <;> cases pyGet srch j.toNat <;>
        simp only [Except.map, pure, Except.pure, Option.map_some]
      congr 3
      unfold aff
      ring

/-- The loop variables with other times. -/
def tEs (α β : ℚ) (s : EdgeState) : EdgeState := ⟨s.low, tE α β s.rise, tE α β s.fall⟩

omit hα in
theorem edgesNp_t (t y : List ℚ) (r h f : ℚ) :
    edgesNp (t.map (aff α β)) y r h f = (edgesNp t y r h f).map fun e => (tE α β e.1, tE α β e.2) := by
  have hs : ∀ s i, Lines.edgeStep (t.map (aff α β)) y r h f t.length (tEs α β s) i = (Lines.edgeStep t y r h f t.length s i).map (tEs α β) := by
    intro s i
    unfold Lines.edgeStep
    cases pyGet y i with
    | error e => rfl
    | ok v =>
      simp only [bind, Except.bind, crossing_t]
      obtain ⟨low, rise, fall⟩ := s
      cases low <;> simp only [tEs, if_true, Bool.false_eq_true, if_false]
      · split
        · cases crossing t y i h false t.length with
          | error e => rfl
          | ok c => simp [Except.map, pure, Except.pure, tE, tEs]
        · rfl
      · split
        · cases crossing t y i h false t.length with
          | error e => rfl
          | ok c => simp [Except.map, pure, Except.pure, tE, tEs]
        · rfl
  unfold edgesNp
  rw [List.length_map]
  cases pyGet y 0 with
  | error e => rfl
  | ok y0 =>
    simp only [bind, Except.bind]
    have := foldlM_map (tEs α β) (Lines.edgeStep t y r h f t.length) (Lines.edgeStep (t.map (aff α β)) y r h f t.length) hs
      (List.range' 1 (t.length - 1)) ⟨decide (y0 < f), [], []⟩
    rw [show tEs α β ⟨decide (y0 < f), [], []⟩ = ⟨decide (y0 < f), [], []⟩ from rfl] at this
    rw [this]
    cases (List.range' 1 (t.length - 1)).foldlM (Lines.edgeStep t y r h f t.length) ⟨decide (y0 < f), [], []⟩ <;> rfl

theorem sortNan_t (l : List (Option ℚ)) : sortNan (tE α β l) = tE α β (sortNan l) := by
  unfold sortNan tE
  symm
  apply List.map_mergeSort
  intro a _ b _
  cases a <;> cases b <;> simp only [Option.map_none, Option.map_some, aff_le hα]

theorem selectedEdges_t (w : Wave) (l : Levels ℚ) (p : Polarity) : selectedEdges (tW α β w) l p = (selectedEdges w l p).map (tE α β) := by
  unfold selectedEdges tW
  rw [edgesNp_t]
  cases edgesNp w.1 w.2 l.rising l.half l.falling with
  | error e => rfl
  | ok e =>
    simp only [Except.map, bind, Except.bind, pure, Except.pure]
    congr 1
    cases p
    · rfl
    · rfl
    · simp only [filterPolarity]
      rw [← sortNan_t hα]
      unfold tE
      rw [List.map_append]

theorem arange_t (a b s : ℚ) : arange (aff α β a) (aff α β b) (α * s) = (arange a b s).map (aff α β) := by
  unfold arange
  rw [aff_sub, mul_div_mul_left _ _ hα.ne', List.map_map]
  apply List.map_congr_left
  intro i _
  simp only [Function.comp, aff]
  ring

theorem fallback_t (t : List ℚ) (p : ℚ) : fallbackEdges (t.map (aff α β)) (α * p) = (fallbackEdges t p).map fun e => e.map (aff α β) := by
  unfold fallbackEdges
  rw [List.head?_map, List.getLast?_map]
  cases t.head? <;> cases t.getLast? <;> simp only [Option.map_none, Option.map_some]
  · rfl
  · rfl
  · rfl
  · by_cases h : p = 0
    · simp [h, Except.map]
    · rw [if_neg h, if_neg (mul_ne_zero hα.ne' h)]
      simp only [Except.map]
      congr 1
      rename_i a b
      rw [← arange_t hα]
      congr 1
      unfold aff
      ring

theorem clockEdges_t (given : Option (List (List (Option ℚ)))) (clocks : Option (List Wave)) (wfs : List Wave) (l : Levels ℚ) (p : Polarity)
    (cdr cdr' : List (Option ℚ) → Except PyErr (List (Option ℚ))) (hc : ∀ e, cdr' (tE α β e) = (cdr e).map (tE α β)) (period : Option ℚ) :
    clockEdges (given.map fun g => g.map (tE α β)) (clocks.map fun c => c.map (tW α β)) (wfs.map (tW α β)) l p cdr' (period.map (α * ·)) =
      (clockEdges given clocks wfs l p cdr period).map fun e => e.map (tE α β) := by
  unfold clockEdges
  rcases given with _ | e
  · rcases clocks with _ | c
    · simp only [Option.map_none]
      split
      · apply mapM_map'
        intro w
        cases period with
        | none => rfl
        | some t =>
          simp only [Option.map_some, tW, fallback_t hα]
          cases fallbackEdges w.1 t with
          | error e => rfl
          | ok e => simp [Except.map, bind, Except.bind, pure, Except.pure, tE]
      · apply mapM_map'
        intro w
        rw [selectedEdges_t hα]
        cases selectedEdges w l p with
        | error e => rfl
        | ok e => exact hc e
    · simp only [Option.map_none, Option.map_some]
      exact mapM_map' _ _ _ _ (fun w => selectedEdges_t hα w l p) c
  · rfl

omit hα in
theorem finite_t (e : List (List (Option ℚ))) : Pipeline.finite (e.map (tE α β)) = (Pipeline.finite e).map fun r => r.map fun l => l.map (aff α β) := by
  unfold Pipeline.finite
  apply mapM_map'
  intro l
  unfold tE
  apply mapM_map'
  intro t
  cases t <;> rfl

omit hα in
theorem diffs_t (l : List ℚ) : diffs (l.map (aff α β)) = (diffs l).map (aff α 0) := by
  induction l with
  | nil => rfl
  | cons a l ih =>
    cases l with
    | nil => rfl
    | cons b l =>
      simp only [List.map_cons, diffs] at ih ⊢
      rw [ih]
      congr 1
      unfold aff
      ring

theorem symbolPeriod_t (e : List (List ℚ)) :
    symbolPeriod (e.map fun l => l.map (aff α β)) = (symbolPeriod e).map fun T => T.map (aff α 0) := by
  unfold symbolPeriod
  by_cases h : e = []
  · simp [h, Except.map]
  · rw [if_neg (by simpa using h), if_neg h]
    have : ((e.map fun l => l.map (aff α β)).map diffs).flatten = ((e.map diffs).flatten).map (aff α 0) := by
      rw [List.map_map, List.map_flatten, List.map_map]
      congr 1
      apply List.map_congr_left
      intro l _
      exact diffs_t l
    simp only [this, mean_aff]
    generalize (e.map diffs).flatten = ps
    cases mean ps with
    | none => rfl
    | some m =>
      simp only [Option.map_some, Except.map]
      congr 1
      rw [← mean_aff, List.filter_map]
      congr 2
      apply List.filter_congr
      intro x _
      simp only [Function.comp]
      rw [show 10 * aff α 0 m = aff α 0 (10 * m) by unfold aff; ring]
      simp only [aff_lt hα]

/-! ### Symbols -/

omit hα in
theorem tDelta_t (wfs : List Wave) : tDelta (wfs.map (tW α β)) = (tDelta wfs).map (α * ·) := by
  cases wfs with
  | nil => rfl
  | cons w l =>
    simp only [List.map_cons, tDelta, tW, List.head?_map, List.getLast?_map, List.length_map]
    cases w.1.head? <;> cases w.1.getLast? <;> simp only [Option.map_none, Option.map_some] <;> try rfl
    split
    · rfl
    · simp only [Except.map, aff_sub]
      rw [mul_div_assoc]

theorem pyMod_t (b δ : ℚ) (k : ℤ) (hβ : β = k * (α * δ)) : pyMod (aff α β b) (α * δ) = α * pyMod b δ := by
  unfold pyMod aff
  by_cases h : δ = 0
  · simp [hβ, h]
  · rw [hβ, show (α * b + k * (α * δ)) / (α * δ) = b / δ + k by field_simp, Int.floor_add_intCast]
    push_cast
    ring

theorem iWidth_t (T δ : ℚ) : iWidth (α * T) (α * δ) = iWidth T δ := by
  unfold iWidth
  rw [mul_div_mul_left _ _ hα.ne']

theorem sampleEdges_t (T δ t0 : ℚ) (n : ℕ) (e : List ℚ) (k : ℤ) (hβ : β = k * (α * δ)) :
    sampleEdges (α * T) (α * δ) (aff α β t0) n (e.map (aff α β)) = (sampleEdges T δ t0 n e).map (tC α) := by
  unfold sampleEdges
  rw [List.filterMap_map, List.map_filterMap]
  congr 1
  funext b
  simp only [Function.comp]
  unfold sampleEdge
  have h1 : (aff α β b - aff α β t0 - α * pyMod b δ) / (α * δ) = (b - t0 - pyMod b δ) / δ := by
    rw [aff_sub, ← mul_sub, mul_div_mul_left _ _ hα.ne']
  simp only [pyMod_t hα b δ k hβ, iWidth_t hα, h1]
  split
  · rfl
  · simp [tC]

theorem gridT_t (T δ : ℚ) : gridT (α * T) (α * δ) = gridT T δ := by
  unfold gridT
  simp only [iWidth_t hα]
  rw [show (iWidth T δ : ℚ) * (α * δ) = α * (iWidth T δ * δ) by ring, mul_div_mul_left _ _ hα.ne']

theorem window_t (ys : List ℚ) (T δ : ℚ) (c : Center) : window ys (α * T) (α * δ) (tC α c) = window ys T δ c := by
  unfold window
  simp only [gridT_t hα, iWidth_t hα, tC, mul_div_mul_left _ _ hα.ne']

theorem points_t (ys : List ℚ) (T δ : ℚ) (c : Center) : points ys (α * T) (α * δ) (tC α c) = points ys T δ c := by
  unfold points
  simp only [gridT_t hα, iWidth_t hα, tC, mul_div_mul_left _ _ hα.ne']

theorem sampleVertical_t (ys : List ℚ) (cs : List Center) (δ T h lw cw : ℚ) :
    sampleVertical ys (cs.map (tC α)) (α * δ) (α * T) h lw cw = sampleVertical ys cs δ T h lw cw := by
  unfold sampleVertical
  have : abcWidth lw (α * δ) (α * T) = abcWidth lw δ T := by
    unfold abcWidth
    rw [show 101 / 100 * (α * δ) = α * (101 / 100 * δ) by ring, mul_div_mul_left _ _ hα.ne']
  rw [List.foldlM_map, this]
  simp only [points_t hα]

theorem hStep_t (ys : List ℚ) (T δ : ℚ) (w : HWin) (v : HOut) (c : Center) (d : ℤ) :
    hStep ys (α * T) (α * δ) w v (tC α c, d) = hStep ys T δ w v (c, d) := by
  unfold hStep
  simp only [points_t hα]
  simp only [gridT_t hα, iWidth_t hα, edgeRange, tC, mul_div_mul_left _ _ hα.ne']

theorem sampleHorizontal_t (ys : List ℚ) (cs : List Center) (dirs : List ℤ) (δ T z u : ℚ) (x : Option ℚ) (h lo up : ℚ) :
    sampleHorizontal ys (cs.map (tC α)) dirs (α * δ) (α * T) z u x h lo up = sampleHorizontal ys cs dirs δ T z u x h lo up := by
  unfold sampleHorizontal
  rw [List.zip_map_left, List.foldlM_map]
  congr 1
  funext v p
  exact hStep_t hα _ T δ _ v p.1 p.2

theorem bathtubCurve_t (ws : List Wf) (δ T z u l : ℚ) :
    bathtubCurve (ws.map (tWf α)) (α * δ) (α * T) z u l = bathtubCurve ws δ T z u l := by
  have : ∀ w : Wf, ySlice (tWf α w) (α * δ) (α * T) z u l = ySlice w δ T z u l := by
    intro w
    unfold ySlice tWf
    simp only [List.foldlM_map, window_t hα]
  unfold bathtubCurve
  simp only [List.mapM_map, Function.comp_def, this]

theorem stackAll_t (ws : List Wf) (δ T z u : ℚ) (r : ℕ) (p : Bool) :
    stackAll (ws.map (tWf α)) (α * δ) (α * T) z u r p = stackAll ws δ T z u r p := by
  unfold stackAll
  simp only [List.foldlM_map, tWf, stack, pixels, window_t hα]

theorem finish_t (s : Settings) (mask mask' : Option MaskFn) (hm : SameMaskT α mask mask') (T δ : ℚ) (ws : List Wf) (v : List VOut)
    (l : Option (Levels ℚ)) : finish (tS α s) mask' (α * T) (α * δ) (ws.map (tWf α)) v l = finish s mask T δ ws v l := by
  have hsome : mask'.isSome = mask.isSome := by
    rcases mask with _ | f <;> rcases mask' with _ | f' <;> simp_all [SameMaskT]
  unfold finish
  rw [hsome]
  have hno : noPicture (tS α s) = noPicture s := rfl
  rw [hno]
  cases l.filter fun l => decide (l.ua ≠ 0) with
  | none => rfl
  | some l =>
    have hM : runMask mask' (α * T) (α * δ) (ws.map (tWf α)) l = runMask mask T δ ws l := by
      rcases mask with _ | f <;> rcases mask' with _ | f' <;> simp only [SameMaskT] at hm
      · rfl
      · unfold runMask
        simp only [hm]
    have hgrid : drawGrid (tS α s) = drawGrid s := rfl
    simp only [hM, picture, hgrid, bathtubCurve_t hα, stackAll_t hα, List.zip_map_left, List.mapM_map, Function.comp_def, Prod.map, tS]
    simp only [tWf, sampleHorizontal_t hα, id]
    rfl

theorem measure_t (s : Settings) (mask mask' : Option MaskFn) (hm : SameMaskT α mask mask') (T δ : ℚ) (ws : List Wf) (l : Levels ℚ) :
    Pipeline.measure (tS α s) mask' (α * T) (α * δ) (ws.map (tWf α)) l = (Pipeline.measure s mask T δ ws l).map (tA α) := by
  unfold Pipeline.measure
  have h0 : (tS α s).skip = s.skip := rfl
  rw [h0]
  split
  · have hS : skipPicture (tS α s) (α * T) (α * δ) (ws.map (tWf α)) l = skipPicture s T δ ws l := by
      unfold skipPicture
      have hno : noPicture (tS α s) = noPicture s := rfl
      have hgrid : drawGrid (tS α s) = drawGrid s := rfl
      simp only [hno, picture, hgrid, stackAll_t hα]
      rfl
    rw [hS]
    cases skipPicture s T δ ws l <;> rfl
  · have hV : (ws.map (tWf α)).mapM (fun w => sampleVertical w.y w.centers (α * δ) (α * T) l.half (tS α s).levelWidth (tS α s).crossWidth) =
        ws.mapM fun w => sampleVertical w.y w.centers δ T l.half s.levelWidth s.crossWidth := by
      simp only [List.mapM_map, Function.comp_def, tWf, sampleVertical_t hα, tS]
    rw [hV]
    cases ws.mapM fun w => sampleVertical w.y w.centers δ T l.half s.levelWidth s.crossWidth with
    | error e => rfl
    | ok v =>
      simp only [bind, Except.bind, finish_t hα s mask mask' hm]
      rw [show (tS α s).level = s.level from rfl]
      cases finish s mask T δ ws v (newLevels s.level (mean (v.flatMap (·.y0))) (mean (v.flatMap (·.y1))) l) <;> rfl

/-- **C76.** The results do not depend on the unit of time and, for whole samples, on the start: if all times are converted (`α * t + β` with `β` a
multiple of the new sampling interval), the clock recovery converts likewise and the mask is the same, `calculate` has the same outcome: the same
exception, or the symbol period and the symbols with times converted and everything else (in UI) the same.
Missing: starts that move by parts of a sample (`C76_shift_fails`); clock recovery by search in another unit (`C76_score_fails`). -/
theorem C76_time_partial (s : Settings) (m : Level ℚ × Level ℚ) (given : Option (List (List (Option ℚ)))) (clocks : Option (List Wave))
    (cdr cdr' : List (Option ℚ) → Except PyErr (List (Option ℚ))) (hc : ∀ e, cdr' (tE α β e) = (cdr e).map (tE α β))
    (mask mask' : Option MaskFn) (hm : SameMaskT α mask mask') (wfs : List Wave) (hβ : ∀ δ, tDelta wfs = .ok δ → ∃ k : ℤ, β = k * (α * δ)) :
    calculateAll (tS α s) m (given.map fun g => g.map (tE α β)) (clocks.map fun c => c.map (tW α β)) cdr' mask' (wfs.map (tW α β)) =
      (calculateAll s m given clocks cdr mask wfs).map (tA α) := by
  unfold calculateAll
  rw [tDelta_t]
  cases hδ : tDelta wfs with
  | error e => rfl
  | ok δ =>
    obtain ⟨k, hk⟩ := hβ δ hδ
    simp only [Except.map, bind, Except.bind]
    rw [show (tS α s).level = s.level from rfl, show (tS α s).polarity = s.polarity from rfl,
      show (tS α s).period = s.period.map (α * ·) from rfl, clockEdges_t hα given clocks wfs (levels s.level m) s.polarity cdr cdr' hc s.period]
    cases clockEdges given clocks wfs (levels s.level m) s.polarity cdr s.period with
    | error e => rfl
    | ok e =>
      simp only [Except.map, finite_t]
      cases Pipeline.finite e with
      | error e => rfl
      | ok e =>
        simp only [symbolPeriod_t hα]
        cases symbolPeriod e with
        | error e => rfl
        | ok T =>
          simp only [Except.map]
          cases T with
          | none => rfl
          | some T =>
            simp only [Option.map_some]
            rw [show aff α 0 T = α * T by unfold aff; ring]
            have hS : ((wfs.map (tW α β)).zip (e.map fun l => l.map (aff α β))).mapM (fun p => sampled (α * T) (α * δ) p.1 p.2) =
                ((wfs.zip e).mapM fun p => sampled T δ p.1 p.2).map fun r => r.map (tWf α) := by
              rw [List.zip_map]
              apply mapM_map'
              intro p
              unfold sampled tW tWf
              simp only [Prod.map, pyGet_map]
              cases pyGet p.1.1 0 with
              | error e => rfl
              | ok t0 => simp only [Except.map, bind, Except.bind, pure, Except.pure, sampleEdges_t hα T δ t0 _ p.2 k hk]
            rw [hS]
            cases (wfs.zip e).mapM fun p => sampled T δ p.1 p.2 with
            | error e => rfl
            | ok ws => exact measure_t hα s mask mask' hm T δ ws (levels s.level m)

/-- **C76** with measured levels: they do not depend on the times. -/
theorem C76_auto_partial (dev : List ℚ → ℚ) (fit : List ℚ → Except PyErr ℚ) (nMax : Option ℚ) (s : Settings)
    (given : Option (List (List (Option ℚ)))) (clocks : Option (List Wave)) (cdr cdr' : List (Option ℚ) → Except PyErr (List (Option ℚ)))
    (hc : ∀ e, cdr' (tE α β e) = (cdr e).map (tE α β)) (mask mask' : Option MaskFn) (hm : SameMaskT α mask mask') (wfs : List Wave)
    (hβ : ∀ δ, tDelta wfs = .ok δ → ∃ k : ℤ, β = k * (α * δ)) :
    AutoLevels.calculateAuto dev fit nMax (tS α s) (given.map fun g => g.map (tE α β)) (clocks.map fun c => c.map (tW α β)) cdr' mask'
      (wfs.map (tW α β)) = (AutoLevels.calculateAuto dev fit nMax s given clocks cdr mask wfs).map (tA α) := by
  have hy : (wfs.map (tW α β)).flatMap (·.2) = wfs.flatMap (·.2) := by
    rw [List.flatMap_map]
    rfl
  unfold AutoLevels.calculateAuto AutoLevels.measured
  rw [hy]
  simp only [show (tS α s).level = s.level from rfl]
  cases (if s.level.y0 = none ∨ s.level.y1 = none then AutoLevels.runnerLevels dev fit nMax (wfs.flatMap (·.2))
      else Except.ok (⟨0, 0⟩, ⟨0, 0⟩)) with
  | error e => rfl
  | ok m => exact C76_time_partial hα s m given clocks cdr cdr' hc mask mask' hm wfs hβ

/-! ### Masks -/

/-- A hexagon mask in the other unit of time: coordinates in UI have none. -/
def tHex (α : ℚ) (m : Hexagon) : Hexagon := { m with x1 := affQ α m.x1, x2 := affQ α m.x2 }

/-- A decagon mask in the other unit of time. -/
def tDec (α : ℚ) (m : Decagon) : Decagon := { m with x1 := affQ α m.x1, x2 := affQ α m.x2, x3 := affQ α m.x3 }

theorem maskLoop_t (δ T z u : ℚ) (paths : List (List (List Pt))) (ws : List Wf) (a : MaskAll) :
    maskLoop (α * δ) (α * T) z u paths (ws.map (tWf α)) a = maskLoop δ T z u paths ws a := by
  induction ws generalizing a with
  | nil => rfl
  | cons w ws ih =>
    have : (w.centers.map (tC α)).map (window (normalise w.y z u) (α * T) (α * δ)) = w.centers.map (window (normalise w.y z u) T δ) := by
      rw [List.map_map]
      apply List.map_congr_left
      intro c _
      exact window_t hα _ T δ c
    rw [List.map_cons]
    unfold maskLoop
    simp only [sampleMask, tWf] at ih ⊢
    simp only [this, ih]

/-- **C76.** A hexagon mask in the two units tests the same. -/
theorem C76_hexagon (m : Hexagon) : SameMaskT α (some (sampleHexMask m)) (some (sampleHexMask (tHex α m))) := by
  intro δ T z u ws
  unfold sampleHexMask
  have : (tHex α m).convert u (α * T) = m.convert u T := by
    unfold Hexagon.convert tHex
    simp only [convertUnit_aff hα]
  rw [this]
  simp only [maskLoop_t hα]

/-- **C76.** A decagon mask in the two units tests the same. -/
theorem C76_decagon (m : Decagon) : SameMaskT α (some (sampleDecMask m)) (some (sampleDecMask (tDec α m))) := by
  intro δ T z u ws
  unfold sampleDecMask
  have : (tDec α m).convert u (α * T) = m.convert u T := by
    unfold Decagon.convert tDec
    simp only [convertUnit_aff hα]
  rw [this]
  simp only [maskLoop_t hα]

/-! ### Clock recovery -/

omit hα in
theorem avg_t (l : List ℚ) : Cdr.avg (l.map (α * ·)) = α * Cdr.avg l := by
  unfold Cdr.avg
  rw [List.sum_map_mul_left, List.length_map, List.map_id', mul_div_assoc]

theorem clock_t (e : List ℚ) (first last : ℚ) (t : Option ℚ) :
    Cdr.clock (e.map (aff α β)) (aff α β first) (aff α β last) (t.map (α * ·)) =
      (Cdr.clock e first last t).map fun r => (r.1.map (aff α β), r.2.map (α * ·)) := by
  cases t with
  | none => rfl
  | some t =>
    simp only [Option.map_some, Cdr.clock]
    by_cases h : t = 0
    · simp [h, Except.map]
    · rw [if_neg h, if_neg (mul_ne_zero hα.ne' h)]
      have ht : (e.map (aff α β)).map (fun e => pyMod (e - aff α β first + α * t / 2) (α * t) - α * t / 2) =
          (e.map fun e => pyMod (e - first + t / 2) t - t / 2).map (α * ·) := by
        rw [List.map_map, List.map_map]
        apply List.map_congr_left
        intro x _
        simp only [Function.comp]
        have := pyMod_t hα (β := 0) (x - first + t / 2) t 0 (by simp)
        rw [aff_sub, show α * (x - first) + α * t / 2 = aff α 0 (x - first + t / 2) by unfold aff; ring, this]
        ring
      rw [ht]
      generalize (e.map fun e => pyMod (e - first + t / 2) t - t / 2) = ties
      have h2 : (ties.map (α * ·)).map (fun x => x - Cdr.avg (ties.map (α * ·))) = (ties.map fun x => x - Cdr.avg ties).map (α * ·) := by
        rw [avg_t, List.map_map, List.map_map]
        apply List.map_congr_left
        intro x _
        simp only [Function.comp]
        ring
      rw [h2]
      have h3 : (diffs ((ties.map fun x => x - Cdr.avg ties).map (α * ·))).any (fun d => decide (α * t / 2 < |d|)) =
          (diffs (ties.map fun x => x - Cdr.avg ties)).any (fun d => decide (t / 2 < |d|)) := by
        rw [show (fun x : ℚ => α * x) = aff α 0 by funext x; unfold aff; ring, diffs_t, List.any_map]
        congr 1
        funext d
        simp only [Function.comp, aff, add_zero, abs_mul, abs_of_pos hα, mul_div_assoc, mul_lt_mul_iff_right₀ hα]
      rw [h3]
      split
      · rfl
      · rw [aff_sub, mul_div_mul_left _ _ hα.ne']
        split
        · rfl
        · simp only [Except.map, avg_t]
          congr 2
          split
          · rfl
          · rw [List.map_map]
            unfold Stats.linspace
            rw [List.map_map, List.map_map]
            apply List.map_congr_left
            intro i _
            simp only [Function.comp, aff]
            ring

theorem previous_t (e ties : List ℚ) (x : ℚ) : Cdr.previous (e.map (aff α β)) (ties.map (α * ·)) (aff α β x) = α * Cdr.previous e ties x := by
  unfold Cdr.previous
  rw [List.countP_map]
  have : ((fun e => decide (e ≤ aff α β x)) ∘ aff α β) = fun e => decide (e ≤ x) := by
    funext e
    simp only [Function.comp, aff_le hα]
  rw [this]
  simp only [List.getD_eq_getElem?_getD, List.getElem?_map]
  cases ties[e.countP (fun e => decide (e ≤ x)) - 1]? <;> simp

/-- What `CDR.run` needs of its period. -/
theorem run_t (mn mn' : List ℚ → ℚ → ℚ → ℚ → Except PyErr ℚ) (dt dt' : List ℚ → ℚ → Except PyErr (Option ℚ)) (c c' : Cdr.Config) (e : List ℚ)
    (hp : Cdr.period mn' dt' c' (e.map (aff α β)) = (Cdr.period mn dt c e).map fun t => t.map (α * ·)) (r : Bool) :
    Cdr.run mn' dt' c' (e.map (aff α β)) r = (Cdr.run mn dt c e r).map fun r => (r.1.map (aff α β), r.2.map (α * ·)) := by
  unfold Cdr.run
  rw [pyGet_map, hp, List.length_map, pyGet_map]
  cases pyGet e 0 with
  | error x => rfl
  | ok first =>
    cases Cdr.period mn dt c e with
    | error x => rfl
    | ok t =>
      cases pyGet e (e.length - 1) with
      | error x => rfl
      | ok last =>
        simp only [Except.map, bind, Except.bind, clock_t hα]
        cases Cdr.clock e first last t with
        | error x => rfl
        | ok q =>
          simp only
          split
          · simp only [pure, Except.pure, List.map_map]
            congr 3
            funext x
            exact previous_t hα e q.2 x
          · rfl

/-- **C76.** Clock recovery with a fixed period converts with the unit of time and moves with the start. -/
theorem C76_cdr_fixed (sort : List Cdr.Scored → List Cdr.Scored) (finer : List Cdr.Finer) (t : ℚ) (e : List ℚ) (r : Bool) :
    Cdr.runWith sort finer ⟨some (α * t), true⟩ (e.map (aff α β)) r =
      (Cdr.runWith sort finer ⟨some t, true⟩ e r).map fun r => (r.1.map (aff α β), r.2.map (α * ·)) := by
  unfold Cdr.runWith
  apply run_t hα
  unfold Cdr.period
  rw [List.length_map]
  split
  · rfl
  · simp only
    have : ((diffs (e.map (aff α β))).map fun p => (⌊p / (α * t) + 1 / 2⌋ : ℚ)) = (diffs e).map fun p => (⌊p / t + 1 / 2⌋ : ℚ) := by
      rw [diffs_t, List.map_map]
      apply List.map_congr_left
      intro x _
      simp only [Function.comp, aff, add_zero, mul_div_mul_left _ _ hα.ne']
    rw [this]
    split <;> rfl

end

theorem aff_one : aff 1 0 = (id : ℚ → ℚ) := by
  funext x
  unfold aff
  simp

/-- **C76.** Clock recovery by search moves with the start of the record, by any time. -/
theorem C76_cdr_shift (sort : List Cdr.Scored → List Cdr.Scored) (finer : List Cdr.Finer) (c : Cdr.Config) (β : ℚ) (e : List ℚ) (r : Bool) :
    Cdr.runWith sort finer c (e.map (· + β)) r = (Cdr.runWith sort finer c e r).map fun r => (r.1.map (· + β), r.2) := by
  have h1 : (0 : ℚ) < 1 := by norm_num
  have ha : (fun x : ℚ => x + β) = aff 1 β := by funext x; unfold aff; ring
  have hd : diffs (e.map (aff 1 β)) = diffs e := by rw [diffs_t, aff_one, List.map_id]
  have hs : ∀ first, (e.map (aff 1 β)).map (fun x => x - aff 1 β first) = e.map fun x => x - first := by
    intro first
    rw [List.map_map]
    apply List.map_congr_left
    intro x _
    simp only [Function.comp, aff]
    ring
  have hsearch : ∀ tol n lo hi, Cdr.search sort finer (e.map (aff 1 β)) tol n lo hi = Cdr.search sort finer e tol n lo hi := by
    intro tol n
    induction n with
    | zero =>
      intro lo hi
      unfold Cdr.search
      rw [pyGet_map]
      cases pyGet e 0 with
      | error x => rfl
      | ok first => simp only [Except.map, bind, Except.bind, hs]
    | succ n ih =>
      intro lo hi
      unfold Cdr.search
      rw [pyGet_map]
      cases pyGet e 0 with
      | error x => rfl
      | ok first => simp only [Except.map, bind, Except.bind, hs, ih]
  have hdt : ∀ t, Cdr.detrendTies (e.map (aff 1 β)) t = Cdr.detrendTies e t := by
    intro t
    unfold Cdr.detrendTies
    rw [pyGet_map]
    cases pyGet e 0 with
    | error x => rfl
    | ok first =>
      simp only [Except.map, bind, Except.bind]
      have : Cdr.unwrap (e.map (aff 1 β)) (aff 1 β first) t = Cdr.unwrap e first t := by
        unfold Cdr.unwrap
        have hx : ∀ x, aff 1 β x - aff 1 β first = x - first := by intro x; unfold aff; ring
        simp only [List.map_map, Function.comp_def, hx]
      rw [this]
  rw [ha]
  have := run_t h1 (β := β) (fun e lo hi tol => Cdr.minimizeTieDisjoints sort finer e none (some lo) (some hi) tol 10)
    (fun e lo hi tol => Cdr.minimizeTieDisjoints sort finer e none (some lo) (some hi) tol 10) Cdr.detrendTies Cdr.detrendTies c c e ?_ r
  · unfold Cdr.runWith
    rw [this]
    simp only [one_mul, List.map_id']
  · unfold Cdr.period
    simp only [List.length_map, hd, one_mul, Cdr.minimizeTieDisjoints, hsearch, hdt, Option.map_id']
    have hid : ∀ x : Except PyErr (Option ℚ), x = Except.map (fun t => t) x := by intro x; cases x <;> rfl
    exact hid _

/-- **C76.** The clock recovery of `calculate` with a search, as needed in `C76_time_partial`, for another start. -/
theorem C76_recover_shift (sort : List Cdr.Scored → List Cdr.Scored) (finer : List Cdr.Finer) (c : Cdr.Config) (β : ℚ) (r : Bool)
    (e : List (Option ℚ)) :
    recover (fun x => Cdr.runWith sort finer c x r) (tE 1 β e) = (recover (fun x => Cdr.runWith sort finer c x r) e).map (tE 1 β) := by
  have ha : (fun x : ℚ => x + β) = aff 1 β := by funext x; unfold aff; ring
  have hn : (tE 1 β e).mapM number = (e.mapM number).map fun l => l.map (aff 1 β) := by
    unfold tE
    apply mapM_map'
    intro t
    cases t <;> rfl
  unfold recover
  rw [hn]
  cases e.mapM number with
  | error x => rfl
  | ok l =>
    simp only [Except.map, bind, Except.bind]
    rw [← ha, C76_cdr_shift]
    cases Cdr.runWith sort finer c l r with
    | error x => rfl
    | ok q => simp [Except.map, pure, Except.pure, tE, ha]

/-- **C76.** The clock recovery of `calculate` with a fixed period, as needed in `C76_time_partial`. -/
theorem C76_recover_fixed (sort : List Cdr.Scored → List Cdr.Scored) (finer : List Cdr.Finer) (t α β : ℚ) (hα : 0 < α) (r : Bool)
    (e : List (Option ℚ)) :
    recover (fun x => Cdr.runWith sort finer ⟨some (α * t), true⟩ x r) (tE α β e) =
      (recover (fun x => Cdr.runWith sort finer ⟨some t, true⟩ x r) e).map (tE α β) := by
  have hn : (tE α β e).mapM number = (e.mapM number).map fun l => l.map (aff α β) := by
    unfold tE
    apply mapM_map'
    intro t
    cases t <;> rfl
  unfold recover
  rw [hn]
  cases e.mapM number with
  | error x => rfl
  | ok l =>
    simp only [Except.map, bind, Except.bind, C76_cdr_fixed hα]
    cases Cdr.runWith sort finer ⟨some t, true⟩ l r with
    | error x => rfl
    | ok q => simp [pure, Except.pure, tE]

/-! ### Where it fails -/

/-- Bits after an analysis. -/
def decoded (e : Except PyErr Analysis) : Except PyErr (List (List ℤ)) := do bits (← e) true

open Verif.Props.Pipeline in
/-- **C76 fails** if the start moves by part of a sample: `b % t_delta` does not know where the samples are (C43).  With all times 3/5 samples later one
symbol less is evaluated. -/
theorem C76_shift_fails : ∃ β : ℚ,
    decoded (calculateAll (exSettings (4 / 5)) (⟨0, 0⟩, ⟨0, 0⟩) (some [[some 6, some 10, some 14]]) none (fun _ => .ok []) none [exWave]) =
      .ok [[1, 1, 1]] ∧
    decoded (calculateAll (exSettings (4 / 5)) (⟨0, 0⟩, ⟨0, 0⟩) (some [tE 1 β [some 6, some 10, some 14]]) none (fun _ => .ok []) none
      [tW 1 β exWave]) = .ok [[1, 1]] :=
  ⟨3 / 5, by decide +kernel, by decide +kernel⟩

/-- **C76 fails** for the search of the period: `-(1 - |slope|)` compares a time with numbers of disjoints.  Ten edges with a period of 1 s: a period of
1.01 s without disjoints is better than one of 1.1 s with a disjoint, in milliseconds it is worse. -/
theorem C76_score_fails : ∃ (e : List ℚ) (t t' a b a' b' : ℚ), CdrSearch.Score e t a ∧ CdrSearch.Score e t' b ∧ a < b ∧
    CdrSearch.Score (e.map (1000 * ·)) (1000 * t) a' ∧ CdrSearch.Score (e.map (1000 * ·)) (1000 * t') b' ∧ b' < a' := by
  refine ⟨(List.range 10).map fun i : ℕ => (i : ℚ), 101 / 100, 11 / 10, -99 / 100, 1, 9, 1, ?_, ?_, by norm_num, ?_, ?_, by norm_num⟩
  · exact (CdrSearch.score_iff _ (by decide) _ (by norm_num) _).1 (by decide +kernel)
  · exact (CdrSearch.score_iff _ (by decide) _ (by norm_num) _).1 (by decide +kernel)
  · exact (CdrSearch.score_iff _ (by decide) _ (by norm_num) _).1 (by decide +kernel)
  · exact (CdrSearch.score_iff _ (by decide) _ (by norm_num) _).1 (by decide +kernel)

/-! ### Cases -/

open Verif.Props.Pipeline Verif.Props.EyeMask in
/-- The square wave of C69 in seconds, and in milliseconds starting 2 samples earlier: the same analysis, which completes. -/
example : calculateAll (tS 1000 (exSettings (4 / 5))) (⟨0, 0⟩, ⟨0, 0⟩) (some [tE 1000 (-2000) [some 6, some 10, some 14]]) none (fun _ => .ok [])
    (some (sampleHexMask (tHex 1000 exHexZero))) [tW 1000 (-2000) exWave] =
      (calculateAll (exSettings (4 / 5)) (⟨0, 0⟩, ⟨0, 0⟩) (some [[some 6, some 10, some 14]]) none (fun _ => .ok []) (some (sampleHexMask exHexZero))
        [exWave]).map (tA 1000) := by
  refine C76_time_partial (α := 1000) (β := -2000) (by norm_num) (exSettings (4 / 5)) (⟨0, 0⟩, ⟨0, 0⟩) (some [[some 6, some 10, some 14]]) none
    (fun _ => .ok []) (fun _ => .ok []) (fun _ => rfl) _ _ (C76_hexagon (by norm_num) exHexZero) [exWave] fun δ h => ⟨-2, ?_⟩
  rw [show tDelta [exWave] = .ok 1 by decide +kernel] at h
  cases h
  norm_num

open Verif.Props.Pipeline in
/-- In milliseconds the last edge is at 12 s, the period is 4000. -/
example : tE 1000 (-2000) [some 6, none, some 14] = [some 4000, none, some 12000] ∧ (tS 1000 (exSettings (4 / 5))).period = some 4000 := by
  decide +kernel

end Verif.Props.TimeScale
