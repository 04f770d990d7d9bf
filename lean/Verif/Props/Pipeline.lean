import Verif.Props.Pam2Levels
import Verif.Model.Pipeline
import Verif.Props.EyeImage
import Verif.Props.EyeBathtub
import Verif.Props.Pam2Horizontal
import Verif.Props.Pam2Bits

/-!
C69: `PAM2.calculate` completes.
-/

namespace Verif.Props.Pipeline

open Verif Verif.Lines Verif.Eye Verif.Pam2 Verif.Pipeline Verif.Props.EyeWindow Verif.Props.EyeMask Verif.Props.EyeImage Verif.Props.EyeBathtub
  Verif.Props.Pam2Vertical Verif.Props.Pam2Horizontal Verif.Props.Pam2Bits

/-! ### Steps 4 and 5 -/

/-- A level for a reference line that is not in the one pixel beyond the image. -/
def Drawable (res : ℕ) (u : ℚ) : Prop := ¬ (3 / 2 ≤ u ∧ u < 3 / 2 + 2 / res)

theorem drawGrid_ok (s : Settings) (hr : 0 < s.resolution) (hl : Drawable s.resolution s.edgeLower) (hu : Drawable s.resolution s.edgeUpper) :
    drawGrid s = .ok () := by
  unfold drawGrid
  rw [if_pos]
  rw [List.all_eq_true]
  intro u hu'
  rw [List.all_eq_true]
  intro p hp
  rw [decide_eq_true_iff]
  refine (C55_inside_partial s.resolution hr u ?_ p hp).2
  simp only [List.mem_cons, List.not_mem_nil, or_false] at hu'
  rcases hu' with rfl | rfl | rfl | rfl | rfl | rfl | rfl | rfl | rfl
  all_goals first | exact hl | exact hu | norm_num

/-- The mask can be evaluated: with manual levels, for the given records. -/
def MaskOk (mask : Option MaskFn) (c : LevelConfig ℚ) (T δ : ℚ) (ys : List (List ℚ)) : Prop :=
  ∀ f, mask = some f → ∃ y0 y1, c.y0 = some y0 ∧ c.y1 = some y1 ∧ y0 ≠ y1 ∧
    ∀ ws : List Wf, (∀ w ∈ ws, w.y ∈ ys ∧ ∀ k ∈ w.centers, Inside T δ w.y.length k ∧ k.t ≤ 0) → ∃ m, f δ T y0 (y1 - y0) ws = .ok m

theorem vertical_ok (wfs : List Wf) (T δ half lw cw : ℚ) (hT : 0 < T) (hδ : 0 < δ) (hc : ∀ w ∈ wfs, ∀ c ∈ w.centers, Inside T δ w.y.length c) :
    ∃ vs, wfs.mapM (fun w => sampleVertical w.y w.centers δ T half lw cw) = .ok vs ∧
      vs.map (·.edgeDir) = wfs.map fun w => w.centers.map fun c => dir (logic w.y T δ half lw (-1 / 2) c) (logic w.y T δ half lw (1 / 2) c) := by
  induction wfs with
  | nil => exact ⟨[], rfl, rfl⟩
  | cons w wfs ih =>
    obtain ⟨vs, h1, h2⟩ := ih fun x hx => hc x (List.mem_cons_of_mem _ hx)
    obtain ⟨v, h3, h4⟩ := dirs_eq w.y w.centers T δ half lw cw hT hδ (hc w (by simp))
    exact ⟨v :: vs, by rw [List.mapM_cons, h3, h1]; rfl, by rw [List.map_cons, List.map_cons, h2, h4]⟩

theorem horizontal_ok (wfs : List Wf) (vs : List VOut) (T δ zero ua : ℚ) (cross : Option ℚ) (height lower upper : ℚ) (hT : 0 < T) (hδ : 0 < δ)
    (hc : ∀ w ∈ wfs, ∀ c ∈ w.centers, Inside T δ w.y.length c) (hl : vs.map (·.edgeDir.length) = wfs.map (·.centers.length)) :
    ∃ h, (wfs.zip vs).mapM (fun p => sampleHorizontal p.1.y p.1.centers p.2.edgeDir δ T zero ua cross height lower upper) = .ok h := by
  induction wfs generalizing vs with
  | nil => exact ⟨[], rfl⟩
  | cons w wfs ih =>
    cases vs with
    | nil => simp at hl
    | cons v vs =>
      simp only [List.map_cons, List.cons.injEq] at hl
      obtain ⟨h, h1⟩ := ih vs (fun x hx => hc x (List.mem_cons_of_mem _ hx)) hl.2
      obtain ⟨o, -, -, h2, -⟩ := C45_samples w.y (w.centers.zip v.edgeDir) T δ zero ua cross height lower upper hT hδ (by
        intro s hs
        exact hc w (by simp) s.1 (List.of_mem_zip hs).1)
      rw [List.map_fst_zip (by omega), List.map_snd_zip (by omega)] at h2
      exact ⟨o :: h, by rw [List.zip_cons_cons, List.mapM_cons, h2, h1]; rfl⟩

theorem picture_ok (s : Settings) (T δ : ℚ) (wfs : List Wf) (l : Levels ℚ) (h : List HOut) (m : Option MaskAll) (b : List (ℚ × ℚ)) (hT : 0 < T)
    (hδ : 0 < δ) (hc : ∀ w ∈ wfs, ∀ c ∈ w.centers, Inside T δ w.y.length c) (hua : l.ua ≠ 0) (hd : drawGrid s = .ok ()) :
    ∃ p, picture s T δ wfs l h m b = .ok p := by
  obtain ⟨g, hg, -⟩ := C59_counts wfs T δ l.zero l.ua hT hδ hua s.resolution s.pointCloud hc
  unfold picture
  rw [hg, hd]
  exact ⟨_, rfl⟩

theorem manual_levels (c : LevelConfig ℚ) (m : Level ℚ × Level ℚ) (y0 y1 : ℚ) (h0 : c.y0 = some y0) (h1 : c.y1 = some y1) (m0 m1 : Option ℚ) :
    ∃ l, newLevels c m0 m1 (levels c m) = some l ∧ l.zero = y0 ∧ l.ua = y1 - y0 := by
  unfold newLevels
  rw [h0, h1]
  refine ⟨_, rfl, ?_⟩
  unfold updateLevels levels
  simp [h0, h1]

theorem finish_ok (s : Settings) (mask : Option MaskFn) (T δ : ℚ) (wfs : List Wf) (vs : List VOut) (m : Level ℚ × Level ℚ) (m0 m1 : Option ℚ)
    (hT : 0 < T) (hδ : 0 < δ) (hc : ∀ w ∈ wfs, ∀ c ∈ w.centers, Inside T δ w.y.length c ∧ c.t ≤ 0) (hd : drawGrid s = .ok ())
    (hl : vs.map (·.edgeDir.length) = wfs.map (·.centers.length)) (ys : List (List ℚ)) (hys : ∀ w ∈ wfs, w.y ∈ ys)
    (hm : MaskOk mask s.level T δ ys) :
    ∃ p, finish s mask T δ wfs vs (newLevels s.level m0 m1 (levels s.level m)) = .ok p := by
  have hc' : ∀ w ∈ wfs, ∀ c ∈ w.centers, Inside T δ w.y.length c := fun w hw c h => (hc w hw c h).1
  unfold finish
  cases hf : (newLevels s.level m0 m1 (levels s.level m)).filter fun l => decide (l.ua ≠ 0) with
  | none =>
    cases mask with
    | none =>
      refine ⟨none, ?_⟩
      unfold noPicture
      rw [hd]
      rfl
    | some f =>
      exfalso
      obtain ⟨y0, y1, h0, h1, hne, -⟩ := hm f rfl
      obtain ⟨l, e, -, hua⟩ := manual_levels s.level m y0 y1 h0 h1 m0 m1
      rw [e, Option.filter_some, if_pos (by rw [decide_eq_true_iff, hua]; exact sub_ne_zero.2 hne.symm)] at hf
      cases hf
  | some l =>
    obtain ⟨hl0, hua⟩ := Option.filter_eq_some_iff.1 hf
    rw [decide_eq_true_iff] at hua
    obtain ⟨h, hh⟩ := horizontal_ok wfs vs T δ l.zero l.ua (mean (vs.flatMap (·.cross))) s.timeHeight s.edgeLower s.edgeUpper hT hδ hc' hl
    obtain ⟨b, hb, -⟩ := C47_hits wfs T δ l.zero l.ua (1 / 2) hT hδ hc'
    have hmm : ∃ r, runMask mask T δ wfs l = .ok r := by
      cases mask with
      | none => exact ⟨none, rfl⟩
      | some f =>
        obtain ⟨y0, y1, h0, h1, hne, hfm⟩ := hm f rfl
        obtain ⟨l', e, hz, hua'⟩ := manual_levels s.level m y0 y1 h0 h1 m0 m1
        rw [e] at hl0
        obtain rfl := Option.some.inj hl0
        obtain ⟨r, hr⟩ := hfm wfs fun w hw => ⟨hys w hw, hc w hw⟩
        refine ⟨some r, ?_⟩
        unfold runMask
        rw [hz, hua']
        simp only [hr]
        rfl
    obtain ⟨r, hr⟩ := hmm
    obtain ⟨p, hp⟩ := picture_ok s T δ wfs l h r (bathtub b) hT hδ hc' hua hd
    refine ⟨some p, ?_⟩
    simp only [hh, hr, hb, hp, bind, Except.bind, pure, Except.pure]

theorem measure_ok (s : Settings) (mask : Option MaskFn) (T δ : ℚ) (wfs : List Wf) (m : Level ℚ × Level ℚ)
    (hT : 0 < T) (hδ : 0 < δ) (hc : ∀ w ∈ wfs, ∀ c ∈ w.centers, Inside T δ w.y.length c ∧ c.t ≤ 0) (hd : drawGrid s = .ok ())
    (ys : List (List ℚ)) (hys : ∀ w ∈ wfs, w.y ∈ ys) (hm : MaskOk mask s.level T δ ys) :
    ∃ a, Pipeline.measure s mask T δ wfs (levels s.level m) = .ok a ∧ a.tSym = T ∧ a.wfs = wfs ∧
      if s.skip then a.v = none else
        wfs.mapM (fun w => sampleVertical w.y w.centers δ T (levels s.level m).half s.levelWidth s.crossWidth) = .ok (a.v.getD []) ∧
        a.v ≠ none ∧ (a.v.getD []).map (·.edgeDir) = wfs.map fun w => w.centers.map fun c =>
          dir (logic w.y T δ (levels s.level m).half s.levelWidth (-1 / 2) c) (logic w.y T δ (levels s.level m).half s.levelWidth (1 / 2) c) := by
  have hc' : ∀ w ∈ wfs, ∀ c ∈ w.centers, Inside T δ w.y.length c := fun w hw c h => (hc w hw c h).1
  unfold Pipeline.measure
  cases hs : s.skip with
  | true =>
    simp only [if_true]
    unfold skipPicture
    by_cases hua : (levels s.level m).ua = 0
    · refine ⟨⟨T, wfs, none, none⟩, ?_, rfl, rfl, rfl⟩
      rw [if_pos hua]
      unfold noPicture
      rw [hd]
      rfl
    · obtain ⟨p, hp⟩ := picture_ok s T δ wfs (levels s.level m) [] none [] hT hδ hc' hua hd
      refine ⟨⟨T, wfs, none, some p⟩, ?_, rfl, rfl, rfl⟩
      rw [if_neg hua, hp]
      rfl
  | false =>
    simp only [Bool.false_eq_true, if_false]
    obtain ⟨vs, h1, h2⟩ := vertical_ok wfs T δ (levels s.level m).half s.levelWidth s.crossWidth hT hδ hc'
    obtain ⟨p, hp⟩ := finish_ok s mask T δ wfs vs m (mean (vs.flatMap (·.y0))) (mean (vs.flatMap (·.y1))) hT hδ hc hd (by
      have := congrArg (List.map List.length) h2
      simpa [List.map_map, Function.comp_def] using this) ys hys hm
    refine ⟨⟨T, wfs, some vs, p⟩, ?_, rfl, rfl, h1, by simp, h2⟩
    rw [h1]
    simp only [bind, Except.bind, pure, Except.pure, hp]

/-! ### The whole calculation -/

theorem finite_some (es : List (List ℚ)) : finite (es.map fun e => e.map some) = .ok es := by
  unfold finite
  have h : ∀ e : List ℚ, (e.map some).mapM number = .ok e := by
    intro e
    induction e with
    | nil => rfl
    | cons a e ih => rw [List.map_cons, List.mapM_cons, ih]; rfl
  induction es with
  | nil => rfl
  | cons e es ih => rw [List.map_cons, List.mapM_cons, h e, ih]; rfl

theorem tDelta_ok (w : Wave) (wfs : List Wave) (first last : ℚ) (h1 : w.1.head? = some first) (h2 : w.1.getLast? = some last)
    (hlt : first < last) : tDelta (w :: wfs) = .ok ((last - first) / (w.1.length - 1 : ℕ)) ∧ 0 < (last - first) / ((w.1.length - 1 : ℕ) : ℚ) := by
  have hl : 2 ≤ w.1.length := by
    match hw : w.1 with
    | [] => rw [hw] at h1; cases h1
    | [a] => rw [hw] at h1 h2; simp at h1 h2; linarith
    | a :: b :: l => simp
  constructor
  · unfold tDelta
    simp only [h1, h2]
    rw [if_neg (by omega)]
  · apply div_pos (by linarith)
    have : 0 < w.1.length - 1 := by omega
    exact_mod_cast this

theorem sampled_all (T δ : ℚ) (ps : List (Wave × List ℚ)) (hw : ∀ p ∈ ps, p.1.1 ≠ []) :
    ps.mapM (fun p => sampled T δ p.1 p.2) = .ok (ps.map fun p => ⟨p.1.2, sampleEdges T δ (p.1.1.headD 0) p.1.2.length p.2⟩) := by
  apply mapM_ok
  intro p hp
  obtain ⟨a, l, h⟩ := List.exists_cons_of_ne_nil (hw p hp)
  unfold sampled pyGet
  rw [h]
  rfl

/-- The calculation, once the clock edges are known. -/
theorem calculate_ok (s : Settings) (m : Level ℚ × Level ℚ) (given : Option (List (List (Option ℚ)))) (clocks : Option (List Wave))
    (cdr : List (Option ℚ) → Except PyErr (List (Option ℚ))) (mask : Option MaskFn) (wfs : List Wave) (es : List (List ℚ)) (T δ : ℚ)
    (he : clockEdges given clocks wfs (levels s.level m) s.polarity cdr s.period = .ok (es.map fun e => e.map some))
    (hδ' : tDelta wfs = .ok δ) (hδ : 0 < δ) (hT' : symbolPeriod es = .ok (some T)) (hT : 0 < T) (hne : ∀ w ∈ wfs, w.1 ≠ [])
    (hd : drawGrid s = .ok ()) (hm : MaskOk mask s.level T δ (wfs.map (·.2))) :
    let ws := (wfs.zip es).map fun p : Wave × List ℚ => (⟨p.1.2, sampleEdges T δ (p.1.1.headD 0) p.1.2.length p.2⟩ : Wf)
    ∃ a, calculateAll s m given clocks cdr mask wfs = .ok a ∧ a.tSym = T ∧ a.wfs = ws ∧
      if s.skip then a.v = none else a.v ≠ none ∧ (a.v.getD []).map (·.edgeDir) = ws.map fun w => w.centers.map fun c =>
          dir (logic w.y T δ (levels s.level m).half s.levelWidth (-1 / 2) c) (logic w.y T δ (levels s.level m).half s.levelWidth (1 / 2) c) := by
  intro ws
  have hin : ∀ w ∈ ws, ∀ c ∈ w.centers, Inside T δ w.y.length c ∧ c.t ≤ 0 := by
    intro w hw
    obtain ⟨p, -, rfl⟩ := List.mem_map.1 hw
    exact sampled_ok T δ _ hδ _ p.2
  have hys : ∀ w ∈ ws, w.y ∈ wfs.map (·.2) := by
    intro w hw
    obtain ⟨p, hp, rfl⟩ := List.mem_map.1 hw
    exact List.mem_map.2 ⟨p.1, (List.of_mem_zip hp).1, rfl⟩
  obtain ⟨a, h1, h2, h3, h4⟩ := measure_ok s mask T δ ws m hT hδ hin hd _ hys hm
  refine ⟨a, ?_, h2, h3, ?_⟩
  · unfold calculateAll
    simp only [hδ', he, finite_some, hT', bind, Except.bind]
    rw [sampled_all T δ _ (fun p hp => hne p.1 (List.of_mem_zip hp).1)]
    exact h1
  · split at h4
    · rwa [if_pos ‹_›]
    · rw [if_neg ‹_›]
      exact h4.2

/-! ### C69 -/

/-- C69, up to the exceptions below: once clock edges are known - finite, increasing, two of them in one record - `calculate` completes, for any
records, levels, windows and settings.  The levels for the reference lines must not be in the pixel beyond the image (`C69_edge_level_fails`). -/
theorem C69_completes_partial (s : Settings) (m : Level ℚ × Level ℚ) (given : Option (List (List (Option ℚ)))) (clocks : Option (List Wave))
    (cdr : List (Option ℚ) → Except PyErr (List (Option ℚ))) (mask : Option MaskFn) (w : Wave) (wfs : List Wave) (es : List (List ℚ))
    (first last : ℚ) (h1 : w.1.head? = some first) (h2 : w.1.getLast? = some last) (hlt : first < last) (hne : ∀ x ∈ wfs, x.1 ≠ [])
    (he : clockEdges given clocks (w :: wfs) (levels s.level m) s.polarity cdr s.period = .ok (es.map fun e => e.map some))
    (hinc : ∀ e ∈ es, e.Pairwise (· < ·)) (htwo : ∃ e ∈ es, 2 ≤ e.length)
    (hr : 0 < s.resolution) (hl : Drawable s.resolution s.edgeLower) (hu : Drawable s.resolution s.edgeUpper)
    (hm : ∀ T δ : ℚ, 0 < T → 0 < δ → MaskOk mask s.level T δ ((w :: wfs).map (·.2))) :
    ∃ a, calculateAll s m given clocks cdr mask (w :: wfs) = .ok a ∧ 0 < a.tSym ∧ a.wfs.length = min (w :: wfs).length es.length ∧
      (s.skip = false → ∃ d, bits a true = .ok d ∧ d.map List.length = a.wfs.map (·.centers.length)) := by
  obtain ⟨-, -, -, T, -, -, -, -, -, hT', hT, -⟩ := C56_period es hinc htwo
  obtain ⟨hδ', hδ⟩ := tDelta_ok w wfs first last h1 h2 hlt
  obtain ⟨a, e1, e2, e3, e4⟩ := calculate_ok s m given clocks cdr mask (w :: wfs) es T _ he hδ' hδ hT' hT (by
    intro x hx
    rcases List.mem_cons.1 hx with rfl | hx
    · intro h0
      rw [h0] at h1
      cases h1
    · exact hne x hx) (drawGrid_ok s hr hl hu) (hm T _ hT hδ)
  refine ⟨a, e1, by rw [e2]; exact hT, by rw [e3]; simp, ?_⟩
  intro hs
  rw [hs] at e4
  simp only [Bool.false_eq_true, if_false] at e4
  obtain ⟨hv, hd⟩ := e4
  obtain ⟨v, hv⟩ := Option.ne_none_iff_exists'.1 hv
  rw [hv] at hd
  simp only [Option.getD_some] at hd
  refine ⟨_, by unfold bits bitStream; rw [hv]; rfl, ?_⟩
  rw [e3]
  have := congrArg (List.map List.length) hd
  simp only [List.map_map, Function.comp_def, List.length_map] at this ⊢
  rw [← this]
  apply List.map_congr_left
  intro x _
  simp [bitsM]

/-- The exception of a calculation. -/
def raised {α : Type} : Except PyErr α → Option PyErr
  | .ok _ => none
  | .error e => some e

/-- A record of 40 samples with symbols of 4 samples: 0 1 0 1 ... -/
def exWave : Wave := ((List.range 40).map fun i : ℕ => (i : ℚ), (List.range 40).map fun i : ℕ => if i / 4 % 2 = 1 then 1 else 0)

/-- Settings with manual levels 0 and 1. -/
def exSettings (upper : ℚ) : Settings where
  level := ⟨some 0, some 1, none, none, 1 / 10⟩
  polarity := .falling
  period := some 4
  skip := false
  levelWidth := 1 / 5
  crossWidth := 1 / 10
  timeHeight := 1 / 20
  edgeLower := 1 / 5
  edgeUpper := upper
  pointCloud := true
  resolution := 20

/-- **C69 fails** if a level for the edges is 1.5: IndexError. -/
theorem C69_edge_level_fails :
    raised (calculateAll (exSettings (3 / 2)) (⟨0, 0⟩, ⟨0, 0⟩) (some [[some 6, some 10, some 14]]) none (fun _ => .ok []) none [exWave]) =
      some .indexError := by decide +kernel

/-- **C69 fails** if a clock waveform begins between the half level and the falling threshold: its first edge is nan (C06), ValueError. -/
theorem C69_nan_clock_fails : ∃ c : Wave, c.1 = exWave.1 ∧ c.2.length = 40 ∧
    raised (calculateAll (exSettings (4 / 5)) (⟨0, 0⟩, ⟨0, 0⟩) none (some [c]) (fun _ => .ok []) none [exWave]) = some .valueError :=
  ⟨(exWave.1, (List.range 40).map fun i : ℕ => if i = 0 then 48 / 100 else if i / 2 % 2 = 1 then 1 else 0), rfl, by decide +kernel,
    by decide +kernel⟩

/-- **C69 fails** with a mask if the levels are equal: `convert` divides by the amplitude, ZeroDivisionError.  Without a mask it completes, without
an image. -/
theorem C69_flat_fails : ∃ s : Settings, s.level.y0 = some (1 / 2) ∧ s.level.y1 = some (1 / 2) ∧
    raised (calculateAll s (⟨0, 0⟩, ⟨0, 0⟩) (some [[some 6, some 10, some 14]]) none (fun _ => .ok []) (some (sampleHexMask exHexZero)) [exWave]) =
      some .zeroDivision ∧
    raised (calculateAll s (⟨0, 0⟩, ⟨0, 0⟩) (some [[some 6, some 10, some 14]]) none (fun _ => .ok []) none [exWave]) = none :=
  ⟨{ exSettings (4 / 5) with level := ⟨some (1 / 2), some (1 / 2), none, none, 1 / 10⟩ }, rfl, rfl, by decide +kernel, by decide +kernel⟩

/-- **C61**, for the levels measured from the samples (`none`: no samples).  The levels after step 4 exist if those that are not given were measured,
and then they are those given or else measured.  Missing as in `C61_update_partial`: only the level of a zero is given. -/
theorem C61_measured_partial (c : LevelConfig ℚ) (m : Level ℚ × Level ℚ) (m0 m1 : Option ℚ) (h : c.y0 = none ∨ c.y1 ≠ none) :
    ((newLevels c m0 m1 (levels c m)).isSome ↔ (c.y0.or m0).isSome ∧ (c.y1.or m1).isSome) ∧
    ∀ l, newLevels c m0 m1 (levels c m) = some l → c.y0.or m0 = some l.zero ∧ c.y1.or m1 = some (l.zero + l.ua) ∧
      l.half = c.yTh.getD ((l.zero + (l.zero + l.ua)) / 2) ∧ l.rising = (levels c m).rising ∧ l.falling = (levels c m).falling := by
  have hu : ∀ a b, _ := fun a b => Pam2Levels.C61_update_partial c m a b h
  unfold newLevels
  cases h0 : c.y0 with
  | none =>
    cases h1 : c.y1 with
    | none =>
      cases m0 with
      | none => simp
      | some a =>
        cases m1 with
        | none => simp
        | some b =>
          refine ⟨by simp, ?_⟩
          rintro l ⟨⟩
          obtain ⟨e1, e2, e3, e4, e5, -⟩ := hu a b
          rw [h0] at e1
          rw [h1] at e2
          refine ⟨by rw [e1]; rfl, by rw [e2]; rfl, ?_, e4, e5⟩
          rw [e3, e2, e1, h0, h1]
    | some y =>
      cases m0 with
      | none => simp
      | some a =>
        refine ⟨by simp, ?_⟩
        rintro l ⟨⟩
        obtain ⟨e1, e2, e3, e4, e5, -⟩ := hu a 0
        rw [h0] at e1
        rw [h1] at e2
        refine ⟨by rw [e1]; rfl, by rw [e2]; rfl, ?_, e4, e5⟩
        rw [e3, e2, e1, h0, h1]
  | some x =>
    cases h1 : c.y1 with
    | none => rw [h0, h1] at h; simp at h
    | some y =>
      refine ⟨by simp, ?_⟩
      rintro l ⟨⟩
      obtain ⟨e1, e2, e3, e4, e5, -⟩ := hu 0 0
      rw [h0] at e1
      rw [h1] at e2
      refine ⟨by rw [e1]; rfl, by rw [e2]; rfl, ?_, e4, e5⟩
      rw [e3, e2, e1, h0, h1]

/-- Only the level of a one is given. -/
example : (⟨none, some 3, none, none, 1 / 10⟩ : LevelConfig ℚ).y0 = none ∧
    (newLevels ⟨none, some 3, none, none, 1 / 10⟩ (some 1) none (levels ⟨none, some 3, none, none, 1 / 10⟩ (⟨0, 0⟩, ⟨2, 0⟩))).map
      (fun l => (l.zero, l.ua, l.half)) = some (1, 2, 2) := by decide +kernel

/-- Hexagon masks as in C41 can be evaluated if the samples are at most an amplitude outside of the levels. -/
theorem maskOk_hexagon (m c : Mask.Hexagon) (cfg : LevelConfig ℚ) (T δ y0 y1 : ℚ) (ys : List (List ℚ)) (hT : 0 < T) (hδ : 0 < δ)
    (h0 : cfg.y0 = some y0) (h1 : cfg.y1 = some y1) (hne : y0 ≠ y1) (hm : m.convert (y1 - y0) T = .ok c)
    (hx : 0 ≤ c.x1.v ∧ c.x1.v ≤ c.x2.v ∧ c.x2.v ≤ 1 / 2 ∧ c.x1.v < 1 / 2) (hy : 0 ≤ c.y1.v ∧ c.y1.v < 1 / 2)
    (hu : 0 ≤ c.yu.v ∧ c.yu.v ≤ 1 / 2) (hl : 0 ≤ c.yl.v ∧ c.yl.v ≤ 1 / 2)
    (hr : ∀ y ∈ ys, ∀ v ∈ y, -1 < (v - y0) / (y1 - y0) ∧ (v - y0) / (y1 - y0) < 2) :
    MaskOk (some (sampleHexMask m)) cfg T δ ys := by
  intro f hf
  obtain rfl := Option.some.inj hf
  refine ⟨y0, y1, h0, h1, hne, fun ws hws => ?_⟩
  obtain ⟨r, hr, -⟩ := C42_hexagon m c T δ y0 (y1 - y0) hT hδ hm hx hy hu hl ws (fun w hw => (hws w hw).2) fun w hw v hv => hr _ (hws w hw).1 v hv
  exact ⟨r, hr⟩

/-- The hypotheses of C69 are met, with a mask. -/
example : ∃ a, calculateAll (exSettings (4 / 5)) (⟨0, 0⟩, ⟨0, 0⟩) (some [[some 6, some 10, some 14]]) none (fun _ => .ok []) (some (sampleHexMask exHexZero))
    [exWave] = .ok a ∧ 0 < a.tSym ∧ a.wfs.length = 1 := by
  obtain ⟨a, h1, h2, h3, -⟩ := C69_completes_partial (exSettings (4 / 5)) (⟨0, 0⟩, ⟨0, 0⟩) (some [[some 6, some 10, some 14]]) none (fun _ => .ok [])
    (some (sampleHexMask exHexZero)) exWave [] [[6, 10, 14]] 0 39 (by decide +kernel) (by decide +kernel) (by norm_num) (by simp) (by decide +kernel)
    (by decide +kernel) ⟨[6, 10, 14], by simp, by decide⟩ (by decide) (by unfold Drawable; decide +kernel) (by unfold Drawable; decide +kernel)
    (by
      intro T δ hT hδ
      refine maskOk_hexagon exHexZero exHexConv _ T δ 0 1 _ hT hδ rfl rfl (by norm_num) ?_ (by decide +kernel) (by decide +kernel) (by decide +kernel)
        (by decide +kernel) (by decide +kernel)
      simp [Mask.Hexagon.convert, exHexZero, exHexConv, Mask.convertUnit, Mask.plain, Mask.Hexagon.new, bind, Except.bind, pure, Except.pure])
  exact ⟨a, h1, h2, h3⟩

/-- The same with a level of 0.8 and with a clock that begins low. -/
example : raised (calculateAll (exSettings (4 / 5)) (⟨0, 0⟩, ⟨0, 0⟩) (some [[some 6, some 10, some 14]]) none (fun _ => .ok []) none [exWave]) = none :=
  by decide +kernel

end Verif.Props.Pipeline
