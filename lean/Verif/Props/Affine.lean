import Verif.Model.Pipeline
import Mathlib.Tactic.FieldSimp
import Mathlib.Tactic.Ring
import Mathlib.Tactic.Linarith

/-!
C75: the results do not depend on the vertical unit and offset.
-/

namespace Verif.Props.Affine

open Verif Verif.Lines Verif.Eye Verif.Pam2 Verif.Pipeline

/-- The same value in another unit, with another offset. -/
def aff (α β v : ℚ) : ℚ := α * v + β

/-- The level settings in the other unit; `hysteresis_ua` has none. -/
def affC (α β : ℚ) (c : LevelConfig ℚ) : LevelConfig ℚ := ⟨c.y0.map (aff α β), c.y1.map (aff α β), c.yTh.map (aff α β), c.hys.map (α * ·), c.hysUa⟩

/-- A measured level in the other unit. -/
def affLevel (α β : ℚ) (l : Level ℚ) : Level ℚ := ⟨aff α β l.value, α * l.stddev⟩

/-- All levels in the other unit. -/
def affLevels (α β : ℚ) (l : Levels ℚ) : Levels ℚ := ⟨aff α β l.zero, α * l.ua, aff α β l.half, aff α β l.rising, aff α β l.falling, l.lowSnr⟩

/-- A waveform in the other unit. -/
def affW (α β : ℚ) (w : Wave) : Wave := (w.1, w.2.map (aff α β))

/-- The same with its symbols. -/
def affWf (α β : ℚ) (w : Wf) : Wf := ⟨w.y.map (aff α β), w.centers⟩

/-- The vertical samples in the other unit: decisions and counts are the same. -/
def affV (α β : ℚ) (v : VOut) : VOut :=
  ⟨v.y0.map (aff α β), v.y1.map (aff α β), v.cross.map (aff α β), v.y0Cross.map (aff α β), v.y1Cross.map (aff α β), v.avg.map (aff α β), v.trans,
    v.edgeDir⟩

/-- The settings in the other unit. -/
def affS (α β : ℚ) (s : Settings) : Settings := { s with level := affC α β s.level }

/-- The results in the other unit: only levels and vertical samples change, not the symbol period, the symbols, the decisions, the horizontal
samples, the mask test, the bathtub curve and the counts of the image. -/
def affA (α β : ℚ) (a : Analysis) : Analysis :=
  ⟨a.tSym, a.wfs.map (affWf α β), a.v.map fun v => v.map (affV α β),
    a.picture.map fun p => { p with levels := affLevels α β p.levels }⟩

section
variable {α β : ℚ} (hα : 0 < α)
include hα

theorem aff_lt (x y : ℚ) : aff α β x < aff α β y ↔ x < y := by
  unfold aff
  rw [add_lt_add_iff_right, mul_lt_mul_iff_right₀ hα]

theorem aff_inj (x y : ℚ) : aff α β x = aff α β y ↔ x = y := by
  unfold aff
  rw [add_left_inj, mul_right_inj' hα.ne']

omit hα in
theorem aff_sub (x y : ℚ) : aff α β x - aff α β y = α * (x - y) := by unfold aff; ring

theorem ratio (x y z u : ℚ) : (α * (x - y)) / (α * (z - u)) = (x - y) / (z - u) := mul_div_mul_left _ _ hα.ne'

/-! ### Levels -/

theorem levels_aff (c : LevelConfig ℚ) (m : Level ℚ × Level ℚ) :
    levels (affC α β c) (affLevel α β m.1, affLevel α β m.2) = affLevels α β (levels c m) := by
  obtain ⟨y0, y1, yTh, hys, u⟩ := c
  obtain ⟨⟨v0, s0⟩, ⟨v1, s1⟩⟩ := m
  have key : ∀ a b s t : ℚ, (if α * s + α * t = 0 then false else decide (α * (a - b) / (α * s + α * t) < 2)) =
      (if s + t = 0 then false else decide ((a - b) / (s + t) < 2)) := by
    intro a b s t
    rw [← mul_add, mul_div_mul_left _ _ hα.ne']
    simp [hα.ne']
  rcases y0 with _ | y0 <;> rcases y1 with _ | y1 <;> rcases yTh with _ | yTh <;> rcases hys with _ | h <;>
    simp only [levels, startLevels, affC, affLevel, affLevels, Option.map_none, Option.map_some, Option.getD_none, Option.getD_some, reduceCtorEq,
      true_or, or_true, or_self, if_true, if_false, key, Levels.mk.injEq, and_true, true_and, aff_sub, add_zero] <;>
    first
    | (refine ⟨?_, ?_, ?_⟩ <;> (unfold aff; ring))
    | (refine ⟨?_, ?_⟩ <;> (unfold aff; ring))
    | skip

omit hα in
theorem mean_aff (l : List ℚ) : mean (l.map (aff α β)) = (mean l).map (aff α β) := by
  unfold mean
  by_cases h : l = []
  · simp [h]
  · have hl : (l.length : ℚ) ≠ 0 := by exact_mod_cast List.length_eq_zero_iff.not.2 h
    have hs : ∀ l : List ℚ, (l.map (aff α β)).sum = α * l.sum + β * l.length := by
      intro l
      induction l with
      | nil => simp
      | cons a l ih => rw [List.map_cons, List.sum_cons, ih, List.sum_cons, List.length_cons]; unfold aff; push_cast; ring
    rw [if_neg (by simpa using h), if_neg h, hs, List.length_map, Option.map_some]
    congr 1
    unfold aff
    field_simp

theorem newLevels_aff (c : LevelConfig ℚ) (m0 m1 : Option ℚ) (l : Levels ℚ) :
    newLevels (affC α β c) (m0.map (aff α β)) (m1.map (aff α β)) (affLevels α β l) = (newLevels c m0 m1 l).map (affLevels α β) := by
  obtain ⟨y0, y1, yTh, hys, u⟩ := c
  rcases y0 with _ | y0 <;> rcases y1 with _ | y1 <;> rcases m0 with _ | m0 <;> rcases m1 with _ | m1 <;> rcases yTh with _ | yTh <;>
    simp only [newLevels, updateLevels, affC, affLevels, Option.map_none, Option.map_some, Option.some.injEq, Levels.mk.injEq, and_true, true_and,
      aff_sub] <;>
    first
    | (refine ⟨?_, ?_⟩ <;> (unfold aff; ring))
    | (unfold aff; ring)
    | skip

/-! ### Edges -/

omit hα in
theorem pyGet_map {γ δ : Type} (f : γ → δ) (l : List γ) (i : ℕ) : pyGet (l.map f) i = (pyGet l i).map f := by
  unfold pyGet
  rw [List.getElem?_map]
  cases l[i]? <;> rfl

theorem crossLoop_aff (srch : List ℚ) (value : ℚ) (fwd : Bool) (n fuel : ℕ) (i : ℤ) :
    crossLoop (srch.map (aff α β)) (aff α β value) fwd n fuel i = crossLoop srch value fwd n fuel i := by
  induction fuel generalizing i with
  | zero => rfl
  | succ fuel ih =>
    unfold crossLoop
    simp only [pyGet_map, ih]
    cases pyGet srch i.toNat <;> cases pyGet srch (i.toNat - 1) <;>
      simp only [Except.map, bind, Except.bind, gt_iff_lt, aff_lt hα]

theorem crossing_aff (ret srch : List ℚ) (i : ℤ) (value : ℚ) (fwd : Bool) (n : ℕ) :
    crossing ret (srch.map (aff α β)) i (aff α β value) fwd n = crossing ret srch i value fwd n := by
  unfold crossing
  simp only [List.length_map, crossLoop_aff hα, pyGet_map]
  congr 1
  funext j
  congr 1
  cases pyGet ret (j.toNat - 1) <;> cases pyGet ret j.toNat <;> cases pyGet srch (j.toNat - 1) <;> cases pyGet srch j.toNat <;>
    simp only [Except.map, bind, Except.bind, aff_sub]
  rename_i x1 x2 y1 y2
  congr 4
  rw [div_mul_eq_mul_div, div_mul_eq_mul_div, show (x2 - x1) * (α * (value - y1)) = α * ((x2 - x1) * (value - y1)) by ring,
    mul_div_mul_left _ _ hα.ne']

theorem edgesNp_aff (t y : List ℚ) (r h f : ℚ) : edgesNp t (y.map (aff α β)) (aff α β r) (aff α β h) (aff α β f) = edgesNp t y r h f := by
  have hs : Lines.edgeStep t (y.map (aff α β)) (aff α β r) (aff α β h) (aff α β f) t.length = Lines.edgeStep t y r h f t.length := by
    funext s i
    unfold Lines.edgeStep
    rw [pyGet_map]
    cases pyGet y i <;> simp only [Except.map, bind, Except.bind, gt_iff_lt, aff_lt hα, crossing_aff hα]
  unfold edgesNp
  rw [hs, pyGet_map]
  cases pyGet y 0 <;> simp only [Except.map, bind, Except.bind, aff_lt hα]

theorem clockEdges_aff (given : Option (List (List (Option ℚ)))) (clocks : Option (List Wave)) (wfs : List Wave) (l : Levels ℚ) (p : Polarity)
    (cdr : List (Option ℚ) → Except PyErr (List (Option ℚ))) (period : Option ℚ) :
    clockEdges given (clocks.map fun c => c.map (affW α β)) (wfs.map (affW α β)) (affLevels α β l) p cdr period =
      clockEdges given clocks wfs l p cdr period := by
  have hsel : ∀ w, selectedEdges (affW α β w) (affLevels α β l) p = selectedEdges w l p := by
    intro w
    unfold selectedEdges affW affLevels
    simp only [edgesNp_aff hα]
  unfold clockEdges
  rcases given with _ | e
  · rcases clocks with _ | c
    · simp only [Option.map_none, List.mapM_map]
      simp only [Function.comp_def, hsel]
      rfl
    · simp only [Option.map_some, List.mapM_map, Function.comp_def, hsel]
  · rfl

/-! ### Vertical samples -/

omit hα in
theorem foldlM_map {σ τ γ : Type} (g : σ → τ) (F : σ → γ → Except PyErr σ) (F' : τ → γ → Except PyErr τ) (h : ∀ v c, F' (g v) c = (F v c).map g)
    (l : List γ) (v : σ) : l.foldlM F' (g v) = (l.foldlM F v).map g := by
  induction l generalizing v with
  | nil => rfl
  | cons c l ih =>
    rw [List.foldlM_cons, List.foldlM_cons, h]
    cases hF : F v c with
    | error e => rfl
    | ok v' => exact ih v'

omit hα in
theorem mapM_map' {γ δ ε ζ : Type} (g : ε → ζ) (F : γ → Except PyErr ε) (F' : δ → Except PyErr ζ) (k : γ → δ) (h : ∀ c, F' (k c) = (F c).map g)
    (l : List γ) : (l.map k).mapM F' = (l.mapM F).map fun r => r.map g := by
  induction l with
  | nil => rfl
  | cons c l ih =>
    rw [List.map_cons, List.mapM_cons, List.mapM_cons, h, ih]
    cases F c <;> cases l.mapM F <;> rfl

omit hα in
theorem pyGetZ_map {γ δ : Type} (f : γ → δ) (l : List γ) (i : ℤ) : pyGetZ (l.map f) i = (pyGetZ l i).map f := by
  unfold pyGetZ
  rw [List.length_map, pyGet_map, pyGet_map]
  split
  · rfl
  · split <;> rfl

omit hα in
theorem points_aff (ys : List ℚ) (T δ : ℚ) (c : Center) :
    points (ys.map (aff α β)) T δ c = (points ys T δ c).map fun ps => ps.map fun p => (p.1, aff α β p.2) := by
  unfold points
  have := mapM_map' (fun p : Pt => (p.1, aff α β p.2)) (fun p : ℚ × ℕ => do
    let y ← pyGetZ ys (c.i - iWidth T δ + p.2)
    return ((p.1 + c.t / T, y) : Pt)) (fun p : ℚ × ℕ => do
    let y ← pyGetZ (ys.map (aff α β)) (c.i - iWidth T δ + p.2)
    return ((p.1 + c.t / T, y) : Pt)) id (by
      intro p
      simp only [id, pyGetZ_map]
      cases pyGetZ ys (c.i - iWidth T δ + p.2) <;> rfl) (gridT T δ).zipIdx
  rw [List.map_id] at this
  exact this

theorem above_aff (h : ℚ) (l : List ℚ) : above (aff α β h) (l.map (aff α β)) = above h l := by
  unfold above
  rw [mean_aff]
  cases mean l with
  | none => rfl
  | some m => simp only [Option.map_some, gt_iff_lt, aff_lt hα]

/-- The samples of one symbol in the other unit. -/
def affSamples (α β : ℚ) (s : Samples) : Samples :=
  ⟨s.a.map (aff α β), s.b.map (aff α β), s.c.map (aff α β), s.sym.map (aff α β), s.cross.map (aff α β), s.symCross.map (aff α β), s.avg.map (aff α β)⟩

omit hα in
theorem samples_aff (lw cw abc : ℚ) (ps : List Pt) :
    samples lw cw abc (ps.map fun p => (p.1, aff α β p.2)) = affSamples α β (samples lw cw abc ps) := by
  have hf : ∀ q : Pt → Bool, (∀ p : Pt, q (p.1, aff α β p.2) = q p) →
      ((ps.map fun p => (p.1, aff α β p.2)).filter q).map Prod.snd = ((ps.filter q).map Prod.snd).map (aff α β) := by
    intro q hq
    induction ps with
    | nil => rfl
    | cons p ps ih =>
      rw [List.map_cons, List.filter_cons, List.filter_cons, hq]
      split
      · rw [List.map_cons, ih, List.map_cons, List.map_cons]
      · exact ih
  unfold samples affSamples
  simp only [Samples.mk.injEq]
  exact ⟨hf _ fun _ => rfl, hf _ fun _ => rfl, hf _ fun _ => rfl, hf _ fun _ => rfl, hf _ fun _ => rfl, hf _ fun _ => rfl, hf _ fun _ => rfl⟩

theorem vStep_aff (h : ℚ) (s : Samples) (v : VOut) :
    vStep (above (aff α β h)) (affSamples α β s) (affV α β v) = affV α β (vStep (above h) s v) := by
  unfold vStep affSamples affV
  simp only [above_aff hα, List.map_append, apply_ite (List.map (aff α β))]

theorem sampleVertical_aff (ys : List ℚ) (cs : List Center) (δ T h lw cw : ℚ) :
    sampleVertical (ys.map (aff α β)) cs δ T (aff α β h) lw cw = (sampleVertical ys cs δ T h lw cw).map (affV α β) := by
  unfold sampleVertical
  have he : VOut.empty = affV α β VOut.empty := rfl
  rw [he]
  conv_rhs => rw [show VOut.empty = VOut.empty from rfl]
  refine foldlM_map (affV α β) _ _ ?_ cs VOut.empty
  intro v c
  rw [points_aff]
  cases points ys T δ c with
  | error e => rfl
  | ok ps =>
    simp only [Except.map, bind, Except.bind, pure, Except.pure]
    congr 1
    rw [samples_aff, vStep_aff hα]

/-! ### Everything else is normalised -/

theorem normalise_aff (y : List ℚ) (z u : ℚ) : normalise (y.map (aff α β)) (aff α β z) (α * u) = normalise y z u := by
  unfold normalise
  rw [List.map_map]
  apply List.map_congr_left
  intro v _
  rw [Function.comp, aff_sub, mul_div_mul_left _ _ hα.ne']

theorem sampleHorizontal_aff (ys : List ℚ) (cs : List Center) (dirs : List ℤ) (δ T z u : ℚ) (cross : Option ℚ) (height lower upper : ℚ) :
    sampleHorizontal (ys.map (aff α β)) cs dirs δ T (aff α β z) (α * u) (cross.map (aff α β)) height lower upper =
      sampleHorizontal ys cs dirs δ T z u cross height lower upper := by
  unfold sampleHorizontal hWin
  rw [normalise_aff hα]
  cases cross with
  | none => rfl
  | some c => simp only [Option.map_some, aff_sub, mul_div_mul_left _ _ hα.ne']

theorem bathtubCurve_aff (ws : List Wf) (δ T z u level : ℚ) :
    bathtubCurve (ws.map (affWf α β)) δ T (aff α β z) (α * u) level = bathtubCurve ws δ T z u level := by
  unfold bathtubCurve
  rw [List.mapM_map]
  simp only [Function.comp_def, ySlice, affWf, normalise_aff hα]

theorem stackAll_aff (ws : List Wf) (δ T z u : ℚ) (res : ℕ) (pc : Bool) :
    stackAll (ws.map (affWf α β)) δ T (aff α β z) (α * u) res pc = stackAll ws δ T z u res pc := by
  have hp : ∀ (y : List ℚ) (c : Center),
      pixels (y.map (aff α β)) δ T (-1 / 2 * (α * u) + aff α β z) (3 / 2 * (α * u) + aff α β z) res c =
        pixels y δ T (-1 / 2 * u + z) (3 / 2 * u + z) res c := by
    intro y c
    unfold pixels
    congr 2
    rw [List.map_map]
    apply List.map_congr_left
    intro v _
    have h1 : aff α β v - (-1 / 2 * (α * u) + aff α β z) = α * (v - (-1 / 2 * u + z)) := by unfold aff; ring
    have h2 : 3 / 2 * (α * u) + aff α β z - (-1 / 2 * (α * u) + aff α β z) = α * (3 / 2 * u + z - (-1 / 2 * u + z)) := by ring
    rw [Function.comp, h1, h2, mul_div_mul_left _ _ hα.ne']
  unfold stackAll
  rw [List.foldlM_map]
  simp only [stack, affWf, hp]

/-- A mask in the two units: the same test. -/
def SameMask (α β : ℚ) (mask mask' : Option MaskFn) : Prop :=
  match mask, mask' with
  | none, none => True
  | some f, some f' => ∀ δ T z u ws, f' δ T (aff α β z) (α * u) (ws.map (affWf α β)) = f δ T z u ws
  | _, _ => False

theorem finish_aff (s : Settings) (mask mask' : Option MaskFn) (hm : SameMask α β mask mask') (T δ : ℚ) (ws : List Wf) (v : List VOut)
    (l : Option (Levels ℚ)) :
    finish (affS α β s) mask' T δ (ws.map (affWf α β)) (v.map (affV α β)) (l.map (affLevels α β)) =
      (finish s mask T δ ws v l).map fun p => p.map fun p => { p with levels := affLevels α β p.levels } := by
  have hfil : (l.map (affLevels α β)).filter (fun l => decide (l.ua ≠ 0)) = (l.filter fun l => decide (l.ua ≠ 0)).map (affLevels α β) := by
    cases l with
    | none => rfl
    | some l =>
      by_cases h : l.ua = 0
      · simp [Option.filter, affLevels, h]
      · simp [Option.filter, affLevels, h, hα.ne']
  have hsome : mask'.isSome = mask.isSome := by
    rcases mask with _ | f <;> rcases mask' with _ | f' <;> simp_all [SameMask]
  have hno : noPicture (affS α β s) = noPicture s := rfl
  have hgrid : drawGrid (affS α β s) = drawGrid s := rfl
  unfold finish
  rw [hfil, hsome, hno]
  cases hl : l.filter fun l => decide (l.ua ≠ 0) with
  | none =>
    simp only [Option.map_none]
    split
    · rfl
    · unfold noPicture
      cases drawGrid s <;> rfl
  | some l =>
    have hcross : mean ((v.map (affV α β)).flatMap (·.cross)) = (mean (v.flatMap (·.cross))).map (aff α β) := by
      rw [← mean_aff, List.flatMap_map, List.map_flatMap]
      rfl
    have hH : ((ws.map (affWf α β)).zip (v.map (affV α β))).mapM (fun p =>
        sampleHorizontal p.1.y p.1.centers p.2.edgeDir δ T (aff α β l.zero) (α * l.ua) ((mean (v.flatMap (·.cross))).map (aff α β)) s.timeHeight
          s.edgeLower s.edgeUpper) = (ws.zip v).mapM fun p =>
        sampleHorizontal p.1.y p.1.centers p.2.edgeDir δ T l.zero l.ua (mean (v.flatMap (·.cross))) s.timeHeight s.edgeLower s.edgeUpper := by
      rw [List.zip_map, List.mapM_map]
      simp only [Function.comp_def, Prod.map, affWf, affV, sampleHorizontal_aff hα]
    have hM : runMask mask' T δ (ws.map (affWf α β)) (affLevels α β l) = runMask mask T δ ws l := by
      rcases mask with _ | f <;> rcases mask' with _ | f' <;> simp only [SameMask] at hm
      · rfl
      · unfold runMask affLevels
        simp only [hm]
    simp only [Option.map_some, hM, picture, hgrid]
    rw [hcross]
    simp only [affLevels, affS]
    rw [hH, bathtubCurve_aff hα, stackAll_aff hα]
    cases (ws.zip v).mapM fun p =>
        sampleHorizontal p.1.y p.1.centers p.2.edgeDir δ T l.zero l.ua (mean (v.flatMap (·.cross))) s.timeHeight s.edgeLower s.edgeUpper with
    | error e => rfl
    | ok h =>
      cases runMask mask T δ ws l with
      | error e => rfl
      | ok m =>
        cases bathtubCurve ws δ T l.zero l.ua (1 / 2) with
        | error e => rfl
        | ok b =>
          cases stackAll ws δ T l.zero l.ua s.resolution s.pointCloud with
          | error e => rfl
          | ok g => cases drawGrid s <;> rfl

theorem measure_aff (s : Settings) (mask mask' : Option MaskFn) (hm : SameMask α β mask mask') (T δ : ℚ) (ws : List Wf) (l : Levels ℚ) :
    Pipeline.measure (affS α β s) mask' T δ (ws.map (affWf α β)) (affLevels α β l) = (Pipeline.measure s mask T δ ws l).map (affA α β) := by
  unfold Pipeline.measure
  have h0 : (affS α β s).skip = s.skip := rfl
  rw [h0]
  split
  · have hS : skipPicture (affS α β s) T δ (ws.map (affWf α β)) (affLevels α β l) =
        (skipPicture s T δ ws l).map fun p => p.map fun p => { p with levels := affLevels α β p.levels } := by
      unfold skipPicture
      have hno : noPicture (affS α β s) = noPicture s := rfl
      have hgrid : drawGrid (affS α β s) = drawGrid s := rfl
      have hua : (affLevels α β l).ua = 0 ↔ l.ua = 0 := by simp [affLevels, hα.ne']
      by_cases h : l.ua = 0
      · rw [if_pos (hua.2 h), if_pos h, hno]
        unfold noPicture
        cases drawGrid s <;> rfl
      · rw [if_neg (fun h' => h (hua.1 h')), if_neg h]
        simp only [picture, hgrid]
        simp only [affLevels, affS]
        rw [stackAll_aff hα]
        cases stackAll ws δ T l.zero l.ua s.resolution s.pointCloud with
        | error e => rfl
        | ok g => cases drawGrid s <;> rfl
    rw [hS]
    cases skipPicture s T δ ws l <;> rfl
  · have hV : (ws.map (affWf α β)).mapM (fun w => sampleVertical w.y w.centers δ T (affLevels α β l).half (affS α β s).levelWidth (affS α β s).crossWidth) =
        (ws.mapM fun w => sampleVertical w.y w.centers δ T l.half s.levelWidth s.crossWidth).map fun r => r.map (affV α β) :=
      mapM_map' (affV α β) _ _ (affWf α β) (fun w => sampleVertical_aff hα w.y w.centers δ T l.half s.levelWidth s.crossWidth) ws
    rw [hV]
    cases ws.mapM fun w => sampleVertical w.y w.centers δ T l.half s.levelWidth s.crossWidth with
    | error e => rfl
    | ok v =>
      simp only [Except.map, bind, Except.bind]
      have hm0 : mean ((v.map (affV α β)).flatMap (·.y0)) = (mean (v.flatMap (·.y0))).map (aff α β) := by
        rw [← mean_aff, List.flatMap_map, List.map_flatMap]
        rfl
      have hm1 : mean ((v.map (affV α β)).flatMap (·.y1)) = (mean (v.flatMap (·.y1))).map (aff α β) := by
        rw [← mean_aff, List.flatMap_map, List.map_flatMap]
        rfl
      rw [hm0, hm1, show (affS α β s).level = affC α β s.level from rfl, newLevels_aff hα, finish_aff hα s mask mask' hm]
      cases finish s mask T δ ws v (newLevels s.level (mean (v.flatMap (·.y0))) (mean (v.flatMap (·.y1))) l) <;> rfl

/-- **C75.** The results do not depend on the vertical unit and offset: if waveforms, clocks, level settings and measured levels are given in another
unit (by a positive factor) with another offset, and the mask is the same, `calculate` has the same outcome: the same exception, or the same symbols,
decisions, horizontal samples, mask test, bathtub curve and image, and the levels and vertical samples in the other unit. -/
theorem C75_vertical (s : Settings) (m : Level ℚ × Level ℚ) (given : Option (List (List (Option ℚ)))) (clocks : Option (List Wave))
    (cdr : List (Option ℚ) → Except PyErr (List (Option ℚ))) (mask mask' : Option MaskFn) (hm : SameMask α β mask mask') (wfs : List Wave) :
    calculateAll (affS α β s) (affLevel α β m.1, affLevel α β m.2) given (clocks.map fun c => c.map (affW α β)) cdr mask' (wfs.map (affW α β)) =
      (calculateAll s m given clocks cdr mask wfs).map (affA α β) := by
  have hδ : tDelta (wfs.map (affW α β)) = tDelta wfs := by cases wfs <;> rfl
  unfold calculateAll
  rw [hδ, show (affS α β s).level = affC α β s.level from rfl, levels_aff hα]
  simp only
  rw [clockEdges_aff hα, show (affS α β s).polarity = s.polarity from rfl, show (affS α β s).period = s.period from rfl]
  cases tDelta wfs with
  | error e => rfl
  | ok δ =>
    simp only [bind, Except.bind]
    cases clockEdges given clocks wfs (levels s.level m) s.polarity cdr s.period with
    | error e => rfl
    | ok e =>
      simp only
      cases Pipeline.finite e with
      | error e => rfl
      | ok e =>
        simp only
        cases symbolPeriod e with
        | error e => rfl
        | ok T =>
          simp only
          cases T with
          | none => rfl
          | some T =>
            simp only
            have hS : ((wfs.map (affW α β)).zip e).mapM (fun p => sampled T δ p.1 p.2) =
                ((wfs.zip e).mapM fun p => sampled T δ p.1 p.2).map fun r => r.map (affWf α β) := by
              rw [List.zip_map_left]
              apply mapM_map'
              intro p
              unfold sampled affW affWf
              simp only [Prod.map, List.length_map, id]
              cases pyGet p.1.1 0 <;> rfl
            rw [hS]
            cases (wfs.zip e).mapM fun p => sampled T δ p.1 p.2 with
            | error e => rfl
            | ok ws => exact measure_aff hα s mask mask' hm T δ ws (levels s.level m)

end

end Verif.Props.Affine
