import Verif.Props.TimeScale
import Verif.Props.EyeImage
import Verif.Props.EyeBathtub
import Verif.Props.Pipeline
import Verif.Model.AutoLevels
import Verif.Model.Pam2Measures

/-!
C78: the results do not depend on the order of the waveforms.
-/

namespace Verif.Props.Order

open Verif Verif.Stats Verif.AutoLevels Verif.Props Verif.Props.Pipeline Verif.Props.EyeMask Verif.Lines Verif.Eye Verif.Pam2 Verif.Pipeline Verif.Mask Verif.Props.EyeImage Verif.Props.EyeWindow

/-- If a function succeeds on all elements of a list, it succeeds on all elements of a permutation, with the same results. -/
theorem mapM_fun {α β : Type} (f : α → Except PyErr β) (l : List α) (r : List β) (h : l.mapM f = .ok r) :
    (l = [] ∧ r = []) ∨ ∃ g : α → β, r = l.map g ∧ ∀ a ∈ l, f a = .ok (g a) := by
  cases r with
  | nil =>
    left
    refine ⟨?_, rfl⟩
    cases l with
    | nil => rfl
    | cons a l =>
      rw [List.mapM_cons] at h
      cases h1 : f a with
      | error e => rw [h1] at h; cases h
      | ok b =>
        rw [h1] at h
        cases h2 : l.mapM f with
        | error e => simp only [h2, bind, Except.bind] at h; cases h
        | ok t => simp only [h2, bind, Except.bind, pure, Except.pure] at h; cases h
  | cons d t =>
    right
    set g : α → β := fun a => match f a with | .ok b => b | .error _ => d with hg
    refine ⟨g, ?_⟩
    generalize d :: t = r at h
    clear t
    induction l generalizing r with
    | nil =>
      obtain rfl := Except.ok.inj h
      simp
    | cons a l ih =>
      rw [List.mapM_cons] at h
      cases h1 : f a with
      | error e => rw [h1] at h; cases h
      | ok b =>
        rw [h1] at h
        cases h2 : l.mapM f with
        | error e => simp only [h2, bind, Except.bind] at h; cases h
        | ok t =>
          simp only [h2, bind, Except.bind, pure, Except.pure] at h
          obtain rfl := Except.ok.inj h
          obtain ⟨e1, e2⟩ := ih t h2
          have ga : g a = b := by rw [hg]; simp only [h1]
          refine ⟨by rw [List.map_cons, ga, e1], ?_⟩
          intro x hx
          rcases List.mem_cons.1 hx with rfl | hx
          · rw [h1, ga]
          · exact e2 x hx

/-- The same with a second list: results as a function of the elements. -/
theorem mapM_perm {α β : Type} (f : α → Except PyErr β) (l l' : List α) (hp : l.Perm l') (r : List β) (h : l.mapM f = .ok r) :
    (l = [] ∧ l' = [] ∧ r = []) ∨ ∃ g : α → β, r = l.map g ∧ l'.mapM f = .ok (l'.map g) ∧ ∀ a ∈ l, f a = .ok (g a) := by
  rcases mapM_fun f l r h with ⟨rfl, rfl⟩ | ⟨g, e, hg⟩
  · left
    exact ⟨rfl, hp.nil_eq.symm, rfl⟩
  · right
    exact ⟨g, e, Verif.Props.EyeMask.mapM_ok f g l' fun a ha => hg a (hp.mem_iff.2 ha), hg⟩

theorem mapM_map_eq {α β γ : Type} (f : β → Except PyErr γ) (k : α → β) (l : List α) : (l.map k).mapM f = l.mapM fun a => f (k a) := by
  induction l with
  | nil => rfl
  | cons a l ih => rw [List.map_cons, List.mapM_cons, List.mapM_cons, ih]

theorem mean_perm (l l' : List ℚ) (hp : l.Perm l') : mean l = mean l' := by
  unfold mean
  rw [hp.sum_eq, hp.length_eq]
  by_cases h : l = []
  · subst h; obtain rfl := hp.nil_eq; rfl
  · rw [if_neg h, if_neg]
    rintro rfl
    exact h hp.eq_nil

theorem symbolPeriod_perm (e e' : List (List ℚ)) (hp : e.Perm e') : symbolPeriod e = symbolPeriod e' := by
  have hd : ((e.map diffs).flatten).Perm ((e'.map diffs).flatten) := (hp.map diffs).flatten
  unfold symbolPeriod
  by_cases h : e = []
  · subst h; obtain rfl := hp.nil_eq; rfl
  · have h' : e' ≠ [] := by rintro rfl; exact h hp.eq_nil
    rw [if_neg h, if_neg h']
    simp only
    rw [mean_perm _ _ hd]
    cases mean (e'.map diffs).flatten with
    | none => rfl
    | some m => simp only; rw [mean_perm _ _ (hd.filter _)]

theorem sort_eq_of_perm (l l' : List ℚ) (hp : l.Perm l') : sort l = sort l' := by
  have hs : ∀ l : List ℚ, (sort l).Pairwise (· ≤ ·) := by
    intro l
    have := List.pairwise_mergeSort (le := fun a b : ℚ => decide (a ≤ b)) (fun a b c h1 h2 => by
      simp only [decide_eq_true_eq] at *; exact h1.trans h2) (fun a b => by
      simp only [Bool.or_eq_true, decide_eq_true_eq]; exact le_total a b) l
    unfold sort
    simpa using this
  have p : (sort l).Perm (sort l') := ((List.mergeSort_perm _ _).trans hp).trans (List.mergeSort_perm _ _).symm
  exact p.eq_of_pairwise (fun a b _ _ h1 h2 => le_antisymm h1 h2) (hs l) (hs l')

theorem bathtub_perm (l l' : List ℚ) (hp : l.Perm l') : bathtub l = bathtub l' := by
  unfold bathtub
  rw [sort_eq_of_perm l l' hp]

/-- The waveforms, the clocks and the given clock edges belong together. -/
structure Item where
  wave : Wave
  given : List (Option ℚ)
  clock : Wave

/-- What a mask gives for the waveforms in another order. -/
structure SameMaskResult (ws ws' : List Wf) (r r' : MaskAll) : Prop where
  margin : r.margin = r'.margin
  count : r.count = r'.count
  hits : r.hits.Perm r'.hits
  offenders : ∃ f : Wf → List ℕ, r.offenders = ws.map f ∧ r'.offenders = ws'.map f

/-- A mask test that treats the waveforms one by one. -/
def OrderFree (mask : Option MaskFn) : Prop := ∀ f, mask = some f → ∀ (δ T z u : ℚ) (ws ws' : List Wf) (r : MaskAll), ws.Perm ws' →
  f δ T z u ws = .ok r → ∃ r', f δ T z u ws' = .ok r' ∧ SameMaskResult ws ws' r r'

/-- The pictures of two orders of the waveforms `items`, `items'`. -/
structure SamePicture {ι : Type} (items items' : List ι) (fw : ι → Wf) (p p' : Picture) : Prop where
  levels : p.levels = p'.levels
  h : (p.h = [] ∧ p'.h = []) ∨ ∃ fh : ι → HOut, p.h = items.map fh ∧ p'.h = items'.map fh
  bathtub : p.bathtub = p'.bathtub
  counts : p.counts = p'.counts
  mask : (p.mask = none ∧ p'.mask = none) ∨ ∃ r r', p.mask = some r ∧ p'.mask = some r' ∧ SameMaskResult (items.map fw) (items'.map fw) r r'

/-- The results of two orders of the waveforms: everything that belongs to a waveform depends on that waveform only, everything else is equal. -/
structure SameResults {ι : Type} (items items' : List ι) (a a' : Analysis) : Prop where
  tSym : a.tSym = a'.tSym
  rest : ∃ fw : ι → Wf, a.wfs = items.map fw ∧ a'.wfs = items'.map fw ∧
    ((a.picture = none ∧ a'.picture = none) ∨ ∃ p p', a.picture = some p ∧ a'.picture = some p' ∧ SamePicture items items' fw p p')
  v : (a.v = none ∧ a'.v = none) ∨ ∃ fv : ι → VOut, a.v = some (items.map fv) ∧ a'.v = some (items'.map fv)

theorem bathtubCurve_perm (ws ws' : List Wf) (hp : ws.Perm ws') (δ T z u lv : ℚ) (b : List (ℚ × ℚ)) (h : bathtubCurve ws δ T z u lv = .ok b) :
    bathtubCurve ws' δ T z u lv = .ok b := by
  unfold bathtubCurve at h ⊢
  cases h1 : ws.mapM fun w => ySlice w δ T z u lv with
  | error e => simp only [h1, bind, Except.bind] at h; cases h
  | ok r =>
    simp only [h1, bind, Except.bind, pure, Except.pure] at h
    rcases mapM_perm _ ws ws' hp r h1 with ⟨rfl, rfl, rfl⟩ | ⟨g, rfl, e, -⟩
    · exact h
    · rw [e]
      simp only [bind, Except.bind, pure, Except.pure]
      rw [← Except.ok.inj h, bathtub_perm _ _ (hp.map g).flatten]

theorem picture_perm {ι : Type} (items items' : List ι) (hp : items.Perm items') (fw : ι → Wf) (s : Settings) (T δ : ℚ) (hT : 0 < T) (hδ : 0 < δ)
    (hin : ∀ i ∈ items, ∀ c ∈ (fw i).centers, Inside T δ (fw i).y.length c) (l : Levels ℚ) (hu : l.ua ≠ 0) (h h' : List HOut) (m m' : Option MaskAll)
    (b : List (ℚ × ℚ)) (p : Picture) (e : picture s T δ (items.map fw) l h m b = .ok p)
    (hh : (h = [] ∧ h' = []) ∨ ∃ fh : ι → HOut, h = items.map fh ∧ h' = items'.map fh)
    (hm : (m = none ∧ m' = none) ∨ ∃ r r', m = some r ∧ m' = some r' ∧ SameMaskResult (items.map fw) (items'.map fw) r r') :
    ∃ p', picture s T δ (items'.map fw) l h' m' b = .ok p' ∧ SamePicture items items' fw p p' := by
  obtain ⟨g, g1, g2⟩ := C59_order (items.map fw) (items'.map fw) (hp.map fw) T δ l.zero l.ua hT hδ hu s.resolution s.pointCloud (by
    intro w hw
    obtain ⟨i, hi, rfl⟩ := List.mem_map.1 hw
    exact hin i hi)
  unfold picture at e ⊢
  rw [g1] at e
  rw [g2]
  cases hd : drawGrid s with
  | error x => simp only [hd, bind, Except.bind] at e; cases e
  | ok x =>
    simp only [hd, bind, Except.bind, pure, Except.pure] at e
    obtain rfl := Except.ok.inj e
    exact ⟨_, rfl, rfl, hh, rfl, rfl, hm⟩

theorem noPicture_none (s : Settings) (p : Option Picture) (h : noPicture s = .ok p) : p = none := by
  unfold noPicture at h
  cases hd : drawGrid s with
  | error x => simp only [hd, bind, Except.bind] at h; cases h
  | ok x =>
    simp only [hd, bind, Except.bind, pure, Except.pure] at h
    exact (Except.ok.inj h).symm

theorem runMask_perm (mask : Option MaskFn) (hm : OrderFree mask) (T δ : ℚ) (ws ws' : List Wf) (hp : ws.Perm ws') (l : Levels ℚ) (m : Option MaskAll)
    (h : runMask mask T δ ws l = .ok m) :
    ∃ m', runMask mask T δ ws' l = .ok m' ∧ ((m = none ∧ m' = none) ∨ ∃ r r', m = some r ∧ m' = some r' ∧ SameMaskResult ws ws' r r') := by
  unfold runMask at h ⊢
  cases mask with
  | none =>
    obtain rfl := Except.ok.inj h
    exact ⟨none, rfl, Or.inl ⟨rfl, rfl⟩⟩
  | some f =>
    simp only [bind, Except.bind, pure, Except.pure] at h ⊢
    cases hf : f δ T l.zero l.ua ws with
    | error e => rw [hf] at h; cases h
    | ok r =>
      rw [hf] at h
      obtain rfl := Except.ok.inj h
      obtain ⟨r', e, hr⟩ := hm f rfl δ T l.zero l.ua ws ws' r hp hf
      rw [e]
      exact ⟨some r', rfl, Or.inr ⟨r, r', rfl, rfl, hr⟩⟩

theorem zip_map_map {ι α β : Type} (l : List ι) (f : ι → α) (g : ι → β) : (l.map f).zip (l.map g) = l.map fun i => (f i, g i) := by
  rw [List.zip_map']

theorem flatMap_map_perm {ι α β : Type} (l l' : List ι) (hp : l.Perm l') (f : ι → α) (g : α → List β) :
    ((l.map f).flatMap g).Perm ((l'.map f).flatMap g) := (hp.map f).flatMap_right g

theorem measure_perm {ι : Type} (items items' : List ι) (hne : items ≠ []) (hp : items.Perm items') (fw : ι → Wf) (s : Settings) (mask : Option MaskFn)
    (hm : OrderFree mask) (T δ : ℚ) (hT : 0 < T) (hδ : 0 < δ) (hin : ∀ i ∈ items, ∀ c ∈ (fw i).centers, Inside T δ (fw i).y.length c) (l : Levels ℚ)
    (a : Analysis) (h : Pipeline.measure s mask T δ (items.map fw) l = .ok a) :
    ∃ a', Pipeline.measure s mask T δ (items'.map fw) l = .ok a' ∧ SameResults items items' a a' := by
  unfold Pipeline.measure at h ⊢
  by_cases hs : s.skip = true
  · rw [if_pos hs] at h ⊢
    unfold skipPicture at h ⊢
    by_cases hu : l.ua = 0
    · rw [if_pos hu] at h ⊢
      cases hn : noPicture s with
      | error e => simp only [hn, bind, Except.bind] at h; cases h
      | ok p =>
        simp only [hn, bind, Except.bind, pure, Except.pure] at h
        obtain rfl := Except.ok.inj h
        obtain rfl := noPicture_none s p hn
        exact ⟨_, rfl, rfl, ⟨fw, rfl, rfl, Or.inl ⟨rfl, rfl⟩⟩, Or.inl ⟨rfl, rfl⟩⟩
    · rw [if_neg hu] at h ⊢
      cases hn : picture s T δ (items.map fw) l [] none [] with
      | error e => simp only [hn, bind, Except.bind] at h; cases h
      | ok p =>
        simp only [hn, bind, Except.bind, pure, Except.pure] at h
        obtain rfl := Except.ok.inj h
        obtain ⟨p', e, hpp⟩ := picture_perm items items' hp fw s T δ hT hδ hin l hu [] [] none none [] p hn (Or.inl ⟨rfl, rfl⟩) (Or.inl ⟨rfl, rfl⟩)
        rw [e]
        exact ⟨_, rfl, rfl, ⟨fw, rfl, rfl, Or.inr ⟨p, p', rfl, rfl, hpp⟩⟩, Or.inl ⟨rfl, rfl⟩⟩
  · rw [if_neg hs] at h ⊢
    rw [mapM_map_eq] at h ⊢
    cases hv : items.mapM fun i => sampleVertical (fw i).y (fw i).centers δ T l.half s.levelWidth s.crossWidth with
    | error e => simp only [hv, bind, Except.bind] at h; cases h
    | ok v =>
      simp only [hv, bind, Except.bind] at h
      rcases mapM_perm _ items items' hp v hv with ⟨rfl, rfl, rfl⟩ | ⟨fv, rfl, ev, -⟩
      · exact absurd rfl hne
      · rw [ev]
        simp only [bind, Except.bind]
        rw [mean_perm _ _ (flatMap_map_perm items items' hp fv (·.y0)), mean_perm _ _ (flatMap_map_perm items items' hp fv (·.y1))] at h
        generalize newLevels s.level (mean ((items'.map fv).flatMap (·.y0))) (mean ((items'.map fv).flatMap (·.y1))) l = nl at h ⊢
        unfold finish at h ⊢
        cases hnl : nl.filter fun l => decide (l.ua ≠ 0) with
        | none =>
          simp only [hnl] at h ⊢
          by_cases hms : mask.isSome = true
          · rw [if_pos hms] at h; cases h
          · rw [if_neg hms] at h ⊢
            cases hn : noPicture s with
            | error e => simp only [hn] at h; cases h
            | ok p =>
              simp only [hn, pure, Except.pure] at h ⊢
              obtain rfl := Except.ok.inj h
              obtain rfl := noPicture_none s p hn
              exact ⟨_, rfl, rfl, ⟨fw, rfl, rfl, Or.inl ⟨rfl, rfl⟩⟩, Or.inr ⟨fv, rfl, rfl⟩⟩
        | some l2 =>
          have hu : l2.ua ≠ 0 := by
            have := Option.eq_some_of_filter_eq_some hnl
            have h2 := hnl
            rw [this] at h2
            simp only [Option.filter] at h2
            by_contra hz
            simp [hz] at h2
          simp only [hnl, bind, Except.bind, zip_map_map] at h ⊢
          rw [mapM_map_eq] at h ⊢
          rw [mean_perm _ _ (flatMap_map_perm items items' hp fv (·.cross))] at h
          generalize mean ((items'.map fv).flatMap (·.cross)) = cr at h ⊢
          cases hh : items.mapM fun i => sampleHorizontal (fw i).y (fw i).centers (fv i).edgeDir δ T l2.zero l2.ua cr s.timeHeight s.edgeLower
              s.edgeUpper with
          | error e => simp only [hh] at h; cases h
          | ok hs' =>
            simp only [hh] at h
            rcases mapM_perm _ items items' hp hs' hh with ⟨rfl, rfl, rfl⟩ | ⟨fh, rfl, eh, -⟩
            · exact absurd rfl hne
            · rw [eh]
              simp only
              cases hmk : runMask mask T δ (items.map fw) l2 with
              | error e => simp only [hmk] at h; cases h
              | ok mm =>
                simp only [hmk] at h
                obtain ⟨mm', em, hmm⟩ := runMask_perm mask hm T δ _ _ (hp.map fw) l2 mm hmk
                rw [em]
                cases hb : bathtubCurve (items.map fw) δ T l2.zero l2.ua (1 / 2) with
                | error e => simp only [hb] at h; cases h
                | ok b =>
                  simp only [hb] at h
                  rw [bathtubCurve_perm _ _ (hp.map fw) δ T _ _ _ b hb]
                  simp only
                  cases hpic : picture s T δ (items.map fw) l2 (items.map fh) mm b with
                  | error e => simp only [hpic] at h; cases h
                  | ok p =>
                    simp only [hpic, pure, Except.pure] at h
                    obtain rfl := Except.ok.inj h
                    obtain ⟨p', e, hpp⟩ := picture_perm items items' hp fw s T δ hT hδ hin l2 hu _ (items'.map fh) mm mm' b p hpic
                      (Or.inr ⟨fh, rfl, rfl⟩) hmm
                    rw [e]
                    exact ⟨_, rfl, rfl, ⟨fw, rfl, rfl, Or.inr ⟨p, p', rfl, rfl, hpp⟩⟩, Or.inr ⟨fv, rfl, rfl⟩⟩

theorem measure_tSym (s : Settings) (mask : Option MaskFn) (T δ : ℚ) (ws : List Wf) (l : Levels ℚ) (a : Analysis)
    (h : Pipeline.measure s mask T δ ws l = .ok a) : a.tSym = T := by
  unfold Pipeline.measure at h
  split at h
  · cases h1 : skipPicture s T δ ws l with
    | error e => simp only [h1, bind, Except.bind] at h; cases h
    | ok p =>
      simp only [h1, bind, Except.bind, pure, Except.pure] at h
      obtain rfl := Except.ok.inj h
      rfl
  · cases h1 : ws.mapM fun w => sampleVertical w.y w.centers δ T l.half s.levelWidth s.crossWidth with
    | error e => simp only [h1, bind, Except.bind] at h; cases h
    | ok v =>
      simp only [h1, bind, Except.bind] at h
      generalize finish s mask T δ ws v _ = f at h
      cases f with
      | error e => cases h
      | ok p =>
        simp only [pure, Except.pure] at h
        obtain rfl := Except.ok.inj h
        rfl

/-- The loop over the waveforms, one by one. -/
theorem maskLoop_eq (δ T z u : ℚ) (paths : List (List (List Pt))) (g : Wf → MaskOut) (ws : List Wf) (a : MaskAll)
    (h : ∀ w ∈ ws, sampleMask w.y w.centers δ T z u paths margins = .ok (g w)) :
    maskLoop δ T z u paths ws a = .ok ⟨a.offenders ++ ws.map fun w => (g w).offenders, a.hits ++ ws.flatMap fun w => (g w).hits,
      ws.foldl (fun m w => min m (g w).margin) a.margin, a.count + (ws.map fun w => (g w).offenders.length).sum⟩ := by
  induction ws generalizing a with
  | nil => simp [maskLoop]
  | cons w ws ih =>
    simp only [maskLoop]
    rw [h w List.mem_cons_self]
    simp only [bind, Except.bind]
    rw [ih _ fun v hv => h v (List.mem_cons_of_mem _ hv)]
    simp [add_assoc]

theorem maskLoop_mapM (δ T z u : ℚ) (paths : List (List (List Pt))) (ws : List Wf) (a r : MaskAll) (h : maskLoop δ T z u paths ws a = .ok r) :
    ∃ o, (ws.mapM fun w => sampleMask w.y w.centers δ T z u paths margins) = .ok o := by
  induction ws generalizing a with
  | nil => exact ⟨[], rfl⟩
  | cons w ws ih =>
    simp only [maskLoop] at h
    cases h1 : sampleMask w.y w.centers δ T z u paths margins with
    | error e => simp only [h1, bind, Except.bind] at h; cases h
    | ok o =>
      simp only [h1, bind, Except.bind] at h
      obtain ⟨os, e⟩ := ih _ h
      rw [List.mapM_cons, h1, e]
      exact ⟨_, rfl⟩

theorem maskLoop_perm (δ T z u : ℚ) (paths : List (List (List Pt))) (ws ws' : List Wf) (hp : ws.Perm ws') (m : ℚ) (n : ℕ) (r : MaskAll)
    (h : maskLoop δ T z u paths ws ⟨[], [], m, n⟩ = .ok r) :
    ∃ r', maskLoop δ T z u paths ws' ⟨[], [], m, n⟩ = .ok r' ∧ SameMaskResult ws ws' r r' := by
  obtain ⟨o, ho⟩ := maskLoop_mapM δ T z u paths ws _ r h
  rcases mapM_perm _ ws ws' hp o ho with ⟨rfl, rfl, rfl⟩ | ⟨g, rfl, -, hg⟩
  · exact ⟨r, h, rfl, rfl, List.Perm.refl _, fun _ => [], by rw [maskLoop] at h; obtain rfl := Except.ok.inj h; exact ⟨rfl, rfl⟩⟩
  · rw [maskLoop_eq δ T z u paths g ws _ hg] at h
    obtain rfl := Except.ok.inj h
    refine ⟨_, maskLoop_eq δ T z u paths g ws' _ fun w hw => hg w (hp.mem_iff.2 hw), ?_⟩
    refine ⟨?_, ?_, ?_, fun w => (g w).offenders, by simp, by simp⟩
    · have : RightCommutative fun (m : ℚ) (w : Wf) => min m (g w).margin := ⟨fun a b c => by rw [min_right_comm]⟩
      exact hp.foldl_eq _
    · simp only
      rw [(hp.map _).sum_eq]
    · simpa using hp.flatMap_right _

/-- A hexagon mask treats the waveforms one by one. -/
theorem C78_hexagon (m : Hexagon) : OrderFree (some (sampleHexMask m)) := by
  intro f hf δ T z u ws ws' r hp h
  obtain rfl := Option.some.inj hf
  unfold sampleHexMask at h ⊢
  cases h1 : m.convert u T with
  | error e => simp only [h1, bind, Except.bind] at h; cases h
  | ok c =>
    simp only [h1, bind, Except.bind] at h ⊢
    cases h2 : hexMaskPaths c with
    | error e => simp only [h2] at h; cases h
    | ok paths =>
      simp only [h2] at h ⊢
      exact maskLoop_perm δ T z u paths ws ws' hp _ _ r h

/-- A decagon mask treats the waveforms one by one. -/
theorem C78_decagon (m : Decagon) : OrderFree (some (sampleDecMask m)) := by
  intro f hf δ T z u ws ws' r hp h
  obtain rfl := Option.some.inj hf
  unfold sampleDecMask at h ⊢
  cases h1 : m.convert u T with
  | error e => simp only [h1, bind, Except.bind] at h; cases h
  | ok c =>
    simp only [h1, bind, Except.bind] at h ⊢
    cases h2 : decMaskPaths c with
    | error e => simp only [h2] at h; cases h
    | ok paths =>
      simp only [h2] at h ⊢
      exact maskLoop_perm δ T z u paths ws ws' hp _ _ r h

/-- The clock edges given with the waveforms. -/
def givenOf (use : Bool) (items : List Item) : Option (List (List (Option ℚ))) := if use then some (items.map (·.given)) else none

/-- The clocks given with the waveforms. -/
def clocksOf (use : Bool) (items : List Item) : Option (List Wave) := if use then some (items.map (·.clock)) else none

theorem clockEdges_perm (ug uc : Bool) (items items' : List Item) (hne : items ≠ []) (hp : items.Perm items') (l : Levels ℚ) (p : Polarity)
    (cdr : List (Option ℚ) → Except PyErr (List (Option ℚ))) (period : Option ℚ) (e : List (List (Option ℚ)))
    (h : clockEdges (givenOf ug items) (clocksOf uc items) (items.map (·.wave)) l p cdr period = .ok e) :
    ∃ f : Item → List (Option ℚ), e = items.map f ∧
      clockEdges (givenOf ug items') (clocksOf uc items') (items'.map (·.wave)) l p cdr period = .ok (items'.map f) := by
  have key : ∀ k : Item → Except PyErr (List (Option ℚ)), items.mapM k = .ok e → ∃ f : Item → List (Option ℚ), e = items.map f ∧
      items'.mapM k = .ok (items'.map f) := by
    intro k hk
    rcases mapM_perm k items items' hp e hk with ⟨rfl, -⟩ | ⟨g, e1, e2, -⟩
    · exact absurd rfl hne
    · exact ⟨g, e1, e2⟩
  unfold clockEdges at h ⊢
  cases ug with
  | true => exact ⟨(·.given), (Except.ok.inj h).symm, rfl⟩
  | false =>
    cases uc with
    | true =>
      simp only [givenOf, clocksOf, if_true, mapM_map_eq] at h ⊢
      exact key _ h
    | false =>
      simp only [givenOf, clocksOf, mapM_map_eq] at h ⊢
      by_cases hl : l.lowSnr = true
      · rw [if_pos hl] at h ⊢
        exact key _ h
      · rw [if_neg hl] at h ⊢
        exact key _ h

theorem tDelta_of (items : List Item) (hne : items ≠ []) (δ : ℚ) (h : ∀ i ∈ items, tDelta [i.wave] = .ok δ) :
    tDelta (items.map (·.wave)) = .ok δ := by
  cases items with
  | nil => exact absurd rfl hne
  | cons a l => exact h a List.mem_cons_self

/-- **C78**, for waveforms with the same sampling interval.  The order of the waveforms (with their clocks) does not matter: what the results say of a
waveform is the same, and the period, the levels, the bathtub curve, the image and the mask margin are equal.  Missing: different sampling
intervals, `C78_interval_fails`; automatic levels from decimated samples, `C78_decimated_fails`. -/
theorem C78_order_partial (s : Settings) (m : Level ℚ × Level ℚ) (ug uc : Bool) (cdr : List (Option ℚ) → Except PyErr (List (Option ℚ)))
    (mask : Option MaskFn) (hm : OrderFree mask) (items items' : List Item) (hp : items.Perm items') (δ : ℚ) (hδ : 0 < δ)
    (hd : ∀ i ∈ items, tDelta [i.wave] = .ok δ) (a : Analysis)
    (h : calculateAll s m (givenOf ug items) (clocksOf uc items) cdr mask (items.map (·.wave)) = .ok a) (hT : 0 < a.tSym) :
    ∃ a', calculateAll s m (givenOf ug items') (clocksOf uc items') cdr mask (items'.map (·.wave)) = .ok a' ∧ SameResults items items' a a' := by
  have hne : items ≠ [] := by
    rintro rfl
    simp [calculateAll, tDelta, bind, Except.bind] at h
  have hne' : items' ≠ [] := by
    rintro rfl
    exact hne hp.eq_nil
  unfold calculateAll at h ⊢
  rw [tDelta_of items hne δ hd] at h
  rw [tDelta_of items' hne' δ fun i hi => hd i (hp.mem_iff.2 hi)]
  simp only [bind, Except.bind] at h ⊢
  generalize levels s.level m = l at h ⊢
  cases h1 : clockEdges (givenOf ug items) (clocksOf uc items) (items.map (·.wave)) l s.polarity cdr s.period with
  | error e => rw [h1] at h; cases h
  | ok e =>
    obtain ⟨fe, rfl, e2⟩ := clockEdges_perm ug uc items items' hne hp l _ cdr _ e h1
    rw [h1] at h
    rw [e2]
    simp only [Pipeline.finite, mapM_map_eq] at h ⊢
    cases h2 : items.mapM fun i => (fe i).mapM number with
    | error e => rw [h2] at h; cases h
    | ok n =>
      rw [h2] at h
      rcases mapM_perm _ items items' hp n h2 with ⟨rfl, -⟩ | ⟨fn, rfl, e3, -⟩
      · exact absurd rfl hne
      rw [e3]
      simp only [zip_map_map] at h ⊢
      rw [← symbolPeriod_perm _ _ (hp.map fn)]
      cases h3 : symbolPeriod (items.map fn) with
      | error e => rw [h3] at h; cases h
      | ok t =>
        rw [h3] at h
        cases t with
        | none => cases h
        | some T =>
          simp only [mapM_map_eq] at h ⊢
          cases h4 : items.mapM fun i => sampled T δ i.wave (fn i) with
          | error e => rw [h4] at h; cases h
          | ok ws =>
            rw [h4] at h
            rcases mapM_perm _ items items' hp ws h4 with ⟨rfl, -⟩ | ⟨fw, rfl, e4, hw⟩
            · exact absurd rfl hne
            rw [e4]
            simp only at h ⊢
            have hTT : a.tSym = T := measure_tSym s mask T δ _ l a h
            rw [hTT] at hT
            refine measure_perm items items' hne hp fw s mask hm T δ hT hδ ?_ l a h
            intro i hi c hc
            have := hw i hi
            unfold sampled at this
            cases h5 : pyGet i.wave.1 0 with
            | error e => rw [h5] at this; cases this
            | ok z =>
              rw [h5] at this
              have e5 : fw i = ⟨i.wave.2, sampleEdges T δ z i.wave.2.length (fn i)⟩ := (Except.ok.inj this).symm
              rw [e5] at hc ⊢
              exact (Verif.Props.EyeMask.sampled_ok T δ z hδ _ _ c hc).1

/-! ### Measures -/

theorem foldl_op_perm {α : Type} (f : α → α → α) (hc : ∀ a b, f a b = f b a) (ha : ∀ a b c, f (f a b) c = f a (f b c)) (x x' : α) (l l' : List α)
    (hp : (x :: l).Perm (x' :: l')) : l.foldl f x = l'.foldl f x' := by
  have : Std.Commutative f := ⟨hc⟩
  have : Std.Associative f := ⟨ha⟩
  have h1 : ∀ (y : α) (r : List α), some (r.foldl f y) = (y :: r).foldl (fun (o : Option α) a => some (o.elim a (f · a))) none := by
    intro y r
    rw [List.foldl_cons]
    simp only [Option.elim_none]
    induction r generalizing y with
    | nil => rfl
    | cons b r ih => rw [List.foldl_cons, List.foldl_cons, ih]; rfl
  have : RightCommutative (fun (o : Option α) a => some (o.elim a (f · a))) := ⟨by
    intro o a b
    cases o with
    | none => simp [hc a b]
    | some x => simp [ha, hc a b]⟩
  have := hp.foldl_eq (f := fun (o : Option α) a => some (o.elim a (f · a))) none
  rw [← h1, ← h1] at this
  exact Option.some.inj this

theorem minimum_perm (l l' : List ℚ) (hp : l.Perm l') : minimum l = minimum l' := by
  cases l with
  | nil => obtain rfl := hp.nil_eq; rfl
  | cons a l =>
    cases l' with
    | nil => cases hp.eq_nil
    | cons b l' =>
      simp only [minimum]
      rw [foldl_op_perm min min_comm min_assoc a b l l' hp]

theorem maximum_perm (l l' : List ℚ) (hp : l.Perm l') : maximum l = maximum l' := by
  cases l with
  | nil => obtain rfl := hp.nil_eq; rfl
  | cons a l =>
    cases l' with
    | nil => cases hp.eq_nil
    | cons b l' =>
      simp only [maximum]
      rw [foldl_op_perm max max_comm max_assoc a b l l' hp]

theorem ptp_perm (l l' : List ℝ) (hp : l.Perm l') : ptp l = ptp l' := by
  cases l with
  | nil => obtain rfl := hp.nil_eq; rfl
  | cons a l =>
    cases l' with
    | nil => cases hp.eq_nil
    | cons b l' =>
      simp only [ptp]
      rw [foldl_op_perm max max_comm max_assoc a b l l' hp, foldl_op_perm min min_comm min_assoc a b l l' hp]

theorem ofSamples_perm (l l' : List ℚ) (hp : l.Perm l') : ofSamples l = ofSamples l' := by
  have h := hp.map fun x : ℚ => (x : ℝ)
  unfold ofSamples UV.samples
  simp only [h.length_eq, h.sum_eq]
  rw [(h.map fun v => (v - (l'.map fun x : ℚ => (x : ℝ)).sum / (l'.map fun x : ℚ => (x : ℝ)).length) * (v - (l'.map fun x : ℚ => (x : ℝ)).sum /
    (l'.map fun x : ℚ => (x : ℝ)).length)).sum_eq]

theorem percentile_perm (q : ℚ) (l l' : List ℚ) (hp : l.Perm l') : percentile q l = percentile q l' := by
  have : l.insertionSort (· ≤ ·) = l'.insertionSort (· ≤ ·) :=
    (((List.perm_insertionSort _ l).trans hp).trans (List.perm_insertionSort _ l').symm).eq_of_pairwise
      (fun a b _ _ h1 h2 => le_antisymm h1 h2) (List.pairwise_insertionSort _ l) (List.pairwise_insertionSort _ l')
  unfold percentile
  rw [this]

/-- **C78**: the vertical measures do not depend on the order of the waveforms. -/
theorem C78_vertical (nf : ℝ) (o o' : List VOut) (hp : o.Perm o') : vMeasures nf o = vMeasures nf o' := by
  have k : ∀ f : VOut → List ℚ, ofSamples (o.flatMap f) = ofSamples (o'.flatMap f) := fun f => ofSamples_perm _ _ (hp.flatMap_right f)
  have kp : ∀ q (f : VOut → List ℚ), percentile q (o.flatMap f) = percentile q (o'.flatMap f) := fun q f => percentile_perm q _ _ (hp.flatMap_right f)
  have kt : (fun x y z => (o.map fun v => v.trans x y z).sum) = fun x y z => (o'.map fun v => v.trans x y z).sum := by
    funext x y z
    exact (hp.map _).sum_eq
  unfold vMeasures vecpOf
  simp only [k, kp, kt]

/-- **C78**: the horizontal measures do not depend on the order of the waveforms. -/
theorem C78_horizontal (T : ℚ) (o o' : List HOut) (hp : o.Perm o') : hMeasures T o = hMeasures T o' := by
  have k : ∀ f : HOut → List ℚ, ofSamples ((o.flatMap f).map fun t : ℚ => t * T) = ofSamples ((o'.flatMap f).map fun t : ℚ => t * T) :=
    fun f => ofSamples_perm _ _ ((hp.flatMap_right f).map _)
  have kp : ptp ((o.flatMap (·.crossLeft)).map fun t : ℚ => ((t * T : ℚ) : ℝ)) = ptp ((o'.flatMap (·.crossLeft)).map fun t : ℚ => ((t * T : ℚ) : ℝ)) :=
    ptp_perm _ _ ((hp.flatMap_right _).map _)
  unfold hMeasures
  simp only [k, kp]

/-! ### Automatic levels -/

theorem binLinear_perm (n : ℕ) (l l' : List ℚ) (hp : l.Perm l') : binLinear l n = binLinear l' n := by
  have hr : linearRange l = linearRange l' := by unfold linearRange; rw [minimum_perm l l' hp, maximum_perm l l' hp]
  have hh : ∀ e, histogram l e = histogram l' e := by
    intro e
    unfold histogram
    simp only [hp.countP_eq]
  unfold binLinear
  rw [hr]
  simp only [hh]

theorem reduced_perm (nMax : Option ℚ) (l l' : List ℚ) (hp : l.Perm l') (hn : ∀ n, nMax = some n → (l.length : ℚ) / n ≤ 10) (d : List ℚ)
    (h : reduced nMax l = .ok d) : ∃ d', reduced nMax l' = .ok d' ∧ d.Perm d' := by
  cases nMax with
  | none =>
    obtain rfl := Except.ok.inj h
    exact ⟨l', rfl, hp⟩
  | some n =>
    have h10 := hn n rfl
    simp only [reduced] at h ⊢
    rw [← hp.length_eq]
    by_cases hz : n = 0
    · rw [if_pos hz] at h; cases h
    · rw [if_neg hz] at h ⊢
      simp only [if_neg (not_lt.2 h10)] at h ⊢
      unfold downsample at h ⊢
      rw [← hp.length_eq]
      by_cases h0 : l.length = 0
      · rw [if_pos h0] at h; cases h
      · rw [if_neg h0] at h ⊢
        simp only at h ⊢
        by_cases hs : 1 ≤ n / (l.length : ℚ)
        · rw [if_pos hs] at h ⊢
          obtain rfl := Except.ok.inj h
          exact ⟨l', rfl, hp⟩
        · rw [if_neg hs] at h ⊢
          rw [← binLinear_perm 500 l l' hp]
          exact ⟨d, h, List.Perm.refl d⟩

theorem constant_iff (l : List ℚ) : constant l = true ↔ ∀ a ∈ l, ∀ b ∈ l, a = b := by
  cases l with
  | nil => simp [constant]
  | cons x l =>
    simp only [constant, List.all_eq_true, beq_iff_eq]
    constructor
    · intro h
      have k : ∀ a ∈ x :: l, a = x := by
        intro a ha
        rcases List.mem_cons.1 ha with rfl | ha
        · rfl
        · exact h a ha
      intro a ha b hb
      rw [k a ha, k b hb]
    · intro h a ha
      exact h a (List.mem_cons_of_mem _ ha) x List.mem_cons_self

theorem constant_perm (l l' : List ℚ) (hp : l.Perm l') : constant l = constant l' := by
  rw [Bool.eq_iff_iff, constant_iff, constant_iff]
  simp only [hp.mem_iff]

theorem fitCenter_perm (fit : List ℚ → Except PyErr ℚ) (hf : ∀ l l', l.Perm l' → fit l = fit l') (l l' : List ℚ) (hp : l.Perm l') :
    fitCenter fit l = fitCenter fit l' := by
  cases l with
  | nil => obtain rfl := hp.nil_eq; rfl
  | cons a l =>
    cases l' with
    | nil => cases hp.eq_nil
    | cons b l' =>
      simp only [fitCenter]
      rw [← constant_perm _ _ hp, hf _ _ hp]
      by_cases hc : constant (a :: l) = true
      · rw [if_pos hc, if_pos hc]
        rw [(constant_iff (a :: l)).1 hc a List.mem_cons_self b (hp.mem_iff.2 List.mem_cons_self)]
      · rw [if_neg hc, if_neg hc]

theorem runnerLevels_perm (dev : List ℚ → ℚ) (hdev : ∀ l l', l.Perm l' → dev l = dev l') (fit : List ℚ → Except PyErr ℚ)
    (hf : ∀ l l', l.Perm l' → fit l = fit l') (nMax : Option ℚ) (l l' : List ℚ) (hp : l.Perm l')
    (hn : ∀ n, nMax = some n → (l.length : ℚ) / n ≤ 10) (r : Level ℚ × Level ℚ) (h : runnerLevels dev fit nMax l = .ok r) :
    runnerLevels dev fit nMax l' = .ok r := by
  unfold runnerLevels at h ⊢
  cases h1 : reduced nMax l with
  | error e => rw [h1] at h; cases h
  | ok d =>
    obtain ⟨d', e, hd⟩ := reduced_perm nMax l l' hp hn d h1
    rw [h1] at h
    rw [e, ← h]
    simp only [bind, Except.bind]
    rw [minimum_perm d d' hd, maximum_perm d d' hd]
    cases minimum d' with
    | error e => rfl
    | ok lo =>
      cases maximum d' with
      | error e => rfl
      | ok hi =>
        simp only
        rw [fitCenter_perm fit hf _ _ (hd.filter fun x => decide (x < (lo + hi) / 2)), fitCenter_perm fit hf _ _ (hd.filter fun x => decide ((lo + hi) / 2 < x))]
        have k : ∀ q : ℚ → Bool, deviation dev (d.filter q) = deviation dev (d'.filter q) := by
          intro q
          unfold deviation
          rw [constant_perm _ _ (hd.filter q), hdev _ _ (hd.filter q)]
        rw [k, k]

/-- **C78**, with automatic levels from all samples or a histogram of them: at most ten times the configured number of points.  The standard deviation
and the fit of the mixture (sklearn) are parameters, taken not to depend on the order of the samples.  Missing as in `C78_order_partial`, and more
samples, `C78_decimated_fails`. -/
theorem C78_auto_partial (dev : List ℚ → ℚ) (hdev : ∀ l l', l.Perm l' → dev l = dev l') (fit : List ℚ → Except PyErr ℚ)
    (hf : ∀ l l', l.Perm l' → fit l = fit l') (nMax : Option ℚ) (s : Settings) (ug uc : Bool)
    (cdr : List (Option ℚ) → Except PyErr (List (Option ℚ))) (mask : Option MaskFn) (hm : OrderFree mask) (items items' : List Item)
    (hp : items.Perm items') (hn : ∀ n, nMax = some n → ((items.map fun i => i.wave.2.length).sum : ℚ) / n ≤ 10) (δ : ℚ) (hδ : 0 < δ)
    (hd : ∀ i ∈ items, tDelta [i.wave] = .ok δ) (a : Analysis)
    (h : calculateAuto dev fit nMax s (givenOf ug items) (clocksOf uc items) cdr mask (items.map (·.wave)) = .ok a) (hT : 0 < a.tSym) :
    ∃ a', calculateAuto dev fit nMax s (givenOf ug items') (clocksOf uc items') cdr mask (items'.map (·.wave)) = .ok a' ∧
      SameResults items items' a a' := by
  unfold calculateAuto at h ⊢
  cases h1 : measured dev fit nMax s.level (items.map (·.wave)) with
  | error e => rw [h1] at h; cases h
  | ok m =>
    have e : measured dev fit nMax s.level (items'.map (·.wave)) = .ok m := by
      unfold measured at h1 ⊢
      split at h1
      · rename_i hc
        rw [if_pos hc]
        refine runnerLevels_perm dev hdev fit hf nMax _ _ ((hp.map _).flatMap_right _) ?_ m h1
        intro n hn'
        have := hn n hn'
        rw [List.length_flatMap, List.map_map]
        rw [Nat.cast_list_sum, List.map_map]
        exact this
      · rename_i hc
        rw [if_neg hc]
        exact h1
    rw [h1] at h
    rw [e]
    exact C78_order_partial s m ug uc cdr mask hm items items' hp δ hδ hd a h hT

/-- The symbols of all waveforms. -/
def symbols (r : Except PyErr Analysis) : List (List (ℤ × ℚ)) :=
  match r with
  | .ok a => a.wfs.map fun w => w.centers.map fun c => (c.i, c.t)
  | .error _ => []

/-- A waveform with half of the sampling interval of `exWave`: the same record, eight samples per symbol. -/
def exFine : Wave := ((List.range 80).map fun i : ℕ => (i : ℚ) / 2, (List.range 80).map fun i : ℕ => if i / 8 % 2 = 1 then 1 else 0)

/-- **C78 fails** for waveforms with different sampling intervals: that of the first is used for all of them.  In the other order the symbols are
taken from other samples, and a different number of them. -/
theorem C78_interval_fails : ∃ (s : Settings) (x y : Item),
    tDelta [x.wave] = .ok 1 ∧ tDelta [y.wave] = .ok (1 / 2) ∧ x.given = y.given ∧
    symbols (calculateAll s (⟨0, 0⟩, ⟨0, 0⟩) (givenOf true [x, y]) (clocksOf false [x, y]) (fun _ => .ok []) none ([x, y].map (·.wave))) =
      [[(8, 0), (12, 0), (16, 0), (20, 0), (24, 0)], [(8, 0), (12, 0), (16, 0), (20, 0), (24, 0)]] ∧
    symbols (calculateAll s (⟨0, 0⟩, ⟨0, 0⟩) (givenOf true [y, x]) (clocksOf false [y, x]) (fun _ => .ok []) none ([y, x].map (·.wave))) =
      [[(16, 0), (24, 0), (32, 0), (40, 0), (48, 0)], [(16, 0), (24, 0)]] := by
  refine ⟨{ exSettings (4 / 5) with skip := true }, ⟨exWave, [some 8, some 12, some 16, some 20, some 24], exWave⟩,
    ⟨exFine, [some 8, some 12, some 16, some 20, some 24], exFine⟩, by decide +kernel, by decide +kernel, rfl, ?_, ?_⟩
  all_goals decide +kernel

/-- **C78 fails** for automatic levels from more than ten times the configured number of points: only every k-th sample of all waveforms in a row is
used, which samples these are depends on the order.  Here one order finds both levels and the other raises ValueError. -/
theorem C78_decimated_fails : ∃ (c : LevelConfig ℚ) (x y : Wave) (n : ℚ), x.1.length = x.2.length ∧ y.1.length = y.2.length ∧
    raised (measured (fun _ => 0) (fun _ => .ok 0) (some n) c [x, y]) = none ∧
    raised (measured (fun _ => 0) (fun _ => .ok 0) (some n) c [y, x]) = some .valueError :=
  ⟨⟨none, none, none, none, 1 / 10⟩, ((List.range 21).map fun i : ℕ => (i : ℚ), List.replicate 21 0),
    ((List.range 20).map fun i : ℕ => (i : ℚ), (List.range 20).map fun i : ℕ => if i % 5 = 4 then 1 else 0), 4, by decide +kernel,
    by decide +kernel, by decide +kernel, by decide +kernel⟩

/-- `exWave`, later and inverted. -/
def exOther : Wave := ((List.range 40).map fun i : ℕ => (i : ℚ) + 2, (List.range 40).map fun i : ℕ => if i / 4 % 2 = 1 then 1 / 10 else 1)

/-- The hypotheses of C78 are met: two different waveforms, with a mask. -/
example : ∃ a', calculateAll (exSettings (4 / 5)) (⟨0, 0⟩, ⟨0, 0⟩) (some [[some 12, some 16, some 20], [some 6, some 10, some 14]]) none
    (fun _ => .ok []) (some (sampleHexMask exHexZero)) [exOther, exWave] = .ok a' ∧ 0 < a'.tSym := by
  have hx : ∃ a, calculateAll (exSettings (4 / 5)) (⟨0, 0⟩, ⟨0, 0⟩) (some [[some 6, some 10, some 14], [some 12, some 16, some 20]]) none
      (fun _ => .ok []) (some (sampleHexMask exHexZero)) [exWave, exOther] = .ok a ∧ 0 < a.tSym ∧ _ :=
    C69_completes_partial (exSettings (4 / 5)) (⟨0, 0⟩, ⟨0, 0⟩) (some [[some 6, some 10, some 14], [some 12, some 16, some 20]]) none
      (fun _ => .ok []) (some (sampleHexMask exHexZero)) exWave [exOther] [[6, 10, 14], [12, 16, 20]] 0 39 (by decide +kernel) (by decide +kernel)
      (by norm_num) (by decide +kernel) (by decide +kernel) (by decide +kernel) ⟨[6, 10, 14], by simp, by decide⟩ (by decide)
      (by unfold Drawable; decide +kernel) (by unfold Drawable; decide +kernel)
      (by
        intro T δ hT hδ
        refine maskOk_hexagon exHexZero exHexConv _ T δ 0 1 _ hT hδ rfl rfl (by norm_num) ?_ (by decide +kernel) (by decide +kernel)
          (by decide +kernel) (by decide +kernel) (by decide +kernel)
        simp [Mask.Hexagon.convert, exHexZero, exHexConv, Mask.convertUnit, Mask.plain, Mask.Hexagon.new, bind, Except.bind, pure, Except.pure])
  obtain ⟨a, h1, h2, -⟩ := hx
  obtain ⟨a', e1, e2⟩ := C78_order_partial (exSettings (4 / 5)) (⟨0, 0⟩, ⟨0, 0⟩) true false (fun _ => .ok []) _ (C78_hexagon exHexZero)
    [⟨exWave, [some 6, some 10, some 14], exWave⟩, ⟨exOther, [some 12, some 16, some 20], exOther⟩]
    [⟨exOther, [some 12, some 16, some 20], exOther⟩, ⟨exWave, [some 6, some 10, some 14], exWave⟩] (List.Perm.swap _ _ []) 1 (by norm_num)
    (by
      intro i hi
      simp only [List.mem_cons, List.not_mem_nil, or_false] at hi
      rcases hi with rfl | rfl <;> decide +kernel) a h1 h2
  exact ⟨a', e1, e2.tSym ▸ h2⟩

end Verif.Props.Order
