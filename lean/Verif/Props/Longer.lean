import Verif.Props.Together

/-!
C94: a longer record adds symbols and changes none of those that were there.
-/

namespace Verif.Props.Longer

open Verif Verif.Props Verif.Props.Pipeline Verif.Props.EyeMask Verif.Lines Verif.Eye Verif.Pam2 Verif.Pipeline Verif.Mask Verif.Props.EyeImage
  Verif.Props.EyeWindow Verif.Props.Together

/-! ### Specification -/

/-- The record `w'` begins with the record `w`. -/
def LongerWave (w w' : Wave) : Prop := w.1 ≠ [] ∧ w.1 <+: w'.1 ∧ w.2 <+: w'.2

/-- The symbols of `w'` begin with those of `w`. -/
def LongerWf (w w' : Wf) : Prop := w.y <+: w'.y ∧ w.centers <+: w'.centers

/-- Vertical measurements that begin with others. -/
structure LongerV (v v' : VOut) : Prop where
  y0 : v.y0 <+: v'.y0
  y1 : v.y1 <+: v'.y1
  cross : v.cross <+: v'.cross
  y0Cross : v.y0Cross <+: v'.y0Cross
  y1Cross : v.y1Cross <+: v'.y1Cross
  avg : v.avg <+: v'.avg
  trans : ∀ a b c, v.trans a b c ≤ v'.trans a b c
  edgeDir : v.edgeDir <+: v'.edgeDir

/-- A mask that is hit wherever it was hit before. -/
structure LongerMask (r r' : MaskAll) : Prop where
  offenders : List.Forall₂ (· <+: ·) r.offenders r'.offenders
  hits : r.hits.Sublist r'.hits
  margin : r'.margin ≤ r.margin
  count : r.count ≤ r'.count

/-- A mask for which that is so. -/
def Growing (T δ : ℚ) (mask : Option MaskFn) : Prop := ∀ f, mask = some f → ∀ z u ws ws' r r', AllInside T δ ws → List.Forall₂ LongerWf ws ws' →
  f δ T z u ws = .ok r → f δ T z u ws' = .ok r' → LongerMask r r'

/-- An image with the same levels, in which nothing is missing. -/
structure LongerPicture (res : ℕ) (p p' : Picture) : Prop where
  levels : p'.levels = p.levels
  counts : ∀ a b : ℤ, 0 ≤ a → a < res → 0 ≤ b → b < res → p.counts.cell a b ≤ p'.counts.cell a b
  mask : (p.mask = none ∧ p'.mask = none) ∨ ∃ m m', p.mask = some m ∧ p'.mask = some m' ∧ LongerMask m m'

/-- The results of a longer record. -/
structure Extends (res : ℕ) (a a' : Analysis) : Prop where
  symbols : List.Forall₂ LongerWf a.wfs a'.wfs
  vertical : (a.v = none ∧ a'.v = none) ∨ ∃ v v', a.v = some v ∧ a'.v = some v' ∧ List.Forall₂ LongerV v v'
  picture : (a.picture = none ∧ a'.picture = none) ∨ ∃ p p', a.picture = some p ∧ a'.picture = some p' ∧ LongerPicture res p p'

/-! ### Sampling -/

theorem index_mono (δ tZero : ℚ) (hδ : 0 < δ) (b b' : ℚ) (h : b ≤ b') :
    pyInt ((b - tZero - pyMod b δ) / δ + 1 / 2) ≤ pyInt ((b' - tZero - pyMod b' δ) / δ + 1 / 2) := by
  have hm : (b - tZero - pyMod b δ) / δ + 1 / 2 ≤ (b' - tZero - pyMod b' δ) / δ + 1 / 2 := by
    have hf : (⌊b / δ⌋ : ℚ) ≤ ⌊b' / δ⌋ := by exact_mod_cast Int.floor_le_floor (div_le_div_of_nonneg_right h hδ.le)
    have : b - tZero - pyMod b δ ≤ b' - tZero - pyMod b' δ := by
      unfold pyMod
      nlinarith
    linarith [div_le_div_of_nonneg_right this hδ.le]
  generalize (b - tZero - pyMod b δ) / δ + 1 / 2 = x at hm
  generalize (b' - tZero - pyMod b' δ) / δ + 1 / 2 = x' at hm
  unfold pyInt
  split_ifs with h1 h2 h2
  · exact Int.floor_le_floor hm
  · linarith
  · have : ⌈x⌉ ≤ 0 := Int.ceil_le.2 (by push_cast; linarith)
    have : 0 ≤ ⌊x'⌋ := Int.floor_nonneg.2 h2
    omega
  · exact Int.ceil_le_ceil hm

/-- The symbols of a longer record, for clock edges in order of time. -/
theorem sampleEdges_prefix (T δ tZero : ℚ) (hδ : 0 < δ) (n n' : ℕ) (hn : n ≤ n') (e : List ℚ) (he : e.Pairwise (· ≤ ·)) :
    sampleEdges T δ tZero n e <+: sampleEdges T δ tZero n' e := by
  induction e with
  | nil => exact List.prefix_refl _
  | cons b e ih =>
    obtain ⟨h1, h2⟩ := List.pairwise_cons.1 he
    unfold sampleEdges at ih ⊢
    rw [List.filterMap_cons, List.filterMap_cons]
    have hb : ∀ m : ℕ, sampleEdge T δ tZero m b = if pyInt ((b - tZero - pyMod b δ) / δ + 1 / 2) - iWidth T δ < 0 ∨
        pyInt ((b - tZero - pyMod b δ) / δ + 1 / 2) + iWidth T δ ≥ m then none else some ⟨_, -pyMod b δ⟩ := fun _ => rfl
    by_cases hlo : pyInt ((b - tZero - pyMod b δ) / δ + 1 / 2) - iWidth T δ < 0
    · rw [hb, hb, if_pos (.inl hlo), if_pos (.inl hlo)]
      exact ih h2
    · by_cases hhi : pyInt ((b - tZero - pyMod b δ) / δ + 1 / 2) + iWidth T δ ≥ n
      · have hnone : e.filterMap (sampleEdge T δ tZero n) = [] := by
          rw [List.filterMap_eq_nil_iff]
          intro b' hb'
          have := index_mono δ tZero hδ b b' (h1 b' hb')
          unfold sampleEdge
          simp only
          rw [if_pos (.inr (by omega))]
        rw [hb n, if_pos (.inr hhi)]
        simp only [hnone]
        exact List.nil_prefix
      · rw [hb n, hb n', if_neg (by tauto), if_neg (by omega)]
        simp only
        exact List.prefix_cons_inj _ |>.2 (ih h2)

theorem sampled_longer (T δ : ℚ) (hδ : 0 < δ) (w w' : Wave) (h : LongerWave w w') (e e' : List ℚ) (hp : e <+: e') (he : e.Pairwise (· ≤ ·)) (x x' : Wf)
    (h1 : sampled T δ w e = .ok x) (h2 : sampled T δ w' e' = .ok x') : LongerWf x x' := by
  obtain ⟨hne, ht, hy⟩ := h
  unfold sampled at h1 h2
  obtain ⟨a, l, hl⟩ := List.exists_cons_of_ne_nil hne
  obtain ⟨m, hm⟩ := ht
  rw [← hm, hl] at h2
  rw [hl] at h1
  obtain rfl := Except.ok.inj h1
  obtain rfl := Except.ok.inj h2
  refine ⟨hy, (sampleEdges_prefix T δ a hδ _ _ hy.length_le e he).trans ?_⟩
  obtain ⟨r, rfl⟩ := hp
  exact ⟨sampleEdges T δ a w'.2.length r, by unfold sampleEdges; rw [List.filterMap_append]⟩

theorem mapM_longer (T δ : ℚ) (hδ : 0 < δ) (wfs wfs' : List Wave) (h : List.Forall₂ LongerWave wfs wfs') (e e' : List (List ℚ))
    (hp : List.Forall₂ (· <+: ·) e e') (he : ∀ l ∈ e, l.Pairwise (· ≤ ·)) (ws ws' : List Wf)
    (h1 : (wfs.zip e).mapM (fun p => sampled T δ p.1 p.2) = .ok ws) (h2 : (wfs'.zip e').mapM (fun p => sampled T δ p.1 p.2) = .ok ws') :
    List.Forall₂ LongerWf ws ws' := by
  induction h generalizing e e' ws ws' with
  | nil =>
    obtain rfl := Except.ok.inj h1
    obtain rfl := Except.ok.inj h2
    exact .nil
  | @cons w w' wfs wfs' hw _ ih =>
    cases hp with
    | nil =>
      obtain rfl := Except.ok.inj h1
      obtain rfl := Except.ok.inj h2
      exact .nil
    | @cons a a' e e' ha hp =>
      rw [List.zip_cons_cons, List.mapM_cons] at h1 h2
      cases k1 : sampled T δ w a with
      | error x => simp only [k1, bind, Except.bind] at h1; cases h1
      | ok x =>
      cases k2 : sampled T δ w' a' with
      | error x => simp only [k2, bind, Except.bind] at h2; cases h2
      | ok x' =>
      cases k3 : (wfs.zip e).mapM fun p => sampled T δ p.1 p.2 with
      | error x => simp only [k1, k3, bind, Except.bind] at h1; cases h1
      | ok xs =>
      cases k4 : (wfs'.zip e').mapM fun p => sampled T δ p.1 p.2 with
      | error x => simp only [k2, k4, bind, Except.bind] at h2; cases h2
      | ok xs' =>
      simp only [k1, k3, bind, Except.bind, pure, Except.pure] at h1
      simp only [k2, k4, bind, Except.bind, pure, Except.pure] at h2
      obtain rfl := Except.ok.inj h1
      obtain rfl := Except.ok.inj h2
      exact .cons (sampled_longer T δ hδ w w' hw a a' ha (he a (List.mem_cons_self ..)) x x' k1 k2)
        (ih e e' hp (fun l hl => he l (List.mem_cons_of_mem _ hl)) xs xs' k3 k4)

/-! ### Windows -/

theorem pySlice_append {α : Type} (l r : List α) (a b : ℤ) (ha : 0 ≤ a) (hb : 0 ≤ b) (hl : b ≤ l.length) :
    pySlice (l ++ r) a b = pySlice l a b := by
  unfold pySlice
  simp only
  rw [if_neg (by omega), if_neg (by omega), if_neg (by omega), if_neg (by omega)]
  have e1 : min b.toNat (l ++ r).length = b.toNat := by simp; omega
  have e2 : min b.toNat l.length = b.toNat := by omega
  rw [e1, e2, List.take_append_of_le_length (by omega)]
  rcases le_total a.toNat l.length with h | h
  · have : min a.toNat (l ++ r).length = a.toNat := by simp; omega
    rw [this, min_eq_left h]
  · rw [List.drop_eq_nil_of_le, List.drop_eq_nil_of_le]
    · rw [List.length_take]; omega
    · rw [List.length_take, List.length_append]; omega

theorem window_append (y r : List ℚ) (T δ : ℚ) (hT : 0 < T) (hδ : 0 < δ) (c : Center) (hc : Inside T δ y.length c) :
    window (y ++ r) T δ c = window y T δ c := by
  unfold window
  obtain ⟨h1, h2⟩ := hc
  obtain ⟨w1, -, w2⟩ := iWidth_ge T δ hT hδ
  simp only
  rw [pySlice_append _ _ _ _ h1 (by omega) (by omega)]

theorem normalise_append (y r : List ℚ) (z u : ℚ) : normalise (y ++ r) z u = normalise y z u ++ normalise r z u := List.map_append

theorem window_longer (y y' : List ℚ) (h : y <+: y') (T δ z u : ℚ) (hT : 0 < T) (hδ : 0 < δ) (c : Center) (hc : Inside T δ y.length c) :
    window (normalise y' z u) T δ c = window (normalise y z u) T δ c := by
  obtain ⟨r, rfl⟩ := h
  rw [normalise_append]
  exact window_append _ _ T δ hT hδ c (by unfold normalise; rw [List.length_map]; exact hc)

theorem points_longer (y y' : List ℚ) (h : y <+: y') (T δ : ℚ) (hT : 0 < T) (hδ : 0 < δ) (c : Center) (hc : Inside T δ y.length c) :
    points y' T δ c = points y T δ c := by
  obtain ⟨r, rfl⟩ := h
  have hc' : Inside T δ (y ++ r).length c := ⟨hc.1, by have := hc.2; rw [List.length_append]; push_cast; omega⟩
  rw [Pam2Vertical.points_eq _ T δ hT hδ c hc, Pam2Vertical.points_eq _ T δ hT hδ c hc']
  unfold Pam2Vertical.around
  have hw := Pam2Vertical.halfWidth_eq T δ hT hδ
  obtain ⟨h1, h2⟩ := hc
  rw [hw] at h1 h2
  congr 1
  apply List.map_congr_left
  intro k hk
  have hk := List.mem_range.1 hk
  have : (y ++ r).getD (c.i.toNat - Pam2Vertical.halfWidth T δ + k) 0 = y.getD (c.i.toNat - Pam2Vertical.halfWidth T δ + k) 0 := by
    rw [List.getD_append _ _ _ _ (by omega)]
  simp only [this]

/-! ### Vertical measurements -/

theorem foldlM_congr {α β : Type} (f g : β → α → Except PyErr β) (l : List α) (h : ∀ a ∈ l, ∀ b, f b a = g b a) (b : β) :
    l.foldlM f b = l.foldlM g b := by
  induction l generalizing b with
  | nil => rfl
  | cons a l ih =>
    rw [List.foldlM_cons, List.foldlM_cons, h a (List.mem_cons_self ..)]
    congr 1
    funext b
    exact ih (fun x hx => h x (List.mem_cons_of_mem _ hx)) b

theorem longerV_refl (v : VOut) : LongerV v v :=
  ⟨List.prefix_refl _, List.prefix_refl _, List.prefix_refl _, List.prefix_refl _, List.prefix_refl _, List.prefix_refl _, fun _ _ _ => le_refl _,
    List.prefix_refl _⟩

theorem longerV_trans {a b c : VOut} (h : LongerV a b) (k : LongerV b c) : LongerV a c :=
  ⟨h.y0.trans k.y0, h.y1.trans k.y1, h.cross.trans k.cross, h.y0Cross.trans k.y0Cross, h.y1Cross.trans k.y1Cross, h.avg.trans k.avg,
    fun x y z => (h.trans x y z).trans (k.trans x y z), h.edgeDir.trans k.edgeDir⟩

theorem vStep_longer (dec : List ℚ → Bool) (s : Samples) (v : VOut) : LongerV v (vStep dec s v) := by
  unfold vStep
  simp only
  refine ⟨?_, ?_, ?_, ?_, ?_, List.prefix_append .., ?_, List.prefix_append ..⟩
  case refine_6 =>
    intro x y z
    change v.trans x y z ≤ bump v.trans (dec s.a) (dec s.b) (dec s.c) x y z
    unfold bump
    split_ifs <;> omega
  all_goals split_ifs <;> first | exact List.prefix_refl _ | exact List.prefix_append ..

theorem fold_longer (f : Center → Except PyErr (VOut → VOut)) (hf : ∀ c g, f c = .ok g → ∀ v, LongerV v (g v)) (l : List Center) (v v' : VOut)
    (h : l.foldlM (fun v c => f c >>= fun g => .ok (g v)) v = .ok v') : LongerV v v' := by
  induction l generalizing v with
  | nil => obtain rfl := Except.ok.inj h; exact longerV_refl v
  | cons c l ih =>
    rw [List.foldlM_cons] at h
    cases k : f c with
    | error e => simp only [k, bind, Except.bind] at h; cases h
    | ok g =>
      simp only [k, bind, Except.bind] at h
      exact longerV_trans (hf c g k v) (ih (g v) h)

theorem sampleVertical_longer (T δ half lw cw : ℚ) (hT : 0 < T) (hδ : 0 < δ) (w w' : Wf) (h : LongerWf w w')
    (hin : ∀ c ∈ w.centers, Inside T δ w.y.length c) (v v' : VOut) (h1 : sampleVertical w.y w.centers δ T half lw cw = .ok v)
    (h2 : sampleVertical w'.y w'.centers δ T half lw cw = .ok v') : LongerV v v' := by
  obtain ⟨hy, r, hc⟩ := h
  unfold sampleVertical at h1 h2
  rw [← hc, List.foldlM_append] at h2
  rw [foldlM_congr _ (fun v c => do
      let ps ← points w'.y T δ c
      return vStep (above half) (samples lw cw (abcWidth lw δ T) ps) v) w.centers (by
    intro c hcm v
    rw [points_longer w.y w'.y hy T δ hT hδ c (hin c hcm)])] at h1
  rw [h1] at h2
  refine fold_longer (fun c => (points w'.y T δ c).map fun ps v => vStep (above half) (samples lw cw (abcWidth lw δ T) ps) v) ?_ r v v' ?_
  · intro c g hg x
    cases k : points w'.y T δ c with
    | error e => rw [k] at hg; cases hg
    | ok ps =>
      rw [k] at hg
      obtain rfl := Except.ok.inj hg
      exact vStep_longer _ _ _
  · rw [← h2]
    refine foldlM_congr _ _ r ?_ v
    intro c _ x
    cases points w'.y T δ c <;> rfl

theorem vertical_longer (T δ half lw cw : ℚ) (hT : 0 < T) (hδ : 0 < δ) (ws ws' : List Wf) (h : List.Forall₂ LongerWf ws ws')
    (hin : AllInside T δ ws) (v v' : List VOut) (h1 : ws.mapM (fun w => sampleVertical w.y w.centers δ T half lw cw) = .ok v)
    (h2 : ws'.mapM (fun w => sampleVertical w.y w.centers δ T half lw cw) = .ok v') : List.Forall₂ LongerV v v' := by
  induction h generalizing v v' with
  | nil =>
    obtain rfl := Except.ok.inj h1
    obtain rfl := Except.ok.inj h2
    exact .nil
  | @cons w w' ws ws' hw _ ih =>
    rw [List.mapM_cons] at h1 h2
    cases k1 : sampleVertical w.y w.centers δ T half lw cw with
    | error x => simp only [k1, bind, Except.bind] at h1; cases h1
    | ok x =>
    cases k2 : sampleVertical w'.y w'.centers δ T half lw cw with
    | error x => simp only [k2, bind, Except.bind] at h2; cases h2
    | ok x' =>
    cases k3 : ws.mapM fun w => sampleVertical w.y w.centers δ T half lw cw with
    | error x => simp only [k1, k3, bind, Except.bind] at h1; cases h1
    | ok xs =>
    cases k4 : ws'.mapM fun w => sampleVertical w.y w.centers δ T half lw cw with
    | error x => simp only [k2, k4, bind, Except.bind] at h2; cases h2
    | ok xs' =>
    simp only [k1, k3, bind, Except.bind, pure, Except.pure] at h1
    simp only [k2, k4, bind, Except.bind, pure, Except.pure] at h2
    obtain rfl := Except.ok.inj h1
    obtain rfl := Except.ok.inj h2
    exact .cons (sampleVertical_longer T δ half lw cw hT hδ w w' hw (hin w (List.mem_cons_self ..)) x x' k1 k2)
      (ih (fun w hw => hin w (List.mem_cons_of_mem _ hw)) xs xs' k3 k4)

/-! ### Masks -/

theorem windows_longer (T δ z u : ℚ) (hT : 0 < T) (hδ : 0 < δ) (w w' : Wf) (h : LongerWf w w') (hin : ∀ c ∈ w.centers, Inside T δ w.y.length c) :
    w.centers.map (window (normalise w.y z u) T δ) <+: w'.centers.map (window (normalise w'.y z u) T δ) := by
  obtain ⟨hy, r, hc⟩ := h
  refine ⟨r.map (window (normalise w'.y z u) T δ), ?_⟩
  rw [← hc, List.map_append]
  congr 1
  apply List.map_congr_left
  intro c hcm
  exact (window_longer w.y w'.y hy T δ z u hT hδ c (hin c hcm)).symm

theorem advance_ge (w : List Pt) (l : List (List (List Pt))) (k m : ℕ) (h : advance w l k = .ok m) : k ≤ m := by
  induction l generalizing k with
  | nil => obtain rfl := Except.ok.inj h; exact le_refl _
  | cons p l ih =>
    unfold advance at h
    cases k1 : isHitting w p with
    | error e => rw [k1] at h; cases h
    | ok b =>
      rw [k1] at h
      cases b with
      | false => obtain rfl := Except.ok.inj h; exact le_refl _
      | true => have := ih (k + 1) h; omega

/-- A state of the loop over the symbols that comes after another one. -/
def After (s s' : MaskState) : Prop := s.iMargin ≤ s'.iMargin ∧ s.offenders <+: s'.offenders ∧ s.hits <+: s'.hits

theorem maskStep_after (paths : List (List (List Pt))) (zero : List (List Pt)) (iZero : ℕ) (s s' : MaskState) (iw : ℕ × List Pt)
    (h : maskStep paths zero iZero s iw = .ok s') : After s s' := by
  unfold maskStep at h
  cases k1 : advance iw.2 (paths.drop s.iMargin) s.iMargin with
  | error e => rw [k1] at h; cases h
  | ok m =>
    have hm := advance_ge _ _ _ _ k1
    simp only [k1, bind, Except.bind] at h
    split at h
    · obtain rfl := Except.ok.inj h
      exact ⟨hm, List.prefix_refl _, List.prefix_refl _⟩
    · cases k2 : hits iw.2 zero with
      | error e => rw [k2] at h; cases h
      | ok x =>
        rw [k2] at h
        simp only at h
        split at h
        · obtain rfl := Except.ok.inj h
          exact ⟨hm, List.prefix_refl _, List.prefix_refl _⟩
        · obtain rfl := Except.ok.inj h
          exact ⟨hm, List.prefix_append .., List.prefix_append ..⟩

theorem steps_after (paths : List (List (List Pt))) (zero : List (List Pt)) (iZero : ℕ) (l : List (ℕ × List Pt)) (s s' : MaskState)
    (h : l.foldlM (maskStep paths zero iZero) s = .ok s') : After s s' := by
  induction l generalizing s with
  | nil => obtain rfl := Except.ok.inj h; exact ⟨le_refl _, List.prefix_refl _, List.prefix_refl _⟩
  | cons a l ih =>
    rw [List.foldlM_cons] at h
    cases k : maskStep paths zero iZero s a with
    | error e => simp only [k, bind, Except.bind] at h; cases h
    | ok t =>
      simp only [k, bind, Except.bind] at h
      obtain ⟨a1, a2, a3⟩ := maskStep_after _ _ _ _ _ _ k
      obtain ⟨b1, b2, b3⟩ := ih t h
      exact ⟨a1.trans b1, a2.trans b2, a3.trans b3⟩

theorem marginAt_anti (k k' : ℕ) (h : k ≤ k') (m m' : ℚ) (h1 : marginAt margins k = .ok m) (h2 : marginAt margins k' = .ok m') : m' ≤ m := by
  have key : ∀ k m, marginAt margins k = .ok m → m = (1000 - ((min 2000 k : ℕ) : ℚ)) / 1000 := by
    intro k m h
    have hl : min (margins.length - 1) k < margins.length := by rw [margins_length]; omega
    have e : marginAt margins k = pyGet margins (min (margins.length - 1) k) := by
      unfold marginAt
      split
      · rename_i he
        rw [he] at hl
        simp at hl
      · rfl
    rw [e, pyGet_ok hl] at h
    obtain rfl := Except.ok.inj h
    rw [List.getD_eq_getElem _ _ hl, margins_get]
    simp only [margins_length]
  rw [key k m h1, key k' m' h2]
  have : ((min 2000 k : ℕ) : ℚ) ≤ (min 2000 k' : ℕ) := by exact_mod_cast (by omega)
  linarith [div_le_div_of_nonneg_right (sub_le_sub_left this 1000) (by norm_num : (0 : ℚ) ≤ 1000)]

theorem sampleMask_longer (T δ z u : ℚ) (hT : 0 < T) (hδ : 0 < δ) (paths : List (List (List Pt))) (w w' : Wf) (h : LongerWf w w')
    (hin : ∀ c ∈ w.centers, Inside T δ w.y.length c) (o o' : MaskOut) (h1 : sampleMask w.y w.centers δ T z u paths margins = .ok o)
    (h2 : sampleMask w'.y w'.centers δ T z u paths margins = .ok o') :
    o.offenders <+: o'.offenders ∧ o.hits <+: o'.hits ∧ o'.margin ≤ o.margin := by
  obtain ⟨r, hr⟩ := windows_longer T δ z u hT hδ w w' h hin
  unfold sampleMask at h1 h2
  rw [← hr] at h2
  simp only [List.length_append, List.range_add] at h2
  rw [List.zip_append (by simp), List.foldlM_append] at h2
  simp only [bind, Except.bind, pure, Except.pure] at h1 h2
  split at h1
  · cases h1
  rename_i s hs
  rw [hs] at h2
  simp only at h2
  split at h2
  · cases h2
  rename_i s' hs'
  obtain ⟨a1, a2, a3⟩ := steps_after _ _ _ _ _ _ hs'
  split at h1
  · cases h1
  rename_i m hm
  split at h2
  · cases h2
  rename_i m' hm'
  obtain rfl := Except.ok.inj h1
  obtain rfl := Except.ok.inj h2
  exact ⟨a2, a3, marginAt_anti _ _ a1 _ _ hm hm'⟩

theorem maskLoop_longer (T δ z u : ℚ) (hT : 0 < T) (hδ : 0 < δ) (paths : List (List (List Pt))) (ws ws' : List Wf) (h : List.Forall₂ LongerWf ws ws')
    (hin : AllInside T δ ws) (a a' r r' : MaskAll) (ha : LongerMask a a') (h1 : maskLoop δ T z u paths ws a = .ok r)
    (h2 : maskLoop δ T z u paths ws' a' = .ok r') : LongerMask r r' := by
  induction h generalizing a a' with
  | nil =>
    obtain rfl := Except.ok.inj h1
    obtain rfl := Except.ok.inj h2
    exact ha
  | @cons w w' ws ws' hw _ ih =>
    unfold maskLoop at h1 h2
    cases k1 : sampleMask w.y w.centers δ T z u paths margins with
    | error x => simp only [k1, bind, Except.bind] at h1; cases h1
    | ok o =>
    cases k2 : sampleMask w'.y w'.centers δ T z u paths margins with
    | error x => simp only [k2, bind, Except.bind] at h2; cases h2
    | ok o' =>
    simp only [k1, bind, Except.bind] at h1
    simp only [k2, bind, Except.bind] at h2
    obtain ⟨b1, b2, b3⟩ := sampleMask_longer T δ z u hT hδ paths w w' hw (hin w (List.mem_cons_self ..)) o o' k1 k2
    refine ih (fun w hw => hin w (List.mem_cons_of_mem _ hw)) _ _ ⟨?_, ?_, ?_, ?_⟩ h1 h2
    · exact List.rel_append ha.offenders (.cons b1 .nil)
    · exact ha.hits.append b2.sublist
    · exact min_le_min ha.margin b3
    · exact Nat.add_le_add ha.count b1.length_le

/-- **C94.** A hexagon mask that is hit stays hit: a longer record keeps the offenders and the hits, and the margin can only get smaller. -/
theorem C94_hexagon (m : Hexagon) (T δ : ℚ) (hT : 0 < T) (hδ : 0 < δ) : Growing T δ (some (sampleHexMask m)) := by
  intro f hf z u ws ws' r r' hin h h1 h2
  obtain rfl := Option.some.inj hf
  unfold sampleHexMask at h1 h2
  cases hc : m.convert u T with
  | error e => simp only [hc, bind, Except.bind] at h1; cases h1
  | ok c =>
    simp only [hc, bind, Except.bind] at h1 h2
    cases hp : hexMaskPaths c with
    | error e => simp only [hp] at h1; cases h1
    | ok paths =>
      simp only [hp] at h1 h2
      exact maskLoop_longer T δ z u hT hδ paths ws ws' h hin _ _ r r' ⟨.nil, List.Sublist.refl _, le_refl _, le_refl _⟩ h1 h2

/-- **C94.** The same for a decagon mask. -/
theorem C94_decagon (m : Decagon) (T δ : ℚ) (hT : 0 < T) (hδ : 0 < δ) : Growing T δ (some (sampleDecMask m)) := by
  intro f hf z u ws ws' r r' hin h h1 h2
  obtain rfl := Option.some.inj hf
  unfold sampleDecMask at h1 h2
  cases hc : m.convert u T with
  | error e => simp only [hc, bind, Except.bind] at h1; cases h1
  | ok c =>
    simp only [hc, bind, Except.bind] at h1 h2
    cases hp : decMaskPaths c with
    | error e => simp only [hp] at h1; cases h1
    | ok paths =>
      simp only [hp] at h1 h2
      exact maskLoop_longer T δ z u hT hδ paths ws ws' h hin _ _ r r' ⟨.nil, List.Sublist.refl _, le_refl _, le_refl _⟩ h1 h2

/-! ### Steps 4 and 5 -/

theorem allInside_windows (T δ z u : ℚ) (hT : 0 < T) (hδ : 0 < δ) (ws ws' : List Wf) (h : List.Forall₂ LongerWf ws ws') (hin : AllInside T δ ws) :
    (ws.flatMap (wfWindows T δ z u)).Sublist (ws'.flatMap (wfWindows T δ z u)) := by
  induction h with
  | nil => exact List.Sublist.refl _
  | @cons w w' ws ws' hw _ ih =>
    rw [List.flatMap_cons, List.flatMap_cons]
    exact (windows_longer T δ z u hT hδ w w' hw (hin w (List.mem_cons_self ..))).sublist.append (ih fun w hw => hin w (List.mem_cons_of_mem _ hw))

section
variable (s : Settings) (T δ : ℚ) (hT : 0 < T) (hδ : 0 < δ)
include hT hδ

theorem counts_longer (ws ws' : List Wf) (h : List.Forall₂ LongerWf ws ws') (hin : AllInside T δ ws) (hin' : AllInside T δ ws') (z u : ℚ) (hu : u ≠ 0)
    (g g' : Grid) (res : ℕ) (pc : Bool) (h1 : stackAll ws δ T z u res pc = .ok g) (h2 : stackAll ws' δ T z u res pc = .ok g') :
    ∀ a b : ℤ, 0 ≤ a → a < res → 0 ≤ b → b < res → g.cell a b ≤ g'.cell a b := by
  obtain ⟨g1, e1, -, -, k1⟩ := C59_counts ws T δ z u hT hδ hu res pc hin
  obtain ⟨g2, e2, -, -, k2⟩ := C59_counts ws' T δ z u hT hδ hu res pc hin'
  obtain rfl : g1 = g := Except.ok.inj (e1.symm.trans h1)
  obtain rfl : g2 = g' := Except.ok.inj (e2.symm.trans h2)
  intro a b a1 a2 b1 b2
  rw [k1 a b a1 a2 b1 b2, k2 a b a1 a2 b1 b2]
  exact ((allInside_windows T δ z u hT hδ ws ws' h hin).flatMap _).count_le _

theorem picture_longer (ws ws' : List Wf) (h : List.Forall₂ LongerWf ws ws') (hin : AllInside T δ ws) (hin' : AllInside T δ ws') (l : Levels ℚ)
    (hu : l.ua ≠ 0) (x x' : List HOut) (m m' : Option MaskAll) (b b' : List (ℚ × ℚ)) (p p' : Picture)
    (e1 : picture s T δ ws l x m b = .ok p) (e2 : picture s T δ ws' l x' m' b' = .ok p')
    (hm : (m = none ∧ m' = none) ∨ ∃ r r', m = some r ∧ m' = some r' ∧ LongerMask r r') : LongerPicture s.resolution p p' := by
  unfold picture at e1 e2
  cases k1 : stackAll ws δ T l.zero l.ua s.resolution s.pointCloud with
  | error e => rw [k1] at e1; cases e1
  | ok g =>
    cases k2 : stackAll ws' δ T l.zero l.ua s.resolution s.pointCloud with
    | error e => rw [k2] at e2; cases e2
    | ok g' =>
      cases kd : drawGrid s with
      | error e => rw [k1, kd] at e1; cases e1
      | ok y =>
        rw [k1, kd] at e1
        rw [k2, kd] at e2
        obtain rfl := Except.ok.inj e1
        obtain rfl := Except.ok.inj e2
        exact ⟨rfl, counts_longer T δ hT hδ ws ws' h hin hin' l.zero l.ua hu g g' _ _ k1 k2, hm⟩

theorem finish_longer (mask : Option MaskFn) (hm : Growing T δ mask) (ws ws' : List Wf) (h : List.Forall₂ LongerWf ws ws') (hin : AllInside T δ ws)
    (hin' : AllInside T δ ws') (v v' : List VOut) (l : Levels ℚ) (p p' : Option Picture) (f1 : finish s mask T δ ws v (some l) = .ok p)
    (f2 : finish s mask T δ ws' v' (some l) = .ok p') :
    (p = none ∧ p' = none) ∨ ∃ q q', p = some q ∧ p' = some q' ∧ LongerPicture s.resolution q q' := by
  unfold finish at f1 f2
  rw [Option.filter_some] at f1 f2
  by_cases hu : l.ua = 0
  · rw [if_neg (by simpa using hu)] at f1 f2
    simp only at f1 f2
    split at f1
    · cases f1
    · rename_i hms
      rw [if_neg hms] at f2
      unfold noPicture at f1 f2
      cases kd : drawGrid s with
      | error e => rw [kd] at f1; cases f1
      | ok x =>
        rw [kd] at f1 f2
        obtain rfl := Except.ok.inj f1
        obtain rfl := Except.ok.inj f2
        exact .inl ⟨rfl, rfl⟩
  · rw [if_pos (by simpa using hu)] at f1 f2
    simp only [bind, Except.bind, pure, Except.pure] at f1 f2
    split at f1
    · cases f1
    rename_i x hx
    split at f2
    · cases f2
    rename_i x' hx'
    cases km : runMask mask T δ ws l with
    | error e => rw [km] at f1; cases f1
    | ok m =>
    cases km' : runMask mask T δ ws' l with
    | error e => rw [km'] at f2; cases f2
    | ok m' =>
    rw [km] at f1
    rw [km'] at f2
    simp only at f1 f2
    have hmm : (m = none ∧ m' = none) ∨ ∃ r r', m = some r ∧ m' = some r' ∧ LongerMask r r' := by
      cases mask with
      | none => exact .inl ⟨(Except.ok.inj km).symm, (Except.ok.inj km').symm⟩
      | some f =>
        unfold runMask at km km'
        simp only [bind, Except.bind] at km km'
        cases kf : f δ T l.zero l.ua ws with
        | error e => rw [kf] at km; cases km
        | ok r =>
        cases kf' : f δ T l.zero l.ua ws' with
        | error e => rw [kf'] at km'; cases km'
        | ok r' =>
        rw [kf] at km
        rw [kf'] at km'
        exact .inr ⟨r, r', (Except.ok.inj km).symm, (Except.ok.inj km').symm, hm f rfl l.zero l.ua ws ws' r r' hin h kf kf'⟩
    cases kb : bathtubCurve ws δ T l.zero l.ua (1 / 2) with
    | error e => rw [kb] at f1; cases f1
    | ok b =>
    cases kb' : bathtubCurve ws' δ T l.zero l.ua (1 / 2) with
    | error e => rw [kb'] at f2; cases f2
    | ok b' =>
    rw [kb] at f1
    rw [kb'] at f2
    simp only at f1 f2
    cases kp : picture s T δ ws l x m b with
    | error e => rw [kp] at f1; cases f1
    | ok q =>
    cases kp' : picture s T δ ws' l x' m' b' with
    | error e => rw [kp'] at f2; cases f2
    | ok q' =>
    rw [kp] at f1
    rw [kp'] at f2
    exact .inr ⟨q, q', (Except.ok.inj f1).symm, (Except.ok.inj f2).symm,
      picture_longer s T δ hT hδ ws ws' h hin hin' l hu x x' m m' b b' q q' kp kp' hmm⟩

theorem measure_longer (mask : Option MaskFn) (hm : Growing T δ mask) (ws ws' : List Wf) (h : List.Forall₂ LongerWf ws ws') (hin : AllInside T δ ws)
    (hin' : AllInside T δ ws') (m : Level ℚ × Level ℚ) (hy : s.skip = true ∨ ∃ y0 y1, s.level.y0 = some y0 ∧ s.level.y1 = some y1) (a a' : Analysis)
    (e1 : Pipeline.measure s mask T δ ws (levels s.level m) = .ok a) (e2 : Pipeline.measure s mask T δ ws' (levels s.level m) = .ok a') :
    Extends s.resolution a a' := by
  unfold Pipeline.measure at e1 e2
  by_cases hs : s.skip = true
  · rw [if_pos hs] at e1 e2
    unfold skipPicture at e1 e2
    by_cases hu : (levels s.level m).ua = 0
    · rw [if_pos hu] at e1 e2
      unfold noPicture at e1 e2
      cases kd : drawGrid s with
      | error e => rw [kd] at e1; cases e1
      | ok x =>
        rw [kd] at e1 e2
        obtain rfl := Except.ok.inj e1
        obtain rfl := Except.ok.inj e2
        exact ⟨h, .inl ⟨rfl, rfl⟩, .inl ⟨rfl, rfl⟩⟩
    · rw [if_neg hu] at e1 e2
      cases k1 : picture s T δ ws (levels s.level m) [] none [] with
      | error e => rw [k1] at e1; cases e1
      | ok p =>
        cases k2 : picture s T δ ws' (levels s.level m) [] none [] with
        | error e => rw [k2] at e2; cases e2
        | ok p' =>
          rw [k1] at e1
          rw [k2] at e2
          have := picture_longer s T δ hT hδ ws ws' h hin hin' _ hu [] [] none none [] [] p p' k1 k2 (.inl ⟨rfl, rfl⟩)
          obtain rfl := Except.ok.inj e1
          obtain rfl := Except.ok.inj e2
          exact ⟨h, .inl ⟨rfl, rfl⟩, .inr ⟨p, p', rfl, rfl, this⟩⟩
  · obtain ⟨y0, y1, hy0, hy1⟩ := hy.resolve_left hs
    rw [if_neg hs] at e1 e2
    have hlev : ∀ x y : Option ℚ, newLevels s.level x y (levels s.level m) = some (updateLevels s.level 0 0 (levels s.level m)) := by
      intro x y
      unfold newLevels
      rw [hy0, hy1]
    simp only [bind, Except.bind, pure, Except.pure, hlev] at e1 e2
    split at e1
    · cases e1
    rename_i v hv
    split at e2
    · cases e2
    rename_i v' hv'
    split at e1
    · cases e1
    rename_i p hp
    split at e2
    · cases e2
    rename_i p' hp'
    obtain rfl := Except.ok.inj e1
    obtain rfl := Except.ok.inj e2
    exact ⟨h, .inr ⟨v, v', rfl, rfl, vertical_longer T δ _ _ _ hT hδ ws ws' h hin v v' hv hv'⟩,
      finish_longer s T δ hT hδ mask hm ws ws' h hin hin' v v' _ p p' hp hp'⟩

end

/-! ### C94 -/

theorem steps (s : Settings) (m : Level ℚ × Level ℚ) (cdr : List (Option ℚ) → Except PyErr (List (Option ℚ))) (mask : Option MaskFn) (δ : ℚ)
    (e : List (List ℚ)) (w : List Wave) (a : Analysis) (hd : tDelta w = .ok δ) (h : calculateAll s m (asGiven e) none cdr mask w = .ok a) :
    ∃ ws, symbolPeriod e = .ok (some a.tSym) ∧ (w.zip e).mapM (fun p => sampled a.tSym δ p.1 p.2) = .ok ws ∧
      Pipeline.measure s mask a.tSym δ ws (levels s.level m) = .ok a := by
  unfold calculateAll asGiven clockEdges at h
  simp only [hd, bind, Except.bind, Together.finite_some] at h
  cases hp : symbolPeriod e with
  | error x => rw [hp] at h; cases h
  | ok t =>
    cases t with
    | none => rw [hp] at h; cases h
    | some T =>
      rw [hp] at h
      simp only at h
      split at h
      · cases h
      rename_i ws hws
      have hT : a.tSym = T := by
        unfold Pipeline.measure at h
        split at h
        · simp only [bind, Except.bind, pure, Except.pure] at h
          split at h
          · cases h
          · obtain rfl := Except.ok.inj h; rfl
        · simp only [bind, Except.bind, pure, Except.pure] at h
          split at h
          · cases h
          · split at h
            · cases h
            · obtain rfl := Except.ok.inj h; rfl
      rw [hT]
      exact ⟨ws, rfl, hws, h⟩

/-- **C94.** Let each waveform of `wfs'` begin with that of `wfs`, and its clock edges with the clock edges of that one (in order of time), with the same
sampling interval and the same symbol period, and manual levels (or without measures).  Then the symbols of the short record are the first symbols of the
long one, with the same samples and transitions; every pixel of the image is hit at least as often, the mask is hit wherever it was hit and its margin is
not larger. -/
theorem C94_longer (s : Settings) (m : Level ℚ × Level ℚ) (cdr : List (Option ℚ) → Except PyErr (List (Option ℚ))) (mask : Option MaskFn)
    (hy : s.skip = true ∨ ∃ y0 y1, s.level.y0 = some y0 ∧ s.level.y1 = some y1) (wfs wfs' : List Wave) (h : List.Forall₂ LongerWave wfs wfs')
    (e e' : List (List ℚ)) (he : List.Forall₂ (· <+: ·) e e') (ho : ∀ l ∈ e, l.Pairwise (· ≤ ·)) (δ : ℚ) (hδ : 0 < δ) (hd : tDelta wfs = .ok δ)
    (hd' : tDelta wfs' = .ok δ) (a a' : Analysis) (h1 : calculateAll s m (asGiven e) none cdr mask wfs = .ok a)
    (h2 : calculateAll s m (asGiven e') none cdr mask wfs' = .ok a') (hT : 0 < a.tSym) (hp : a'.tSym = a.tSym) (hm : Growing a.tSym δ mask) :
    Extends s.resolution a a' := by
  obtain ⟨ws, -, k1, g1⟩ := steps s m cdr mask δ e wfs a hd h1
  obtain ⟨ws', -, k2, g2⟩ := steps s m cdr mask δ e' wfs' a' hd' h2
  rw [hp] at k2 g2
  exact measure_longer s a.tSym δ hT hδ mask hm ws ws' (mapM_longer _ δ hδ wfs wfs' h e e' he ho ws ws' k1 k2) (sampled_inside _ δ hδ _ _ k1)
    (sampled_inside _ δ hδ _ _ k2) m hy a a' g1 g2

/-! ### Bits -/

theorem bitsFrom_prefix (l r : List ℤ) (b : ℤ) : bitsFrom b l <+: bitsFrom b (l ++ r) := by
  induction l generalizing b with
  | nil => exact List.nil_prefix
  | cons d l ih =>
    rw [List.cons_append]
    unfold bitsFrom
    simp only
    exact List.prefix_cons_inj _ |>.2 (ih _)

/-- The bits of one waveform: those of a longer one begin with them if the short one has a transition or the first transition is a rising one. -/
theorem bitsL_prefix (l r : List ℤ) (h : (∃ d ∈ l, d ≠ 0) ∨ ∀ d, (r.filter (· ≠ 0)).head? = some d → d = 1) : bitsL l <+: bitsL (l ++ r) := by
  unfold bitsL
  simp only
  have : (if ((l ++ r).filter (· ≠ 0)).length = 0 ∨ ((l ++ r).filter (· ≠ 0)).head? = some 1 then (0 : ℤ) else 1) =
      if (l.filter (· ≠ 0)).length = 0 ∨ (l.filter (· ≠ 0)).head? = some 1 then 0 else 1 := by
    rw [List.filter_append]
    cases hl : l.filter (· ≠ 0) with
    | cons d t => simp
    | nil =>
      have h' := h.resolve_left (by
        rintro ⟨d, hd, h0⟩
        have : d ∈ l.filter (· ≠ 0) := List.mem_filter.2 ⟨hd, by simpa using h0⟩
        rw [hl] at this
        simp at this)
      rw [List.nil_append]
      cases hr : r.filter (· ≠ 0) with
      | nil => rfl
      | cons d t =>
        rw [hr] at h'
        rw [h' d rfl]
        simp
  rw [this]
  exact bitsFrom_prefix l r _

/-- **C94.** Exactly then: otherwise already the first bit of the longer record is another one. -/
theorem C94_bitsL_iff (l r : List ℤ) :
    bitsL l <+: bitsL (l ++ r) ↔ l = [] ∨ (∃ d ∈ l, d ≠ 0) ∨ ∀ d, (r.filter (· ≠ 0)).head? = some d → d = 1 := by
  constructor
  · intro h
    cases l with
    | nil => exact .inl rfl
    | cons x l =>
      by_cases hz : ∃ d ∈ x :: l, d ≠ 0
      · exact .inr (.inl hz)
      · push Not at hz
        refine .inr (.inr fun d hd => ?_)
        by_contra h1
        have hf : (x :: l).filter (· ≠ 0) = [] := List.filter_eq_nil_iff.2 fun y hy => by simpa using hz y hy
        obtain rfl : x = 0 := hz x (List.mem_cons_self ..)
        obtain ⟨t, ht⟩ : ∃ t, r.filter (· ≠ 0) = d :: t := List.head?_eq_some_iff.1 hd
        have e1 : bitsL (0 :: l) = 0 :: bitsFrom 0 l := by
          unfold bitsL
          simp only [hf, List.length_nil, true_or, if_true]
          rfl
        have e2 : bitsL (0 :: l ++ r) = 1 :: bitsFrom 1 (l ++ r) := by
          unfold bitsL
          rw [List.filter_append, hf, List.nil_append, ht]
          simp only
          rw [if_neg (by simp [h1])]
          rfl
        rw [e1, e2, List.cons_prefix_cons] at h
        exact absurd h.1 (by decide)
  · rintro (rfl | h)
    · exact List.nil_prefix
    · exact bitsL_prefix l r h

/-- **C94.** The NRZM bits of a longer record begin with those of the short one. -/
theorem C94_bitsM (res : ℕ) (a a' : Analysis) (h : Extends res a a') (b b' : List (List ℤ)) (h1 : bits a true = .ok b) (h2 : bits a' true = .ok b') :
    List.Forall₂ (· <+: ·) b b' := by
  unfold bits bitStream at h1 h2
  rcases h.vertical with ⟨e, -⟩ | ⟨v, v', e, e', hv⟩
  · rw [e] at h1
    cases h1
  · rw [e] at h1
    rw [e'] at h2
    simp only [Bool.not_true, Bool.false_eq_true, if_false, Option.map_some] at h1 h2
    obtain rfl := Except.ok.inj h1
    obtain rfl := Except.ok.inj h2
    rw [List.map_map, List.map_map, List.forall₂_map_left_iff, List.forall₂_map_right_iff]
    refine hv.imp fun x y hxy => ?_
    exact hxy.edgeDir.map _

/-- **C94 (partial).** So do the NRZL bits if every waveform of the short record has a transition. -/
theorem C94_bitsL_partial (res : ℕ) (a a' : Analysis) (h : Extends res a a') (ht : ∀ v, a.v = some v → ∀ o ∈ v, ∃ d ∈ o.edgeDir, d ≠ 0)
    (b b' : List (List ℤ)) (h1 : bits a false = .ok b) (h2 : bits a' false = .ok b') : List.Forall₂ (· <+: ·) b b' := by
  unfold bits bitStream at h1 h2
  rcases h.vertical with ⟨e, -⟩ | ⟨v, v', e, e', hv⟩
  · rw [e] at h1
    cases h1
  · have ht := ht v e
    rw [e] at h1
    rw [e'] at h2
    simp only [Bool.not_true, Bool.false_eq_true, if_false, Option.map_some] at h1 h2
    obtain rfl := Except.ok.inj h1
    obtain rfl := Except.ok.inj h2
    rw [List.map_map, List.map_map, List.forall₂_map_left_iff, List.forall₂_map_right_iff]
    clear h1 h2 e e'
    induction hv with
    | nil => exact .nil
    | @cons x y _ _ hxy _ ih =>
      refine .cons ?_ (ih fun o ho => ht o (List.mem_cons_of_mem _ ho))
      obtain ⟨r, hr⟩ := hxy.edgeDir
      simp only [Function.comp_apply]
      rw [← hr]
      exact bitsL_prefix _ _ (.inl (ht x (List.mem_cons_self ..)))

/-- A high level that falls after 20 samples. -/
def exFall (n : ℕ) : Wave := ((List.range n).map fun i : ℕ => (i : ℚ), (List.range n).map fun i : ℕ => if i < 20 then 1 else 0)

/-- **C94.** Without a transition the NRZL bits are zeros, whatever the level; a longer record with a falling edge makes them ones. -/
theorem C94_bitsL_fails : ((calculateAll (exSettings (4 / 5)) (⟨0, 0⟩, ⟨0, 0⟩) (asGiven [[4, 8, 12, 16, 20, 24]]) none (fun _ => .ok []) none [exFall 20] >>=
      fun a => bits a false).toOption = some [[0, 0]]) ∧
    (calculateAll (exSettings (4 / 5)) (⟨0, 0⟩, ⟨0, 0⟩) (asGiven [[4, 8, 12, 16, 20, 24]]) none (fun _ => .ok []) none [exFall 40] >>=
      fun a => bits a false).toOption = some [[1, 1, 1, 0, 0]] := by decide +kernel

/-! ### The hypotheses are met -/

/-- The waveform of `exWave`, longer. -/
def exLong : Wave := ((List.range 50).map fun i : ℕ => (i : ℚ), (List.range 50).map fun i : ℕ => if i / 4 % 2 = 1 then 1 else 0)

theorem ex_long : ∃ a, calculateAll (exSettings (4 / 5)) (⟨0, 0⟩, ⟨0, 0⟩) (asGiven [[6, 10, 14, 18]]) none (fun _ => .ok [])
    (some (sampleHexMask exHexZero)) [exLong] = .ok a := by
  have hmask : ∀ ys : List (List ℚ), (∀ y ∈ ys, ∀ v ∈ y, -1 < (v - 0) / (1 - 0 : ℚ) ∧ (v - 0) / (1 - 0 : ℚ) < 2) → ∀ T δ, 0 < T → 0 < δ →
      MaskOk (some (sampleHexMask exHexZero)) (exSettings (4 / 5)).level T δ ys := by
    intro ys hys T δ hT hδ
    refine maskOk_hexagon exHexZero exHexConv _ T δ 0 1 _ hT hδ rfl rfl (by norm_num) ?_ (by decide +kernel) (by decide +kernel)
      (by decide +kernel) (by decide +kernel) hys
    simp [Mask.Hexagon.convert, exHexZero, exHexConv, Mask.convertUnit, Mask.plain, Mask.Hexagon.new, bind, Except.bind, pure, Except.pure]
  obtain ⟨a, h1, -⟩ := C69_completes_partial (exSettings (4 / 5)) (⟨0, 0⟩, ⟨0, 0⟩) (asGiven [[6, 10, 14, 18]]) none (fun _ => .ok [])
    (some (sampleHexMask exHexZero)) exLong [] [[6, 10, 14, 18]] 0 49 (by decide +kernel) (by decide +kernel) (by norm_num) (by simp) (by decide +kernel)
    (by decide +kernel) ⟨[6, 10, 14, 18], by simp, by decide⟩ (by decide) (by unfold Drawable; decide +kernel) (by unfold Drawable; decide +kernel)
    (fun T δ hT hδ => hmask _ (by decide +kernel) T δ hT hδ)
  exact ⟨a, h1⟩

/-- The hypotheses of C94 are met: a waveform of 40 samples and one of 50 samples, with a mask. -/
example : ∃ a a', calculateAll (exSettings (4 / 5)) (⟨0, 0⟩, ⟨0, 0⟩) (asGiven [[6, 10, 14]]) none (fun _ => .ok []) (some (sampleHexMask exHexZero))
      [exWave] = .ok a ∧
    calculateAll (exSettings (4 / 5)) (⟨0, 0⟩, ⟨0, 0⟩) (asGiven [[6, 10, 14, 18]]) none (fun _ => .ok []) (some (sampleHexMask exHexZero))
      [exLong] = .ok a' ∧ Extends (exSettings (4 / 5)).resolution a a' := by
  obtain ⟨a, h1, -⟩ := ex_alone exWave _ (.inl ⟨rfl, rfl⟩)
  obtain ⟨a', h2⟩ := ex_long
  have d1 : tDelta [exWave] = .ok 1 := by decide +kernel
  have d2 : tDelta [exLong] = .ok 1 := by decide +kernel
  obtain ⟨-, p1, -⟩ := steps _ _ _ _ 1 _ _ a d1 h1
  obtain ⟨-, p2, -⟩ := steps _ _ _ _ 1 _ _ a' d2 h2
  have q1 : symbolPeriod [[6, 10, 14]] = .ok (some 4) := by decide +kernel
  have q2 : symbolPeriod [[6, 10, 14, 18]] = .ok (some 4) := by decide +kernel
  have t1 : a.tSym = 4 := (Option.some.inj (Except.ok.inj (q1.symm.trans p1))).symm
  have t2 : a'.tSym = 4 := (Option.some.inj (Except.ok.inj (q2.symm.trans p2))).symm
  refine ⟨a, a', h1, h2, C94_longer _ _ _ _ (.inr ⟨0, 1, rfl, rfl⟩) [exWave] [exLong] (.cons ⟨by decide, by decide +kernel, by decide +kernel⟩ .nil) _ _
    (.cons (by decide +kernel) .nil) (by intro l hl; simp only [List.mem_singleton] at hl; subst hl; decide +kernel) 1 (by norm_num) d1 d2 a a' h1 h2
    (by rw [t1]; norm_num) (by rw [t1, t2]) ?_⟩
  rw [t1]
  exact C94_hexagon exHexZero 4 1 (by norm_num) (by norm_num)

/-- A longer record has more symbols: the bits of the short record come first. -/
example : (calculateAll (exSettings (4 / 5)) (⟨0, 0⟩, ⟨0, 0⟩) (asGiven [[8, 12, 16, 20, 24, 28, 32, 36, 40]]) none (fun _ => .ok []) none [exWave] >>=
      fun a => bits a false).toOption = some [[0, 1, 0, 1, 0, 1, 0]] ∧
    (calculateAll (exSettings (4 / 5)) (⟨0, 0⟩, ⟨0, 0⟩) (asGiven [[8, 12, 16, 20, 24, 28, 32, 36, 40]]) none (fun _ => .ok []) none [exLong] >>=
      fun a => bits a false).toOption = some [[0, 1, 0, 1, 0, 1, 0, 1, 0]] := by decide +kernel

end Verif.Props.Longer
