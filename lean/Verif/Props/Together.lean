import Verif.Props.Order

/-!
C91: analysing waveforms together is analysing them one after the other.
-/

namespace Verif.Props.Together

open Verif Verif.Props Verif.Props.Pipeline Verif.Props.EyeMask Verif.Lines Verif.Eye Verif.Pam2 Verif.Pipeline Verif.Mask Verif.Props.EyeImage
  Verif.Props.EyeWindow Verif.Props.Order

/-! ### Specification -/

/-- Clock edges at distances of `T`. -/
def Regular (T : ℚ) (e : List ℚ) : Prop := e.IsChain fun a b => b - a = T

/-- What a mask test says of two lists of waveforms, from what it says of each. -/
def joinMask (a b : MaskAll) : MaskAll := ⟨a.offenders ++ b.offenders, a.hits ++ b.hits, min a.margin b.margin, a.count + b.count⟩

/-- A mask test treats the waveforms one by one. -/
def Additive (mask : Option MaskFn) : Prop := ∀ f, mask = some f → ∀ δ T z u ws1 ws2 r1 r2, f δ T z u ws1 = .ok r1 → f δ T z u ws2 = .ok r2 →
  f δ T z u (ws1 ++ ws2) = .ok (joinMask r1 r2)

/-- The counts of the image add up, the levels are the same, the hits of the mask are those of both and the margin is the smaller one. -/
structure JoinPicture (res : ℕ) (p1 p2 p : Picture) : Prop where
  levels : p.levels = p1.levels ∧ p.levels = p2.levels
  counts : p.counts.nx = res ∧ p.counts.ny = res ∧
    ∀ a b : ℤ, 0 ≤ a → a < res → 0 ≤ b → b < res → p.counts.cell a b = p1.counts.cell a b + p2.counts.cell a b
  mask : (p.mask = none ∧ p1.mask = none ∧ p2.mask = none) ∨ ∃ m1 m2, p1.mask = some m1 ∧ p2.mask = some m2 ∧ p.mask = some (joinMask m1 m2)

/-- The results for two lists of waveforms, from those for each. -/
structure Join (res : ℕ) (T : ℚ) (a1 a2 a : Analysis) : Prop where
  period : a.tSym = T ∧ a1.tSym = T ∧ a2.tSym = T
  symbols : a.wfs = a1.wfs ++ a2.wfs
  vertical : (a.v = none ∧ a1.v = none ∧ a2.v = none) ∨ ∃ v1 v2, a1.v = some v1 ∧ a2.v = some v2 ∧ a.v = some (v1 ++ v2)
  picture : (a.picture = none ∧ a1.picture = none ∧ a2.picture = none) ∨
    ∃ p1 p2 p, a1.picture = some p1 ∧ a2.picture = some p2 ∧ a.picture = some p ∧ JoinPicture res p1 p2 p

/-! ### Lists -/

theorem mapM_append_ok {α β : Type} (f : α → Except PyErr β) (l1 l2 : List α) (r1 r2 : List β) (h1 : l1.mapM f = .ok r1) (h2 : l2.mapM f = .ok r2) :
    (l1 ++ l2).mapM f = .ok (r1 ++ r2) := by
  rw [List.mapM_append, h1, h2]
  rfl

theorem regular_diffs (T : ℚ) (e : List ℚ) (h : Regular T e) : ∀ d ∈ diffs e, d = T := by
  induction e with
  | nil => intro d hd; simp [diffs] at hd
  | cons a l ih =>
    cases l with
    | nil => intro d hd; simp [diffs] at hd
    | cons b l =>
      intro d hd
      simp only [diffs, List.mem_cons] at hd
      rcases hd with rfl | hd
      · exact (List.isChain_cons_cons.1 h).1
      · exact ih (List.isChain_cons_cons.1 h).2 d hd

theorem mean_const (T : ℚ) (l : List ℚ) (h : ∀ d ∈ l, d = T) (hne : l ≠ []) : mean l = some T := by
  have e : l = List.replicate l.length T := List.eq_replicate_iff.2 ⟨rfl, h⟩
  unfold mean
  rw [if_neg hne, e, List.sum_replicate, List.length_replicate, nsmul_eq_mul]
  have : (l.length : ℚ) ≠ 0 := by
    have := List.length_pos_iff.2 hne
    positivity
  rw [mul_div_cancel_left₀ _ this]

theorem period_regular (T : ℚ) (hT : 0 < T) (e : List (List ℚ)) (h : ∀ l ∈ e, Regular T l) (hne : (e.map diffs).flatten ≠ []) :
    symbolPeriod e = .ok (some T) := by
  have hall : ∀ d ∈ (e.map diffs).flatten, d = T := by
    intro d hd
    obtain ⟨l, hl, hd⟩ := List.mem_flatten.1 hd
    obtain ⟨l', hl', rfl⟩ := List.mem_map.1 hl
    exact regular_diffs T l' (h l' hl') d hd
  have hf : (e.map diffs).flatten.filter (fun x => decide (x < 10 * T)) = (e.map diffs).flatten := by
    rw [List.filter_eq_self]
    intro d hd
    rw [hall d hd, decide_eq_true_eq]
    linarith
  unfold symbolPeriod
  rw [if_neg (by rintro rfl; exact hne rfl)]
  simp only [mean_const T _ hall hne, hf]

theorem period_some (e : List (List ℚ)) (T : ℚ) (h : symbolPeriod e = .ok (some T)) : (e.map diffs).flatten ≠ [] := by
  intro h0
  unfold symbolPeriod at h
  split at h
  · cases h
  · simp only [h0, mean, if_true] at h
    cases h

/-! ### Masks -/

theorem foldl_min {α : Type} (f : α → ℚ) (l : List α) : ∀ m : ℚ, m ≤ 1 → l.foldl (fun m w => min m (f w)) m = min m (l.foldl (fun m w => min m (f w)) 1) := by
  have key : ∀ (l : List α) (a b : ℚ), l.foldl (fun m w => min m (f w)) (min a b) = min a (l.foldl (fun m w => min m (f w)) b) := by
    intro l
    induction l with
    | nil => intro a b; rfl
    | cons x l ih => intro a b; simp only [List.foldl_cons]; rw [min_assoc, ih]
  intro m hm
  rw [← key l m 1, min_eq_left hm]

theorem foldl_min_le {α : Type} (f : α → ℚ) (l : List α) : ∀ m : ℚ, l.foldl (fun m w => min m (f w)) m ≤ m := by
  induction l with
  | nil => intro m; exact le_refl _
  | cons x l ih => intro m; exact (ih _).trans (min_le_left _ _)

theorem maskLoop_append (δ T z u : ℚ) (paths : List (List (List Pt))) (ws1 ws2 : List Wf) (r1 r2 : MaskAll)
    (h1 : maskLoop δ T z u paths ws1 ⟨[], [], 1, 0⟩ = .ok r1) (h2 : maskLoop δ T z u paths ws2 ⟨[], [], 1, 0⟩ = .ok r2) :
    maskLoop δ T z u paths (ws1 ++ ws2) ⟨[], [], 1, 0⟩ = .ok (joinMask r1 r2) := by
  obtain ⟨o1, ho1⟩ := maskLoop_mapM δ T z u paths ws1 _ r1 h1
  obtain ⟨o2, ho2⟩ := maskLoop_mapM δ T z u paths ws2 _ r2 h2
  have ho := mapM_append_ok _ _ _ _ _ ho1 ho2
  rcases mapM_fun _ _ _ ho with ⟨e, -⟩ | ⟨g, -, hg⟩
  · obtain ⟨rfl, rfl⟩ := List.append_eq_nil_iff.1 e
    rw [maskLoop] at h1 h2
    obtain rfl := Except.ok.inj h1
    obtain rfl := Except.ok.inj h2
    rfl
  · rw [maskLoop_eq δ T z u paths g ws1 _ fun w hw => hg w (List.mem_append_left _ hw)] at h1
    rw [maskLoop_eq δ T z u paths g ws2 _ fun w hw => hg w (List.mem_append_right _ hw)] at h2
    rw [maskLoop_eq δ T z u paths g _ _ hg]
    obtain rfl := Except.ok.inj h1
    obtain rfl := Except.ok.inj h2
    simp only [joinMask, List.nil_append, List.map_append, List.flatMap_append, List.foldl_append, List.sum_append, Nat.zero_add]
    rw [foldl_min (fun w => (g w).margin) ws2 _ (foldl_min_le _ ws1 1)]

/-- **C91.** A hexagon mask treats the waveforms one by one: hits and offenders of both, the smaller margin. -/
theorem C91_hexagon (m : Hexagon) : Additive (some (sampleHexMask m)) := by
  intro f hf δ T z u ws1 ws2 r1 r2 h1 h2
  obtain rfl := Option.some.inj hf
  unfold sampleHexMask at h1 h2 ⊢
  cases hc : m.convert u T with
  | error e => simp only [hc, bind, Except.bind] at h1; cases h1
  | ok c =>
    simp only [hc, bind, Except.bind] at h1 h2 ⊢
    cases hp : hexMaskPaths c with
    | error e => simp only [hp] at h1; cases h1
    | ok paths =>
      simp only [hp] at h1 h2 ⊢
      exact maskLoop_append δ T z u paths ws1 ws2 r1 r2 h1 h2

/-- **C91.** A decagon mask treats the waveforms one by one. -/
theorem C91_decagon (m : Decagon) : Additive (some (sampleDecMask m)) := by
  intro f hf δ T z u ws1 ws2 r1 r2 h1 h2
  obtain rfl := Option.some.inj hf
  unfold sampleDecMask at h1 h2 ⊢
  cases hc : m.convert u T with
  | error e => simp only [hc, bind, Except.bind] at h1; cases h1
  | ok c =>
    simp only [hc, bind, Except.bind] at h1 h2 ⊢
    cases hp : decMaskPaths c with
    | error e => simp only [hp] at h1; cases h1
    | ok paths =>
      simp only [hp] at h1 h2 ⊢
      exact maskLoop_append δ T z u paths ws1 ws2 r1 r2 h1 h2

/-! ### Steps 4 and 5 -/

section
variable (s : Settings) (T δ : ℚ) (hT : 0 < T) (hδ : 0 < δ)
include hT hδ

/-- The windows of all symbols are inside the waveforms. -/
def AllInside (T δ : ℚ) (ws : List Wf) : Prop := ∀ w ∈ ws, ∀ c ∈ w.centers, Inside T δ w.y.length c

omit hT hδ in
theorem allInside_append {ws1 ws2 : List Wf} (h1 : AllInside T δ ws1) (h2 : AllInside T δ ws2) : AllInside T δ (ws1 ++ ws2) := by
  intro w hw
  rcases List.mem_append.1 hw with h | h
  · exact h1 w h
  · exact h2 w h

theorem counts_append (ws1 ws2 : List Wf) (hc1 : AllInside T δ ws1) (hc2 : AllInside T δ ws2) (z u : ℚ) (hu : u ≠ 0) (g1 g2 : Grid) (res : ℕ) (pc : Bool)
    (h1 : stackAll ws1 δ T z u res pc = .ok g1) (h2 : stackAll ws2 δ T z u res pc = .ok g2) :
    ∃ g, stackAll (ws1 ++ ws2) δ T z u res pc = .ok g ∧ g.nx = res ∧ g.ny = res ∧
      ∀ a b : ℤ, 0 ≤ a → a < res → 0 ≤ b → b < res → g.cell a b = g1.cell a b + g2.cell a b := by
  obtain ⟨g1', e1, -, -, k1⟩ := C59_counts ws1 T δ z u hT hδ hu res pc hc1
  obtain ⟨g2', e2, -, -, k2⟩ := C59_counts ws2 T δ z u hT hδ hu res pc hc2
  obtain ⟨g, e, n1, n2, k⟩ := C59_counts (ws1 ++ ws2) T δ z u hT hδ hu res pc (allInside_append T δ hc1 hc2)
  obtain rfl : g1' = g1 := Except.ok.inj (e1.symm.trans h1)
  obtain rfl : g2' = g2 := Except.ok.inj (e2.symm.trans h2)
  refine ⟨g, e, n1, n2, fun a b a1 a2 b1 b2 => ?_⟩
  rw [k a b a1 a2 b1 b2, k1 a b a1 a2 b1 b2, k2 a b a1 a2 b1 b2, List.flatMap_append, List.flatMap_append, List.count_append]

theorem picture_append (ws1 ws2 : List Wf) (hc1 : AllInside T δ ws1) (hc2 : AllInside T δ ws2) (l : Levels ℚ) (hu : l.ua ≠ 0)
    (h h1 h2 : List HOut) (m m1 m2 : Option MaskAll) (b b1 b2 : List (ℚ × ℚ)) (p1 p2 : Picture)
    (e1 : picture s T δ ws1 l h1 m1 b1 = .ok p1) (e2 : picture s T δ ws2 l h2 m2 b2 = .ok p2)
    (hm : (m = none ∧ m1 = none ∧ m2 = none) ∨ ∃ r1 r2, m1 = some r1 ∧ m2 = some r2 ∧ m = some (joinMask r1 r2)) :
    ∃ p, picture s T δ (ws1 ++ ws2) l h m b = .ok p ∧ JoinPicture s.resolution p1 p2 p := by
  unfold picture at e1 e2 ⊢
  cases k1 : stackAll ws1 δ T l.zero l.ua s.resolution s.pointCloud with
  | error e => rw [k1] at e1; cases e1
  | ok g1 =>
    cases k2 : stackAll ws2 δ T l.zero l.ua s.resolution s.pointCloud with
    | error e => rw [k2] at e2; cases e2
    | ok g2 =>
      cases kd : drawGrid s with
      | error e => rw [k1, kd] at e1; cases e1
      | ok x =>
        rw [k1, kd] at e1
        rw [k2, kd] at e2
        obtain ⟨g, hg, n1, n2, hcell⟩ := counts_append T δ hT hδ ws1 ws2 hc1 hc2 l.zero l.ua hu g1 g2 _ _ k1 k2
        rw [hg]
        obtain rfl := Except.ok.inj e1
        obtain rfl := Except.ok.inj e2
        exact ⟨_, rfl, ⟨rfl, rfl⟩, ⟨n1, n2, hcell⟩, hm⟩

theorem measure_append (mask : Option MaskFn) (hm : Additive mask) (ws1 ws2 : List Wf) (hc1 : AllInside T δ ws1) (hc2 : AllInside T δ ws2)
    (m : Level ℚ × Level ℚ) (hy : s.skip = true ∨ ∃ y0 y1, s.level.y0 = some y0 ∧ s.level.y1 = some y1) (a1 a2 : Analysis)
    (e1 : measure s mask T δ ws1 (levels s.level m) = .ok a1) (e2 : measure s mask T δ ws2 (levels s.level m) = .ok a2) :
    ∃ a, measure s mask T δ (ws1 ++ ws2) (levels s.level m) = .ok a ∧ Join s.resolution T a1 a2 a := by
  unfold Pipeline.measure at e1 e2 ⊢
  by_cases hs : s.skip = true
  · rw [if_pos hs] at e1 e2 ⊢
    unfold skipPicture at e1 e2 ⊢
    by_cases hu : (levels s.level m).ua = 0
    · rw [if_pos hu] at e1 e2 ⊢
      unfold noPicture at e1 e2 ⊢
      cases kd : drawGrid s with
      | error e => rw [kd] at e1; cases e1
      | ok x =>
        rw [kd] at e1 e2
        obtain rfl := Except.ok.inj e1
        obtain rfl := Except.ok.inj e2
        exact ⟨_, rfl, ⟨rfl, rfl, rfl⟩, rfl, .inl ⟨rfl, rfl, rfl⟩, .inl ⟨rfl, rfl, rfl⟩⟩
    · rw [if_neg hu] at e1 e2 ⊢
      cases k1 : picture s T δ ws1 (levels s.level m) [] none [] with
      | error e => rw [k1] at e1; cases e1
      | ok p1 =>
        cases k2 : picture s T δ ws2 (levels s.level m) [] none [] with
        | error e => rw [k2] at e2; cases e2
        | ok p2 =>
          rw [k1] at e1
          rw [k2] at e2
          obtain ⟨p, hp, hj⟩ := picture_append s T δ hT hδ ws1 ws2 hc1 hc2 _ hu [] [] [] none none none [] [] [] p1 p2 k1 k2 (.inl ⟨rfl, rfl, rfl⟩)
          rw [hp]
          obtain rfl := Except.ok.inj e1
          obtain rfl := Except.ok.inj e2
          exact ⟨_, rfl, ⟨rfl, rfl, rfl⟩, rfl, .inl ⟨rfl, rfl, rfl⟩, .inr ⟨_, _, _, rfl, rfl, rfl, hj⟩⟩
  · obtain ⟨y0, y1, hy0, hy1⟩ := hy.resolve_left hs
    rw [if_neg hs] at e1 e2 ⊢
    obtain ⟨v1, kv1, d1⟩ := vertical_ok ws1 T δ (levels s.level m).half s.levelWidth s.crossWidth hT hδ hc1
    obtain ⟨v2, kv2, d2⟩ := vertical_ok ws2 T δ (levels s.level m).half s.levelWidth s.crossWidth hT hδ hc2
    have kv := mapM_append_ok _ _ _ _ _ kv1 kv2
    have hlen : (v1 ++ v2).map (·.edgeDir.length) = (ws1 ++ ws2).map (·.centers.length) := by
      have := congrArg (List.map List.length) (congrArg₂ (· ++ ·) d1 d2)
      simpa [List.map_map, Function.comp_def] using this
    rw [kv1] at e1
    rw [kv2] at e2
    rw [kv]
    simp only [bind, Except.bind] at e1 e2 ⊢
    have hlev : ∀ x y : Option ℚ, newLevels s.level x y (levels s.level m) = some (updateLevels s.level 0 0 (levels s.level m)) := by
      intro x y
      unfold newLevels
      rw [hy0, hy1]
    rw [hlev] at e1 e2 ⊢
    generalize updateLevels s.level 0 0 (levels s.level m) = l at e1 e2 ⊢
    have hsuff : ∀ p1 p2, finish s mask T δ ws1 v1 (some l) = .ok p1 → finish s mask T δ ws2 v2 (some l) = .ok p2 →
        ∃ p, finish s mask T δ (ws1 ++ ws2) (v1 ++ v2) (some l) = .ok p ∧ ((p = none ∧ p1 = none ∧ p2 = none) ∨
          ∃ q1 q2 q, p1 = some q1 ∧ p2 = some q2 ∧ p = some q ∧ JoinPicture s.resolution q1 q2 q) := by
      intro p1 p2 f1 f2
      unfold finish at f1 f2 ⊢
      rw [Option.filter_some] at f1 f2 ⊢
      by_cases hu : l.ua = 0
      · rw [if_neg (by simpa using hu)] at f1 f2 ⊢
        simp only at f1 f2 ⊢
        split at f1
        · cases f1
        · rename_i hms
          rw [if_neg hms] at f2 ⊢
          refine ⟨p1, f1, .inl ?_⟩
          unfold noPicture at f1 f2
          cases kd : drawGrid s with
          | error e => rw [kd] at f1; cases f1
          | ok x =>
            rw [kd] at f1 f2
            obtain rfl := Except.ok.inj f1
            obtain rfl := Except.ok.inj f2
            exact ⟨rfl, rfl, rfl⟩
      · rw [if_pos (by simpa using hu)] at f1 f2 ⊢
        simp only at f1 f2 ⊢
        obtain ⟨h, hh⟩ := horizontal_ok (ws1 ++ ws2) (v1 ++ v2) T δ l.zero l.ua (mean ((v1 ++ v2).flatMap (·.cross))) s.timeHeight s.edgeLower
          s.edgeUpper hT hδ (allInside_append T δ hc1 hc2) hlen
        obtain ⟨b, hb, -⟩ := Verif.Props.EyeBathtub.C47_hits (ws1 ++ ws2) T δ l.zero l.ua (1 / 2) hT hδ (allInside_append T δ hc1 hc2)
        rw [hh]
        cases kh1 : (ws1.zip v1).mapM (fun p => sampleHorizontal p.1.y p.1.centers p.2.edgeDir δ T l.zero l.ua (mean (v1.flatMap (·.cross)))
            s.timeHeight s.edgeLower s.edgeUpper) with
        | error e => rw [kh1] at f1; cases f1
        | ok h1 =>
        cases kh2 : (ws2.zip v2).mapM (fun p => sampleHorizontal p.1.y p.1.centers p.2.edgeDir δ T l.zero l.ua (mean (v2.flatMap (·.cross)))
            s.timeHeight s.edgeLower s.edgeUpper) with
        | error e => rw [kh2] at f2; cases f2
        | ok h2 =>
        rw [kh1] at f1
        rw [kh2] at f2
        simp only [bind, Except.bind] at f1 f2 ⊢
        cases km1 : runMask mask T δ ws1 l with
        | error e => rw [km1] at f1; cases f1
        | ok m1 =>
        cases km2 : runMask mask T δ ws2 l with
        | error e => rw [km2] at f2; cases f2
        | ok m2 =>
        rw [km1] at f1
        rw [km2] at f2
        have hmm : ∃ mm, runMask mask T δ (ws1 ++ ws2) l = .ok mm ∧ ((mm = none ∧ m1 = none ∧ m2 = none) ∨
            ∃ r1 r2, m1 = some r1 ∧ m2 = some r2 ∧ mm = some (joinMask r1 r2)) := by
          cases mask with
          | none =>
            refine ⟨none, rfl, .inl ⟨rfl, ?_, ?_⟩⟩
            · exact (Except.ok.inj km1).symm
            · exact (Except.ok.inj km2).symm
          | some f =>
            unfold runMask at km1 km2 ⊢
            simp only [bind, Except.bind] at km1 km2 ⊢
            cases kf1 : f δ T l.zero l.ua ws1 with
            | error e => rw [kf1] at km1; cases km1
            | ok r1 =>
            cases kf2 : f δ T l.zero l.ua ws2 with
            | error e => rw [kf2] at km2; cases km2
            | ok r2 =>
            rw [kf1] at km1
            rw [kf2] at km2
            rw [hm f rfl δ T l.zero l.ua ws1 ws2 r1 r2 kf1 kf2]
            exact ⟨_, rfl, .inr ⟨r1, r2, (Except.ok.inj km1).symm, (Except.ok.inj km2).symm, rfl⟩⟩
        obtain ⟨mm, hmm, hj⟩ := hmm
        rw [hmm]
        simp only at f1 f2 ⊢
        rw [hb]
        cases kb1 : bathtubCurve ws1 δ T l.zero l.ua (1 / 2) with
        | error e => rw [kb1] at f1; cases f1
        | ok b1 =>
        cases kb2 : bathtubCurve ws2 δ T l.zero l.ua (1 / 2) with
        | error e => rw [kb2] at f2; cases f2
        | ok b2 =>
        rw [kb1] at f1
        rw [kb2] at f2
        simp only at f1 f2 ⊢
        cases kp1 : picture s T δ ws1 l h1 m1 b1 with
        | error e => rw [kp1] at f1; cases f1
        | ok q1 =>
        cases kp2 : picture s T δ ws2 l h2 m2 b2 with
        | error e => rw [kp2] at f2; cases f2
        | ok q2 =>
        rw [kp1] at f1
        rw [kp2] at f2
        obtain ⟨q, hq, hjq⟩ := picture_append s T δ hT hδ ws1 ws2 hc1 hc2 l hu h h1 h2 mm m1 m2 (bathtub b) b1 b2 q1 q2 kp1 kp2 hj
        rw [hq]
        exact ⟨_, rfl, .inr ⟨q1, q2, q, (Except.ok.inj f1).symm, (Except.ok.inj f2).symm, rfl, hjq⟩⟩
    cases kf1 : finish s mask T δ ws1 v1 (some l) with
    | error e => rw [kf1] at e1; cases e1
    | ok p1 =>
    cases kf2 : finish s mask T δ ws2 v2 (some l) with
    | error e => rw [kf2] at e2; cases e2
    | ok p2 =>
    rw [kf1] at e1
    rw [kf2] at e2
    obtain ⟨p, hp, hj⟩ := hsuff p1 p2 kf1 kf2
    rw [hp]
    obtain rfl := Except.ok.inj e1
    obtain rfl := Except.ok.inj e2
    exact ⟨_, rfl, ⟨rfl, rfl, rfl⟩, rfl, .inr ⟨v1, v2, rfl, rfl, rfl⟩, hj⟩

end

/-! ### C91 -/

/-- The clock edges as they are given. -/
def asGiven (e : List (List ℚ)) : Option (List (List (Option ℚ))) := some (e.map fun l => l.map some)

theorem finite_some (e : List (List ℚ)) : Pipeline.finite (e.map fun l => l.map some) = .ok e := by
  have h1 : ∀ l : List ℚ, (l.map some).mapM number = .ok l := by
    intro l
    induction l with
    | nil => rfl
    | cons a l ih => rw [List.map_cons, List.mapM_cons, ih]; rfl
  unfold Pipeline.finite
  induction e with
  | nil => rfl
  | cons l e ih => rw [List.map_cons, List.mapM_cons, h1, ih]; rfl

theorem sampled_inside (T δ : ℚ) (hδ : 0 < δ) (ps : List (Wave × List ℚ)) (ws : List Wf)
    (h : ps.mapM (fun p => sampled T δ p.1 p.2) = .ok ws) : AllInside T δ ws := by
  induction ps generalizing ws with
  | nil => obtain rfl := Except.ok.inj h; intro w hw; simp at hw
  | cons p ps ih =>
    rw [List.mapM_cons] at h
    cases h1 : sampled T δ p.1 p.2 with
    | error e => rw [h1] at h; cases h
    | ok w =>
      rw [h1] at h
      cases h2 : ps.mapM fun p => sampled T δ p.1 p.2 with
      | error e => simp only [h2, bind, Except.bind] at h; cases h
      | ok t =>
        simp only [h2, bind, Except.bind, pure, Except.pure] at h
        obtain rfl := Except.ok.inj h
        intro x hx
        rcases List.mem_cons.1 hx with rfl | hx
        · unfold sampled at h1
          cases h5 : pyGet p.1.1 0 with
          | error e => rw [h5] at h1; cases h1
          | ok z =>
            rw [h5] at h1
            obtain rfl := Except.ok.inj h1
            intro c hc
            exact (Verif.Props.EyeMask.sampled_ok T δ z hδ _ _ c hc).1
        · exact ih t h2 x hx

theorem tDelta_append (w1 w2 : List Wave) (δ : ℚ) (h : tDelta w1 = .ok δ) : tDelta (w1 ++ w2) = .ok δ := by
  cases w1 with
  | nil => cases h
  | cons w l => exact h

/-- **C91.** If the waveforms `w1` with regular clock edges `e1` can be analysed and so can `w2` with `e2` at the same period and sampling interval, with
manual levels (or without measures), then all of them can be analysed together.  The symbols and the vertical measurements are those of both, the counts of
the images add up, the mask is hit where it is hit in either and the margin is the smaller one. -/
theorem C91_together (s : Settings) (m : Level ℚ × Level ℚ) (cdr : List (Option ℚ) → Except PyErr (List (Option ℚ))) (mask : Option MaskFn)
    (hm : Additive mask) (hy : s.skip = true ∨ ∃ y0 y1, s.level.y0 = some y0 ∧ s.level.y1 = some y1) (w1 w2 : List Wave) (e1 e2 : List (List ℚ))
    (hl : e1.length = w1.length) (T δ : ℚ) (hT : 0 < T) (hδ : 0 < δ) (hreg : ∀ e ∈ e1 ++ e2, Regular T e) (hd1 : tDelta w1 = .ok δ)
    (hd2 : tDelta w2 = .ok δ) (a1 a2 : Analysis) (h1 : calculateAll s m (asGiven e1) none cdr mask w1 = .ok a1)
    (h2 : calculateAll s m (asGiven e2) none cdr mask w2 = .ok a2) :
    ∃ a, calculateAll s m (asGiven (e1 ++ e2)) none cdr mask (w1 ++ w2) = .ok a ∧ Join s.resolution T a1 a2 a := by
  have per : ∀ (e : List (List ℚ)) (w : List Wave) (a : Analysis), (∀ l ∈ e, Regular T l) → tDelta w = .ok δ →
      calculateAll s m (asGiven e) none cdr mask w = .ok a → symbolPeriod e = .ok (some T) := by
    intro e w a hr hd h
    unfold calculateAll asGiven clockEdges at h
    simp only [hd, bind, Except.bind, finite_some] at h
    cases hp : symbolPeriod e with
    | error x => rw [hp] at h; cases h
    | ok t =>
      cases t with
      | none => rw [hp] at h; cases h
      | some T' => rw [← hp]; exact period_regular T hT e hr (period_some e T' hp)
  have p1 := per e1 w1 a1 (fun l hl => hreg l (List.mem_append_left _ hl)) hd1 h1
  have p2 := per e2 w2 a2 (fun l hl => hreg l (List.mem_append_right _ hl)) hd2 h2
  have p : symbolPeriod (e1 ++ e2) = .ok (some T) := by
    refine period_regular T hT _ hreg ?_
    rw [List.map_append, List.flatten_append]
    intro h
    exact period_some e1 T p1 (List.append_eq_nil_iff.1 h).1
  unfold calculateAll asGiven clockEdges at h1 h2 ⊢
  simp only [hd1, bind, Except.bind, finite_some, p1] at h1
  simp only [hd2, bind, Except.bind, finite_some, p2] at h2
  simp only [tDelta_append w1 w2 δ hd1, bind, Except.bind, finite_some, p]
  rw [List.zip_append hl.symm]
  cases k1 : (w1.zip e1).mapM fun p => sampled T δ p.1 p.2 with
  | error e => rw [k1] at h1; cases h1
  | ok ws1 =>
  cases k2 : (w2.zip e2).mapM fun p => sampled T δ p.1 p.2 with
  | error e => rw [k2] at h2; cases h2
  | ok ws2 =>
  rw [k1] at h1
  rw [k2] at h2
  rw [mapM_append_ok _ _ _ _ _ k1 k2]
  exact measure_append s T δ hT hδ mask hm ws1 ws2 (sampled_inside T δ hδ _ _ k1) (sampled_inside T δ hδ _ _ k2) m hy a1 a2 h1 h2

/-- **C91.** The bits of waveforms that are analysed together are those of each, one after the other. -/
theorem C91_bits (res : ℕ) (T : ℚ) (a1 a2 a : Analysis) (h : Join res T a1 a2 a) (nrzm : Bool) (b1 b2 : List (List ℤ)) (h1 : bits a1 nrzm = .ok b1)
    (h2 : bits a2 nrzm = .ok b2) : bits a nrzm = .ok (b1 ++ b2) := by
  unfold bits bitStream at h1 h2 ⊢
  rcases h.vertical with ⟨-, e, -⟩ | ⟨v1, v2, e1, e2, e⟩
  · rw [e] at h1
    cases h1
  · rw [e1] at h1
    rw [e2] at h2
    rw [e]
    simp only [Bool.not_true, Bool.false_eq_true, if_false, Option.map_some] at h1 h2 ⊢
    obtain rfl := Except.ok.inj h1
    obtain rfl := Except.ok.inj h2
    simp

/-! ### The hypotheses are met -/

/-- A waveform of `exWave` and `exOther` alone can be analysed, with a mask. -/
theorem ex_alone (w : Wave) (e : List ℚ) (hw : (w = exWave ∧ e = [6, 10, 14]) ∨ (w = exOther ∧ e = [12, 16, 20])) :
    ∃ a, calculateAll (exSettings (4 / 5)) (⟨0, 0⟩, ⟨0, 0⟩) (asGiven [e]) none (fun _ => .ok []) (some (sampleHexMask exHexZero)) [w] = .ok a ∧
      a.wfs.length = 1 := by
  have hmask : ∀ ys : List (List ℚ), (∀ y ∈ ys, ∀ v ∈ y, -1 < (v - 0) / (1 - 0 : ℚ) ∧ (v - 0) / (1 - 0 : ℚ) < 2) → ∀ T δ, 0 < T → 0 < δ →
      MaskOk (some (sampleHexMask exHexZero)) (exSettings (4 / 5)).level T δ ys := by
    intro ys hys T δ hT hδ
    refine maskOk_hexagon exHexZero exHexConv _ T δ 0 1 _ hT hδ rfl rfl (by norm_num) ?_ (by decide +kernel) (by decide +kernel)
      (by decide +kernel) (by decide +kernel) hys
    simp [Mask.Hexagon.convert, exHexZero, exHexConv, Mask.convertUnit, Mask.plain, Mask.Hexagon.new, bind, Except.bind, pure, Except.pure]
  rcases hw with ⟨rfl, rfl⟩ | ⟨rfl, rfl⟩
  · obtain ⟨a, h1, -, h3, -⟩ := C69_completes_partial (exSettings (4 / 5)) (⟨0, 0⟩, ⟨0, 0⟩) (asGiven [[6, 10, 14]]) none (fun _ => .ok [])
      (some (sampleHexMask exHexZero)) exWave [] [[6, 10, 14]] 0 39 (by decide +kernel) (by decide +kernel) (by norm_num) (by simp) (by decide +kernel)
      (by decide +kernel) ⟨[6, 10, 14], by simp, by decide⟩ (by decide) (by unfold Drawable; decide +kernel) (by unfold Drawable; decide +kernel)
      (fun T δ hT hδ => hmask _ (by decide +kernel) T δ hT hδ)
    exact ⟨a, h1, h3⟩
  · obtain ⟨a, h1, -, h3, -⟩ := C69_completes_partial (exSettings (4 / 5)) (⟨0, 0⟩, ⟨0, 0⟩) (asGiven [[12, 16, 20]]) none (fun _ => .ok [])
      (some (sampleHexMask exHexZero)) exOther [] [[12, 16, 20]] 2 41 (by decide +kernel) (by decide +kernel) (by norm_num) (by simp) (by decide +kernel)
      (by decide +kernel) ⟨[12, 16, 20], by simp, by decide⟩ (by decide) (by unfold Drawable; decide +kernel) (by unfold Drawable; decide +kernel)
      (fun T δ hT hδ => hmask _ (by decide +kernel) T δ hT hδ)
    exact ⟨a, h1, h3⟩

/-- The hypotheses of C91 are met: two different waveforms, with a mask. -/
example : ∃ a1 a2 a, calculateAll (exSettings (4 / 5)) (⟨0, 0⟩, ⟨0, 0⟩) (asGiven [[6, 10, 14], [12, 16, 20]]) none (fun _ => .ok [])
    (some (sampleHexMask exHexZero)) [exWave, exOther] = .ok a ∧ Join (exSettings (4 / 5)).resolution 4 a1 a2 a ∧ a1.wfs.length = 1 ∧
      a2.wfs.length = 1 := by
  obtain ⟨a1, h1, k1⟩ := ex_alone exWave _ (.inl ⟨rfl, rfl⟩)
  obtain ⟨a2, h2, k2⟩ := ex_alone exOther _ (.inr ⟨rfl, rfl⟩)
  obtain ⟨a, h, hj⟩ := C91_together (exSettings (4 / 5)) (⟨0, 0⟩, ⟨0, 0⟩) (fun _ => .ok []) _ (C91_hexagon exHexZero)
    (.inr ⟨0, 1, rfl, rfl⟩) [exWave] [exOther] [[6, 10, 14]] [[12, 16, 20]] rfl 4 1 (by norm_num) (by norm_num)
    (by
      intro e he
      simp only [List.cons_append, List.nil_append, List.mem_cons, List.not_mem_nil, or_false] at he
      unfold Regular
      rcases he with rfl | rfl <;> norm_num)
    (by decide +kernel) (by decide +kernel) a1 a2 h1 h2
  exact ⟨a1, a2, a, h, hj, k1, k2⟩

/-- The bits of the two waveforms together are those of each. -/
example : (calculateAll (exSettings (4 / 5)) (⟨0, 0⟩, ⟨0, 0⟩) (asGiven [[8, 12, 16], [12, 16, 20]]) none (fun _ => .ok []) none [exWave, exOther] >>=
      fun a => bits a true).toOption =
    ((calculateAll (exSettings (4 / 5)) (⟨0, 0⟩, ⟨0, 0⟩) (asGiven [[8, 12, 16]]) none (fun _ => .ok []) none [exWave] >>= fun a => bits a true).toOption.bind
      fun b1 => (calculateAll (exSettings (4 / 5)) (⟨0, 0⟩, ⟨0, 0⟩) (asGiven [[12, 16, 20]]) none (fun _ => .ok []) none [exOther] >>=
        fun a => bits a true).toOption.map fun b2 => b1 ++ b2) := by decide +kernel

end Verif.Props.Together
