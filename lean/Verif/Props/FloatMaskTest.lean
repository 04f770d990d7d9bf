import Verif.Props.FloatMask

/-!
C112: the mask test in floats, against the exact masks.
-/

namespace Verif.Props.FloatMaskTest

open Verif Verif.Lines Verif.Mask Verif.Eye Verif.Float Verif.Props.Float Verif.Props.FloatEye Verif.Props.EyeMask Verif.Props.Intersect
  Verif.Props.Mask Verif.Props.FloatMask Verif.Props.FloatStats

/-! ### Specification -/

/-- The segments `pq` and `rs` cross by an area of at least `κ` (for negative `κ`: they miss each other by no more than that). -/
def CrossArea (κ : ℚ) (p q r s : Pt) : Prop :=
  ∃ σ : ℚ, (σ = 1 ∨ σ = -1) ∧ κ ≤ -σ * area r s p ∧ κ ≤ σ * area r s q ∧ κ ≤ σ * area p q r ∧ κ ≤ -σ * area p q s

/-- A segment of the waveform crosses a segment of a path by at least `κ`. -/
def ThroughBy (κ : ℚ) (w : List Pt) (paths : List (List Pt)) : Prop :=
  ∃ path ∈ paths, ∃ a ∈ pairs w, ∃ e ∈ pairs path, CrossArea κ a.2 a.1 e.2 e.1

/-- The waveform stays clear of the paths by more than `κ`. -/
def ClearBy (κ : ℚ) (w : List Pt) (paths : List (List Pt)) : Prop :=
  ∀ path ∈ paths, ∀ a ∈ pairs w, ∀ e ∈ pairs path, ¬ CrossArea (-κ) a.2 a.1 e.2 e.1

/-- A symbol as the eye diagram sees it. -/
def symbol (F : Floats) (T δ yZero yUa : ℚ) (w : Wf) (c : Center) : List Pt :=
  windowF F.toRounding (normaliseF F.toRounding w.y yZero yUa) T δ c

/-- A reported hit: a point, up to the rounding of its coordinates, of a segment of the waveform that crosses a segment of a path or misses it by no
more than `κ`. -/
def HitBy (u κ : ℚ) (w : List Pt) (paths : List (List Pt)) (z : Pt) : Prop :=
  ∃ path ∈ paths, ∃ a ∈ pairs w, ∃ e ∈ pairs path, CrossArea (-κ) a.2 a.1 e.2 e.1 ∧ ∃ t, 0 ≤ t ∧ t ≤ 1 ∧ NearPoint u a.2 a.1 t z

/-- The hits of the offenders `o` of one waveform: at least one for each of them, in order. -/
def HitsOf (F : Floats) (κ : ℚ) (P : List (List Pt)) (T δ yZero yUa : ℚ) (w : Wf) (o : List ℕ) (hs : List (List Pt)) : Prop :=
  List.Forall₂ (fun i h => h ≠ [] ∧ ∃ c, w.centers[i]? = some c ∧ ∀ z ∈ h, HitBy F.u κ (symbol F T δ yZero yUa w c) P z) o hs

/-- What `_sample_mask` has to return for exact paths `P f` at margin `f`: the margin is one of the margins tested, below every margin at
which a symbol goes through the mask and through all larger ones, and not below a margin at which all symbols stay clear of the mask; the symbols
that go through the mask and all larger ones are offenders, those that stay clear are not; offenders are counted, and their hits are reported. -/
structure Judged (F : Floats) (κ : ℚ) (P : ℚ → List (List Pt)) (T δ yZero yUa : ℚ) (wfs : List Wf) (r : MaskAll) : Prop where
  tested : ∃ f ∈ margins, r.margin = F.fl f
  below : ∀ w ∈ wfs, ∀ c ∈ w.centers, ∀ f ∈ margins, f ≠ -1 → (∀ g ∈ margins, f ≤ g → ThroughBy κ (symbol F T δ yZero yUa w c) (P g)) →
    r.margin < F.fl f
  above : ∀ f ∈ margins, (∀ w ∈ wfs, ∀ c ∈ w.centers, ClearBy κ (symbol F T δ yZero yUa w c) (P f)) → F.fl f ≤ r.margin
  offenders : List.Forall₂ (fun w o => List.Sublist o (List.range w.centers.length) ∧ ∀ i (h : i < w.centers.length),
    ((∀ g ∈ margins, 0 ≤ g → ThroughBy κ (symbol F T δ yZero yUa w w.centers[i]) (P g)) → i ∈ o) ∧
    (ClearBy κ (symbol F T δ yZero yUa w w.centers[i]) (P 0) → i ∉ o)) wfs r.offenders
  count : r.count = (r.offenders.map List.length).sum
  hits : ∃ hss : List (List (List Pt)), r.hits = hss.flatten.flatten ∧
    List.Forall₂ (fun (wo : Wf × List ℕ) hs => HitsOf F κ (P 0) T δ yZero yUa wo.1 wo.2 hs) (wfs.zip r.offenders) hss

/-! ### Areas -/

theorem area_move {B η : ℚ} (hη : 0 ≤ η) (hηB : η ≤ B) {p r s r' s' : Pt} (hp : |p.1| ≤ B ∧ |p.2| ≤ B) (hr : |r.1| ≤ B ∧ |r.2| ≤ B)
    (hs : |s.1| ≤ B ∧ |s.2| ≤ B) (nr : Near η r' r) (ns : Near η s' s) : |area r' s' p - area r s p| ≤ 16 * B * η := by
  have two : ∀ a b : ℚ, |a| ≤ B → |b| ≤ B → |a - b| ≤ 2 * B := by
    intro a b ha hb
    have := abs_sub a b
    linarith
  have m1 : ∀ a b b' : ℚ, |b' - b| ≤ η → |(a - b') - (a - b)| ≤ η := by
    intro a b b' h
    rw [show (a - b') - (a - b) = -(b' - b) by ring, abs_neg]
    exact h
  have m2 : ∀ a a' b b' : ℚ, |a' - a| ≤ η → |b' - b| ≤ η → |(a' - b') - (a - b)| ≤ 2 * η := by
    intro a a' b b' h h'
    rw [show (a' - b') - (a - b) = (a' - a) - (b' - b) by ring]
    have := abs_sub (a' - a) (b' - b)
    linarith
  have k1 := mul_near (m1 p.1 _ _ nr.1) (m2 _ _ _ _ ns.2 nr.2) (two _ _ hp.1 hr.1) (two _ _ hs.2 hr.2)
  have k2 := mul_near (m1 p.2 _ _ nr.2) (m2 _ _ _ _ ns.1 nr.1) (two _ _ hp.2 hr.2) (two _ _ hs.1 hr.1)
  have e : area r' s' p - area r s p = ((p.1 - r'.1) * (s'.2 - r'.2) - (p.1 - r.1) * (s.2 - r.2)) -
      ((p.2 - r'.2) * (s'.1 - r'.1) - (p.2 - r.2) * (s.1 - r.1)) := by
    simp only [area, cross, sub]
    ring
  rw [e]
  refine (abs_sub _ _).trans ?_
  have q : η * η ≤ B * η := mul_le_mul_of_nonneg_right hηB hη
  linarith

theorem area_move' {B η : ℚ} {p q r r' : Pt} (hp : |p.1| ≤ B ∧ |p.2| ≤ B) (hq : |q.1| ≤ B ∧ |q.2| ≤ B) (hr : |r.1| ≤ B ∧ |r.2| ≤ B)
    (nr : Near η r' r) : |area p q r' - area p q r| ≤ 4 * B * η := by
  have two : ∀ a b : ℚ, |a| ≤ B → |b| ≤ B → |a - b| ≤ 2 * B := by
    intro a b ha hb
    have := abs_sub a b
    linarith
  have m1 : ∀ a a' b : ℚ, |a' - a| ≤ η → |(a' - b) - (a - b)| ≤ η := by
    intro a a' b h
    rw [show (a' - b) - (a - b) = a' - a by ring]
    exact h
  have z : ∀ a : ℚ, |a - a| ≤ 0 := by intro a; rw [sub_self, abs_zero]
  have k1 := mul_near (m1 _ _ p.1 nr.1) (z (q.2 - p.2)) (two _ _ hr.1 hp.1) (two _ _ hq.2 hp.2)
  have k2 := mul_near (m1 _ _ p.2 nr.2) (z (q.1 - p.1)) (two _ _ hr.2 hp.2) (two _ _ hq.1 hp.1)
  have e : area p q r' - area p q r = ((r'.1 - p.1) * (q.2 - p.2) - (r.1 - p.1) * (q.2 - p.2)) -
      ((r'.2 - p.2) * (q.1 - p.1) - (r.2 - p.2) * (q.1 - p.1)) := by
    simp only [area, cross, sub]
    ring
  rw [e]
  refine (abs_sub _ _).trans ?_
  linarith

theorem size_le {A C : ℚ} {a b : Pt} (ha : |a.1| ≤ A ∧ |a.2| ≤ A) (hb : |b.1| ≤ C ∧ |b.2| ≤ C) : 0 ≤ size a b ∧ size a b ≤ 2 * (A * C) := by
  have hA : 0 ≤ A := (abs_nonneg _).trans ha.1
  have h1 := mul_le_mul ha.1 hb.2 (abs_nonneg _) hA
  have h2 := mul_le_mul ha.2 hb.1 (abs_nonneg _) hA
  unfold size
  rw [abs_mul, abs_mul]
  exact ⟨by positivity, by linarith⟩

theorem sub_le {A C : ℚ} {a b : Pt} (ha : |a.1| ≤ A ∧ |a.2| ≤ A) (hb : |b.1| ≤ C ∧ |b.2| ≤ C) : |(sub a b).1| ≤ A + C ∧ |(sub a b).2| ≤ A + C := by
  have h1 := abs_sub a.1 b.1
  have h2 := abs_sub a.2 b.2
  exact ⟨by simp only [sub]; linarith, by simp only [sub]; linarith⟩

theorem near_le {B η : ℚ} (hηB : η ≤ B) {r r' : Pt} (hr : |r.1| ≤ B ∧ |r.2| ≤ B) (nr : Near η r' r) : |r'.1| ≤ 2 * B ∧ |r'.2| ≤ 2 * B := by
  have h1 := abs_sub_abs_le_abs_sub r'.1 r.1
  have h2 := abs_sub_abs_le_abs_sub r'.2 r.2
  exact ⟨by linarith [nr.1, hr.1], by linarith [nr.2, hr.2]⟩

theorem cross_move (R : Rounding) {B η κ : ℚ} (hη : 0 ≤ η) (hηB : η ≤ B) (hκ : 200 * R.u * B ^ 2 + 16 * B * η < κ) {p q r s r' s' : Pt}
    (hp : |p.1| ≤ B ∧ |p.2| ≤ B) (hq : |q.1| ≤ B ∧ |q.2| ≤ B) (hr : |r.1| ≤ B ∧ |r.2| ≤ B) (hs : |s.1| ≤ B ∧ |s.2| ≤ B)
    (nr : Near η r' r) (ns : Near η s' s) :
    (CrossArea κ p q r s → ¬ Parallel p q r' s' ∧ CrossBy 5 R.u p q r' s') ∧ (CrossBy (-5) R.u p q r' s' → CrossArea (-κ) p q r s) := by
  have hB : 0 ≤ B := hη.trans hηB
  have u0 := R.u_nonneg
  have a1 := abs_le.1 (area_move hη hηB hp hr hs nr ns)
  have a2 := abs_le.1 (area_move hη hηB hq hr hs nr ns)
  have a3 := abs_le.1 (area_move' hp hq hr nr)
  have a4 := abs_le.1 (area_move' hp hq hs ns)
  have hr' := near_le hηB hr nr
  have hs' := near_le hηB hs ns
  obtain ⟨s1, t1⟩ := size_le (sub_le hp hr') (sub_le hr' hs')
  obtain ⟨s2, t2⟩ := size_le (sub_le hp hq) (sub_le hr' hs')
  obtain ⟨s3, t3⟩ := size_le (sub_le hp hr') (sub_le hp hq)
  have hBη : 0 ≤ B * η := mul_nonneg hB hη
  have hB2 : 0 ≤ B ^ 2 := by positivity
  have scale : ∀ x : ℚ, 0 ≤ x → x ≤ 40 * B ^ 2 → 0 ≤ R.u * x ∧ 5 * (R.u * x) ≤ 200 * R.u * B ^ 2 := by
    intro x h0 h
    have := mul_le_mul_of_nonneg_left h u0
    exact ⟨by positivity, by linarith⟩
  have c1 := scale _ s1 (by linarith)
  have c2 := scale _ (add_nonneg s1 s2) (by linarith)
  have c3 := scale _ s3 (by linarith)
  have c4 := scale _ (add_nonneg s3 s2) (by linarith)
  have e := (dets p q r' s').2.2.2.1
  have par : Parallel p q r' s' → cross (sub p q) (sub r' s') = 0 := by
    intro h
    unfold Parallel at h
    simp only [cross, sub]
    linarith
  have hu2 : 0 ≤ 200 * R.u * B ^ 2 := by positivity
  have move : ∀ z k : ℚ, k * R.u * z = k * (R.u * z) := by intro z k; ring
  constructor
  · rintro ⟨σ, rfl | rfl, h1, h2, h3, h4⟩
    · refine ⟨fun h => ?_, 1, .inl rfl, ?_, ?_, ?_, ?_⟩
      · rw [par h] at e
        linarith
      all_goals rw [move]
      all_goals linarith
    · refine ⟨fun h => ?_, -1, .inr rfl, ?_, ?_, ?_, ?_⟩
      · rw [par h] at e
        linarith
      all_goals rw [move]
      all_goals linarith
  · rintro ⟨σ, rfl | rfl, h1, h2, h3, h4⟩
    · rw [move] at h1 h2 h3 h4
      exact ⟨1, .inl rfl, by linarith, by linarith, by linarith, by linarith⟩
    · rw [move] at h1 h2 h3 h4
      exact ⟨-1, .inr rfl, by linarith, by linarith, by linarith, by linarith⟩

/-! ### Segments of the paths -/

theorem pairs_mem {l : List Pt} {a : Pt × Pt} (h : a ∈ pairs l) : a.1 ∈ l ∧ a.2 ∈ l := by
  obtain ⟨k, hk, rfl⟩ := pairs_get l a h
  exact ⟨List.getElem_mem _, List.getElem_mem _⟩

theorem pairs_near {η : ℚ} {l' l : List Pt} (h : List.Forall₂ (Near η) l' l) :
    (∀ a ∈ pairs l, ∃ a' ∈ pairs l', Near η a'.1 a.1 ∧ Near η a'.2 a.2) ∧ (∀ a' ∈ pairs l', ∃ a ∈ pairs l, Near η a'.1 a.1 ∧ Near η a'.2 a.2) := by
  induction h with
  | nil => simp [pairs]
  | @cons x' x l' l hx h ih =>
    cases h with
    | nil => simp [pairs]
    | @cons y' y l' l hy h =>
      have hp : pairs (x :: y :: l) = (x, y) :: pairs (y :: l) := rfl
      have hp' : pairs (x' :: y' :: l') = (x', y') :: pairs (y' :: l') := rfl
      rw [hp, hp']
      constructor
      · intro a ha
        rcases List.mem_cons.1 ha with rfl | ha
        · exact ⟨_, List.mem_cons_self, hx, hy⟩
        · obtain ⟨a', m, n⟩ := ih.1 a ha
          exact ⟨a', List.mem_cons_of_mem _ m, n⟩
      · intro a ha
        rcases List.mem_cons.1 ha with rfl | ha
        · exact ⟨_, List.mem_cons_self, hx, hy⟩
        · obtain ⟨a', m, n⟩ := ih.2 a ha
          exact ⟨a', List.mem_cons_of_mem _ m, n⟩

theorem paths_near {η : ℚ} {P' P : List (List Pt)} (h : NearPaths η P' P) :
    (∀ p ∈ P, ∃ p' ∈ P', List.Forall₂ (Near η) p' p) ∧ (∀ p' ∈ P', ∃ p ∈ P, List.Forall₂ (Near η) p' p) := by
  unfold NearPaths at h
  induction h with
  | nil => simp
  | @cons x' x l' l hx h ih =>
    constructor
    · intro p hp
      rcases List.mem_cons.1 hp with rfl | hp
      · exact ⟨_, List.mem_cons_self, hx⟩
      · obtain ⟨a', m, n⟩ := ih.1 p hp
        exact ⟨a', List.mem_cons_of_mem _ m, n⟩
    · intro p hp
      rcases List.mem_cons.1 hp with rfl | hp
      · exact ⟨_, List.mem_cons_self, hx⟩
      · obtain ⟨a', m, n⟩ := ih.2 p hp
        exact ⟨a', List.mem_cons_of_mem _ m, n⟩

/-- Going through a mask, or staying clear of it, by more than the errors of its corners: the same is true of the mask in floats. -/
theorem judge_move (R : Rounding) {B η κ : ℚ} (hη : 0 ≤ η) (hηB : η ≤ B) (hκ : 200 * R.u * B ^ 2 + 16 * B * η < κ) {w : List Pt}
    (hw : ∀ p ∈ w, |p.1| ≤ B ∧ |p.2| ≤ B) {P' P : List (List Pt)} (hP : PathsWithin B P) (h : NearPaths η P' P) :
    (ThroughBy κ w P → Through R.u w P') ∧ (ClearBy κ w P → Clear R.u w P') := by
  obtain ⟨n1, n2⟩ := paths_near h
  constructor
  · rintro ⟨p, hp, a, ha, e, he, hc⟩
    obtain ⟨p', hp', np⟩ := n1 p hp
    obtain ⟨e', he', ne1, ne2⟩ := (pairs_near np).1 e he
    have k := (cross_move R hη hηB hκ (hw _ (pairs_mem ha).2) (hw _ (pairs_mem ha).1) (hP p hp _ (pairs_mem he).2) (hP p hp _ (pairs_mem he).1)
      ne2 ne1).1 hc
    exact ⟨p', hp', a, ha, e', he', k⟩
  · intro hc p' hp' a ha e' he' hx
    obtain ⟨p, hp, np⟩ := n2 p' hp'
    obtain ⟨e, he, ne1, ne2⟩ := (pairs_near np).2 e' he'
    exact hc p hp a ha e he ((cross_move R hη hηB hκ (hw _ (pairs_mem ha).2) (hw _ (pairs_mem ha).1) (hP p hp _ (pairs_mem he).2)
      (hP p hp _ (pairs_mem he).1) ne2 ne1).2 hx)

theorem hit_move (F : Floats) {B η κ : ℚ} (hη : 0 ≤ η) (hηB : η ≤ B) (hκ : 200 * F.u * B ^ 2 + 16 * B * η < κ) {w : List Pt}
    (hw : ∀ p ∈ w, |p.1| ≤ B ∧ |p.2| ≤ B) {P' P : List (List Pt)} (hP : PathsWithin B P) (h : NearPaths η P' P) (l : List Pt)
    (hl : hitsF F.toRounding w P' = .ok l) : ∀ z ∈ l, HitBy F.u κ w P z := by
  intro z hz
  obtain ⟨p', hp', a, ha, e', he', hc, t, h0, h1, hn⟩ := C80_hits_reported F.toRounding w P' l hl z hz
  obtain ⟨p, hp, np⟩ := (paths_near h).2 p' hp'
  obtain ⟨e, he, ne1, ne2⟩ := (pairs_near np).2 e' he'
  exact ⟨p, hp, a, ha, e, he, (cross_move F.toRounding hη hηB hκ (hw _ (pairs_mem ha).2) (hw _ (pairs_mem ha).1) (hP p hp _ (pairs_mem he).2)
    (hP p hp _ (pairs_mem he).1) ne2 ne1).2 hc, t, h0, h1, hn⟩

/-! ### Margins -/

theorem marginsF_eq (R : Rounding) : marginsF R = margins.map R.fl := by
  simp [marginsF, margins]

theorem margins_gap {f g : ℚ} (hf : f ∈ margins) (hg : g ∈ margins) (h : f < g) : f + 1 / 1000 ≤ g := by
  obtain ⟨k, -, -, rfl⟩ := (mem_margins f).1 hf
  obtain ⟨l, -, -, rfl⟩ := (mem_margins g).1 hg
  have h1 : (k : ℚ) < l := by linarith
  have h2 : k < l := by exact_mod_cast h1
  have h3 : k + 1 ≤ l := h2
  have h4 : (k : ℚ) + 1 ≤ l := by exact_mod_cast h3
  linarith

theorem margins_lt (R : Rounding) (hu : 4000 * R.u < 1) {f g : ℚ} (hf : f ∈ margins) (hg : g ∈ margins) (h : f < g) : R.fl f < R.fl g := by
  have h1 := abs_le.1 (margin_near R (margins_range f hf))
  have h2 := abs_le.1 (margin_near R (margins_range g hg))
  have h3 := margins_gap hf hg h
  linarith

theorem marginsF_desc (R : Rounding) (hu : 4000 * R.u < 1) : (marginsF R).Pairwise (· > ·) := by
  rw [marginsF_eq, List.pairwise_map]
  refine List.Pairwise.imp_of_mem ?_ margins_desc
  intro a b ha hb h
  exact margins_lt R hu hb ha h

/-! ### The loop over the waveforms -/

theorem maskLoopF_ok (R : Rounding) (δ T yZero yUa : ℚ) (paths : List (List (List Pt))) (wfs : List Wf) (outs : List MaskOut)
    (h : List.Forall₂ (fun w o => sampleMaskF R w.y w.centers δ T yZero yUa paths (marginsF R) = .ok o) wfs outs) : ∀ a : MaskAll,
    maskLoopF R δ T yZero yUa paths wfs a = .ok ⟨a.offenders ++ outs.map (·.offenders), a.hits ++ outs.flatMap (·.hits),
      outs.foldl (fun m o => min m o.margin) a.margin, a.count + (outs.map (·.offenders.length)).sum⟩ := by
  induction h with
  | nil => intro a; simp [maskLoopF]
  | @cons w o wfs outs hw h ih =>
    intro a
    unfold maskLoopF
    rw [hw]
    simp only [bind, Except.bind]
    rw [ih]
    simp [Nat.add_assoc]

theorem foldl_min (outs : List MaskOut) : ∀ a : ℚ, (outs.foldl (fun m o => min m o.margin) a ≤ a) ∧
    (∀ o ∈ outs, outs.foldl (fun m o => min m o.margin) a ≤ o.margin) ∧
    (∀ x, x ≤ a → (∀ o ∈ outs, x ≤ o.margin) → x ≤ outs.foldl (fun m o => min m o.margin) a) ∧
    (outs.foldl (fun m o => min m o.margin) a = a ∨ ∃ o ∈ outs, outs.foldl (fun m o => min m o.margin) a = o.margin) := by
  induction outs with
  | nil => intro a; simp
  | cons o outs ih =>
    intro a
    obtain ⟨h1, h2, h3, h4⟩ := ih (min a o.margin)
    simp only [List.foldl_cons]
    refine ⟨h1.trans (min_le_left _ _), ?_, ?_, ?_⟩
    · intro o' ho'
      rcases List.mem_cons.1 ho' with rfl | ho'
      · exact h1.trans (min_le_right _ _)
      · exact h2 o' ho'
    · intro x hx hxo
      exact h3 x (le_min hx (hxo o (by simp))) fun o' ho' => hxo o' (List.mem_cons_of_mem _ ho')
    · rcases h4 with h4 | ⟨o', ho', e⟩
      · rw [h4]
        rcases min_choice a o.margin with h | h
        · exact .inl h
        · exact .inr ⟨o, by simp, h⟩
      · exact .inr ⟨o', List.mem_cons_of_mem _ ho', e⟩

/-- The mask test for one waveform. -/
theorem waveform (F : Floats) (δ T yZero yUa : ℚ) (hT : 0 < T) (hδ : 0 < δ) (hu : 4000 * F.u < 1) (hwid : 8 * iWidthF F.toRounding T δ * F.u ≤ 1)
    {B η κ : ℚ} (hη : 0 ≤ η) (hηB : η ≤ B) (hκ : 200 * F.u * B ^ 2 + 16 * B * η < κ) (P P' : ℚ → List (List Pt))
    (hP : ∀ f ∈ margins, NearPaths η (P' (F.fl f)) (P f) ∧ PathsWithin B (P f) ∧ ∀ q ∈ P f, q ≠ []) (w : Wf)
    (hin : ∀ c ∈ w.centers, InsideF F.toRounding T δ w.y.length c)
    (hB : ∀ c ∈ w.centers, ∀ p ∈ symbol F T δ yZero yUa w c, |p.1| ≤ B ∧ |p.2| ≤ B) :
    ∃ o, sampleMaskF F.toRounding w.y w.centers δ T yZero yUa ((marginsF F.toRounding).map P') (marginsF F.toRounding) = .ok o ∧
      (∃ f ∈ margins, o.margin = F.fl f) ∧
      (∀ c ∈ w.centers, ∀ f ∈ margins, f ≠ -1 → (∀ g ∈ margins, f ≤ g → ThroughBy κ (symbol F T δ yZero yUa w c) (P g)) → o.margin < F.fl f) ∧
      (∀ f ∈ margins, (∀ c ∈ w.centers, ClearBy κ (symbol F T δ yZero yUa w c) (P f)) → F.fl f ≤ o.margin) ∧
      (o.offenders.Sublist (List.range w.centers.length) ∧ ∀ i (h : i < w.centers.length),
        ((∀ g ∈ margins, 0 ≤ g → ThroughBy κ (symbol F T δ yZero yUa w w.centers[i]) (P g)) → i ∈ o.offenders) ∧
        (ClearBy κ (symbol F T δ yZero yUa w w.centers[i]) (P 0) → i ∉ o.offenders)) ∧
      ∃ hs, o.hits = hs.flatten ∧ HitsOf F κ (P 0) T δ yZero yUa w o.offenders hs := by
  have hzm : (0 : ℚ) ∈ margins := (mem_margins 0).2 ⟨0, by norm_num, by norm_num, by norm_num⟩
  have hlt := fun {f g : ℚ} => margins_lt F.toRounding hu (f := f) (g := g)
  have hle : ∀ f ∈ margins, ∀ g ∈ margins, F.fl f ≤ F.fl g → f ≤ g := by
    intro f hf g hg h
    by_contra hc
    exact absurd (hlt hg hf (not_le.1 hc)) (not_lt.2 h)
  have mem : ∀ g ∈ marginsF F.toRounding, ∃ f ∈ margins, g = F.fl f := by
    intro g hg
    rw [marginsF_eq] at hg
    obtain ⟨f, hf, rfl⟩ := List.mem_map.1 hg
    exact ⟨f, hf, rfl⟩
  have mem' : ∀ f ∈ margins, F.fl f ∈ marginsF F.toRounding := by
    intro f hf
    rw [marginsF_eq]
    exact List.mem_map_of_mem hf
  have through : ∀ c ∈ w.centers, ∀ f ∈ margins, ThroughBy κ (symbol F T δ yZero yUa w c) (P f) → Through F.u (symbol F T δ yZero yUa w c) (P' (F.fl f)) :=
    fun c hc f hf => (judge_move F.toRounding hη hηB hκ (hB c hc) (hP f hf).2.1 (hP f hf).1).1
  have clear : ∀ c ∈ w.centers, ∀ f ∈ margins, ClearBy κ (symbol F T δ yZero yUa w c) (P f) → Clear F.u (symbol F T δ yZero yUa w c) (P' (F.fl f)) :=
    fun c hc f hf => (judge_move F.toRounding hη hηB hκ (hB c hc) (hP f hf).2.1 (hP f hf).1).2
  have hz : (marginsF F.toRounding)[(marginsF F.toRounding).length / 2]? = some (F.fl 0) := by
    rw [marginsF_eq, List.getElem?_map, List.length_map, margins_zero]
    rfl
  obtain ⟨o, e, h1, h2, h3, h4, h5, h6, hs, eh, hh⟩ := C82_mask F w.y w.centers δ T yZero yUa hT hδ hin hwid P' (marginsF F.toRounding)
    (marginsF_desc F.toRounding hu) (F.fl 0) hz (by
      intro g hg q hq
      obtain ⟨f, hf, rfl⟩ := mem g hg
      obtain ⟨p, hp, np⟩ := (paths_near (hP f hf).1).2 q hq
      rintro rfl
      have := np.length_eq
      exact (hP f hf).2.2 p hp (List.length_eq_zero_iff.1 (by simpa using this.symm)))
  refine ⟨o, e, mem _ h1, ?_, ?_, ⟨h4, ?_⟩, hs, eh, ?_⟩
  · intro c hc f hf hne h
    rcases h2 c hc (F.fl f) (mem' f hf) (by
      intro g' hg' hfg
      obtain ⟨g, hg, rfl⟩ := mem g' hg'
      exact through c hc g hg (h g hg (hle f hf g hg hfg))) with h | h
    · exact h
    · exfalso
      rw [marginsF_eq, List.getLast?_map, margins_last] at h
      have h' : F.fl (-1) = F.fl f := Option.some.inj h
      have hm : (-1 : ℚ) ∈ margins := (mem_margins _).2 ⟨-1000, by norm_num, by norm_num, by norm_num⟩
      have := hlt hm hf (lt_of_le_of_ne (margins_range f hf).1 (Ne.symm hne))
      linarith
  · intro f hf h
    exact h3 (F.fl f) (mem' f hf) fun c hc => clear c hc f hf (h c hc)
  · intro i hi
    refine ⟨fun h => h5 i hi ?_, fun h => h6 i hi ?_⟩
    · intro g' hg' h0
      obtain ⟨g, hg, rfl⟩ := mem g' hg'
      exact through _ (List.getElem_mem _) g hg (h g hg (hle 0 hzm g hg h0))
    · exact clear _ (List.getElem_mem _) 0 hzm h
  · refine hh.imp fun i h hi => ?_
    obtain ⟨c, ec, hne, eh⟩ := hi
    exact ⟨hne, c, ec, hit_move F hη hηB hκ (hB c (List.mem_of_getElem? ec)) (hP 0 hzm).2.1 (hP 0 hzm).1 h eh⟩

/-- The mask test for all waveforms, for any paths that are off by no more than `η`. -/
theorem judged (F : Floats) (δ T yZero yUa : ℚ) (hT : 0 < T) (hδ : 0 < δ) (hu : 4000 * F.u < 1) (hwid : 8 * iWidthF F.toRounding T δ * F.u ≤ 1)
    {B η κ : ℚ} (hη : 0 ≤ η) (hηB : η ≤ B) (hκ : 200 * F.u * B ^ 2 + 16 * B * η < κ) (P P' : ℚ → List (List Pt))
    (hP : ∀ f ∈ margins, NearPaths η (P' (F.fl f)) (P f) ∧ PathsWithin B (P f) ∧ ∀ q ∈ P f, q ≠ []) (wfs : List Wf)
    (hin : ∀ w ∈ wfs, ∀ c ∈ w.centers, InsideF F.toRounding T δ w.y.length c)
    (hB : ∀ w ∈ wfs, ∀ c ∈ w.centers, ∀ p ∈ symbol F T δ yZero yUa w c, |p.1| ≤ B ∧ |p.2| ≤ B) :
    ∃ r, maskLoopF F.toRounding δ T yZero yUa ((marginsF F.toRounding).map P') wfs ⟨[], [], 1, 0⟩ = .ok r ∧ Judged F κ P T δ yZero yUa wfs r := by
  have hone : (1 : ℚ) ∈ margins := (mem_margins 1).2 ⟨1000, by norm_num, by norm_num, by norm_num⟩
  have each := fun w hw => waveform F δ T yZero yUa hT hδ hu hwid hη hηB hκ P P' hP w (hin w hw) (hB w hw)
  have ex : ∃ outs : List MaskOut, List.Forall₂ (fun w o =>
      sampleMaskF F.toRounding w.y w.centers δ T yZero yUa ((marginsF F.toRounding).map P') (marginsF F.toRounding) = .ok o ∧
      (∃ f ∈ margins, o.margin = F.fl f) ∧
      (∀ c ∈ w.centers, ∀ f ∈ margins, f ≠ -1 → (∀ g ∈ margins, f ≤ g → ThroughBy κ (symbol F T δ yZero yUa w c) (P g)) → o.margin < F.fl f) ∧
      (∀ f ∈ margins, (∀ c ∈ w.centers, ClearBy κ (symbol F T δ yZero yUa w c) (P f)) → F.fl f ≤ o.margin) ∧
      (o.offenders.Sublist (List.range w.centers.length) ∧ ∀ i (h : i < w.centers.length),
        ((∀ g ∈ margins, 0 ≤ g → ThroughBy κ (symbol F T δ yZero yUa w w.centers[i]) (P g)) → i ∈ o.offenders) ∧
        (ClearBy κ (symbol F T δ yZero yUa w w.centers[i]) (P 0) → i ∉ o.offenders)) ∧
      ∃ hs, o.hits = hs.flatten ∧ HitsOf F κ (P 0) T δ yZero yUa w o.offenders hs) wfs outs := by
    clear hin hB
    induction wfs with
    | nil => exact ⟨[], .nil⟩
    | cons w wfs ih =>
      obtain ⟨o, ho⟩ := each w (by simp)
      obtain ⟨outs, hs⟩ := ih fun v hv => each v (List.mem_cons_of_mem _ hv)
      exact ⟨o :: outs, .cons ho hs⟩
  obtain ⟨outs, ho⟩ := ex
  have e := maskLoopF_ok F.toRounding δ T yZero yUa ((marginsF F.toRounding).map P') wfs outs (ho.imp fun w o h => h.1) ⟨[], [], 1, 0⟩
  have left : ∀ w ∈ wfs, ∃ o ∈ outs, ∀ c ∈ w.centers, ∀ f ∈ margins, f ≠ -1 →
      (∀ g ∈ margins, f ≤ g → ThroughBy κ (symbol F T δ yZero yUa w c) (P g)) → o.margin < F.fl f := by
    clear e each hin hB
    induction ho with
    | nil => simp
    | @cons w o wfs outs h hs ih =>
      intro v hv
      rcases List.mem_cons.1 hv with rfl | hv
      · exact ⟨o, by simp, h.2.2.1⟩
      · obtain ⟨o', m, n⟩ := ih v hv
        exact ⟨o', List.mem_cons_of_mem _ m, n⟩
  have right : ∀ o ∈ outs, (∃ f ∈ margins, o.margin = F.fl f) ∧ ∃ w ∈ wfs,
      ∀ f ∈ margins, (∀ c ∈ w.centers, ClearBy κ (symbol F T δ yZero yUa w c) (P f)) → F.fl f ≤ o.margin := by
    clear e each hin hB left
    induction ho with
    | nil => simp
    | @cons w o wfs outs h hs ih =>
      intro v hv
      rcases List.mem_cons.1 hv with rfl | hv
      · exact ⟨h.2.1, w, by simp, h.2.2.2.1⟩
      · obtain ⟨q, w', m, n⟩ := ih v hv
        exact ⟨q, w', List.mem_cons_of_mem _ m, n⟩
  obtain ⟨m1, m2, m3, m4⟩ := foldl_min outs 1
  have hits : ∃ hss : List (List (List Pt)), outs.flatMap (·.hits) = hss.flatten.flatten ∧
      List.Forall₂ (fun (wo : Wf × List ℕ) hs => HitsOf F κ (P 0) T δ yZero yUa wo.1 wo.2 hs) (wfs.zip (outs.map (·.offenders))) hss := by
    clear e each hin hB left right m1 m2 m3 m4
    induction ho with
    | nil => exact ⟨[], rfl, .nil⟩
    | @cons w o wfs outs h hs ih =>
      obtain ⟨hss, e1, e2⟩ := ih
      obtain ⟨hs, e3, e4⟩ := h.2.2.2.2.2
      refine ⟨hs :: hss, ?_, .cons e4 e2⟩
      rw [List.flatMap_cons, e1, e3, List.flatten_cons, List.flatten_append]
  refine ⟨_, e, ?_, ?_, ?_, ?_, ?_, hits⟩
  · rcases m4 with m4 | ⟨o, ho, m4⟩
    · exact ⟨1, hone, by simp only [m4, F.one]⟩
    · obtain ⟨⟨f, hf, ef⟩, -⟩ := right o ho
      exact ⟨f, hf, by simp only [m4, ef]⟩
  · intro w hw c hc f hf hne h
    obtain ⟨o, ho, hl⟩ := left w hw
    exact lt_of_le_of_lt (m2 o ho) (hl c hc f hf hne h)
  · intro f hf h
    refine m3 _ ?_ ?_
    · have := F.mono f 1 (margins_range f hf).2
      rw [F.one] at this
      exact this
    · intro o ho
      obtain ⟨-, w, hw, hr⟩ := right o ho
      exact hr f hf (h w hw)
  · simp only [List.nil_append]
    rw [List.forall₂_map_right_iff]
    exact ho.imp fun w o h => h.2.2.2.2.1
  · simp only [List.nil_append, List.map_map, Nat.zero_add]
    rfl

/-! ### Hexagons and decagons -/

/-- The paths of a mask in floats at a margin (none if it cannot be adjusted). -/
def hexPF (R : Rounding) (c : Hexagon) (f : ℚ) : List (List Pt) :=
  match hexAdjustF R c f with
  | .ok m => (match hexPathsF R m with | .ok p => p | .error _ => [])
  | .error _ => []

/-- The paths of a mask in floats at a margin (none if it cannot be adjusted). -/
def decPF (R : Rounding) (c : Decagon) (f : ℚ) : List (List Pt) :=
  match decAdjustF R c f with
  | .ok m => (match decPathsF R m with | .ok p => p | .error _ => [])
  | .error _ => []

theorem error_le (R : Rounding) {K B : ℚ} (hK : 1 ≤ K) (hB : 4 * K ≤ B) : 0 ≤ 50 * (R.u * K) ∧ 50 * (R.u * K) ≤ B := by
  have h0 := (unit_le R hK).1
  have := mul_le_mul_of_nonneg_right R.u_small (by linarith : 0 ≤ K)
  exact ⟨by linarith, by linarith⟩

theorem within_mono {A B : ℚ} (h : A ≤ B) {P : List (List Pt)} (hP : PathsWithin A P) : PathsWithin B P :=
  fun q hq p hp => ⟨(hP q hq p hp).1.trans h, (hP q hq p hp).2.trans h⟩

/-- **C112 (mask test, hexagon).** `_sample_mask` in floats with a hexagon mask, which is `c` in unit intervals and amplitudes (with parameters of at most
`M ≥ 1` and its first corner at least `γ ≤ 1` away from the middle), and symbols within `B`: it succeeds, and margin, offenders and their number are those of
the exact masks, up to an area of a few hundred roundings. -/
theorem C112_mask_hexagon (F : Floats) (m c : Hexagon) (δ T yZero yUa : ℚ) (hT : 0 < T) (hδ : 0 < δ) (hm : m.convert yUa T = .ok c) (M γ B κ : ℚ)
    (hM : 1 ≤ M) (hγ : 0 < γ) (hγ1 : γ ≤ 1) (hu : 50 * (F.u * M) ≤ γ) (hw : HexWithin M c) (hg : γ ≤ |1 / 2 - c.x1.v|)
    (hum : 4000 * F.u < 1) (hwid : 8 * iWidthF F.toRounding T δ * F.u ≤ 1) (hK : 4 * (M ^ 3 / γ ^ 2) ≤ B)
    (hκ : F.u * B * (200 * B + 800 * (M ^ 3 / γ ^ 2)) < κ) (wfs : List Wf)
    (hin : ∀ w ∈ wfs, ∀ k ∈ w.centers, InsideF F.toRounding T δ w.y.length k)
    (hB : ∀ w ∈ wfs, ∀ k ∈ w.centers, ∀ p ∈ symbol F T δ yZero yUa w k, |p.1| ≤ B ∧ |p.2| ≤ B) :
    ∃ r, sampleHexMaskF F.toRounding m δ T yZero yUa wfs = .ok r ∧ Judged F κ (hexP c) T δ yZero yUa wfs r := by
  have hc := hex_converted m c yUa T hm
  obtain ⟨c', ec, hn⟩ := (C112_convert_hexagon F.toRounding m yUa T).2 c M hm hM hw
  have h1 := (ratio_le hM hγ hγ1).2.2.1
  obtain ⟨e0, e1⟩ := error_le F.toRounding h1 hK
  have adj : ∀ f ∈ margins, ∃ a P a' P', c.adjust f = .ok a ∧ a.paths = .ok P ∧ hexAdjustF F.toRounding c' (F.fl f) = .ok a' ∧ hexPathsF F.toRounding a' = .ok P' ∧
      NearPaths (50 * (F.u * (M ^ 3 / γ ^ 2))) P' P ∧ PathsWithin (4 * (M ^ 3 / γ ^ 2)) P := fun f hf =>
    C112_adjust_hexagon F.toRounding c c' M γ f hM hγ hγ1 hu hc hn hw hg (margins_range f hf)
  have hx : c.x1.v ≠ 1 / 2 := by
    intro e
    rw [e, sub_self, abs_zero] at hg
    linarith
  obtain ⟨r, er, hr⟩ := judged F δ T yZero yUa hT hδ hum hwid e0 e1 (κ := κ) (by
      rw [show 200 * F.u * B ^ 2 + 16 * B * (50 * (F.u * (M ^ 3 / γ ^ 2))) = F.u * B * (200 * B + 800 * (M ^ 3 / γ ^ 2)) by ring]
      exact hκ) (hexP c) (hexPF F.toRounding c') (by
      intro f hf
      obtain ⟨a, P, a', P', g1, g2, g3, g4, g5, g6⟩ := adj f hf
      have q1 : hexP c f = P := by simp only [hexP, g1, g2]
      have q2 : hexPF F.toRounding c' (F.fl f) = P' := by simp only [hexPF, g3, g4]
      refine ⟨by rw [q1, q2]; exact g5, by rw [q1]; exact within_mono hK g6, (hexP_eq c hc hx f).2.2⟩) wfs hin hB
  have paths : ((marginsF F.toRounding).mapM fun f => do hexPathsF F.toRounding (← hexAdjustF F.toRounding c' f)) =
      .ok ((marginsF F.toRounding).map (hexPF F.toRounding c')) := by
    refine mapM_ok _ _ _ fun g hgm => ?_
    rw [marginsF_eq] at hgm
    obtain ⟨f, hf, rfl⟩ := List.mem_map.1 hgm
    obtain ⟨a, P, a', P', -, -, g3, g4, -, -⟩ := adj f hf
    have e : hexAdjustF F.toRounding c' (F.toRounding.fl f) = .ok a' := g3
    simp only [bind, Except.bind, hexPF, e, g4]
  refine ⟨r, ?_, hr⟩
  unfold sampleHexMaskF
  rw [ec]
  simp only [bind, Except.bind] at paths ⊢
  rw [paths]
  exact er

/-- **C112 (mask test, decagon).** The same for decagons, whose first horizontal edge is at least `γ` away from the middle, too. -/
theorem C112_mask_decagon (F : Floats) (m c : Decagon) (δ T yZero yUa : ℚ) (hT : 0 < T) (hδ : 0 < δ) (hm : m.convert yUa T = .ok c) (M γ B κ : ℚ)
    (hM : 1 ≤ M) (hγ : 0 < γ) (hγ1 : γ ≤ 1) (hu : 50 * (F.u * M) ≤ γ) (hw : DecWithin M c) (hg : γ ≤ |1 / 2 - c.x1.v|) (hg' : γ ≤ |1 / 2 - c.y1.v|)
    (hum : 4000 * F.u < 1) (hwid : 8 * iWidthF F.toRounding T δ * F.u ≤ 1) (hK : 4 * (M ^ 3 / γ ^ 2) ≤ B)
    (hκ : F.u * B * (200 * B + 800 * (M ^ 3 / γ ^ 2)) < κ) (wfs : List Wf)
    (hin : ∀ w ∈ wfs, ∀ k ∈ w.centers, InsideF F.toRounding T δ w.y.length k)
    (hB : ∀ w ∈ wfs, ∀ k ∈ w.centers, ∀ p ∈ symbol F T δ yZero yUa w k, |p.1| ≤ B ∧ |p.2| ≤ B) :
    ∃ r, sampleDecMaskF F.toRounding m δ T yZero yUa wfs = .ok r ∧ Judged F κ (decP c) T δ yZero yUa wfs r := by
  have hc := dec_converted m c yUa T hm
  obtain ⟨c', ec, hn⟩ := (C112_convert_decagon F.toRounding m yUa T).2 c M hm hM hw
  have h1 := (ratio_le hM hγ hγ1).2.2.1
  obtain ⟨e0, e1⟩ := error_le F.toRounding h1 hK
  have adj : ∀ f ∈ margins, ∃ a P a' P', c.adjust f = .ok a ∧ a.paths = .ok P ∧ decAdjustF F.toRounding c' (F.fl f) = .ok a' ∧ decPathsF F.toRounding a' = .ok P' ∧
      NearPaths (50 * (F.u * (M ^ 3 / γ ^ 2))) P' P ∧ PathsWithin (4 * (M ^ 3 / γ ^ 2)) P := fun f hf =>
    C112_adjust_decagon F.toRounding c c' M γ f hM hγ hγ1 hu hc hn hw hg hg' (margins_range f hf)
  have hx : c.x1.v ≠ 1 / 2 := by
    intro e
    rw [e, sub_self, abs_zero] at hg
    linarith
  have hy : c.y1.v ≠ 1 / 2 := by
    intro e
    rw [e, sub_self, abs_zero] at hg'
    linarith
  obtain ⟨r, er, hr⟩ := judged F δ T yZero yUa hT hδ hum hwid e0 e1 (κ := κ) (by
      rw [show 200 * F.u * B ^ 2 + 16 * B * (50 * (F.u * (M ^ 3 / γ ^ 2))) = F.u * B * (200 * B + 800 * (M ^ 3 / γ ^ 2)) by ring]
      exact hκ) (decP c) (decPF F.toRounding c') (by
      intro f hf
      obtain ⟨a, P, a', P', g1, g2, g3, g4, g5, g6⟩ := adj f hf
      have q1 : decP c f = P := by simp only [decP, g1, g2]
      have q2 : decPF F.toRounding c' (F.fl f) = P' := by simp only [decPF, g3, g4]
      refine ⟨by rw [q1, q2]; exact g5, by rw [q1]; exact within_mono hK g6, (decP_eq c hc hx hy f).2.2⟩) wfs hin hB
  have paths : ((marginsF F.toRounding).mapM fun f => do decPathsF F.toRounding (← decAdjustF F.toRounding c' f)) =
      .ok ((marginsF F.toRounding).map (decPF F.toRounding c')) := by
    refine mapM_ok _ _ _ fun g hgm => ?_
    rw [marginsF_eq] at hgm
    obtain ⟨f, hf, rfl⟩ := List.mem_map.1 hgm
    obtain ⟨a, P, a', P', -, -, g3, g4, -, -⟩ := adj f hf
    have e : decAdjustF F.toRounding c' (F.toRounding.fl f) = .ok a' := g3
    simp only [bind, Except.bind, decPF, e, g4]
  refine ⟨r, ?_, hr⟩
  unfold sampleDecMaskF
  rw [ec]
  simp only [bind, Except.bind] at paths ⊢
  rw [paths]
  exact er

/-! ### Exact margins -/

/-- **C112 (ends of the range, hexagon).** Without any rounding error, for a mask whose parameters are floats: at margin 0 the mask is unchanged, at margin 1
it reaches from 0 to 1 and its limits are at 0 and 1, at margin -1 it is a single point. -/
theorem C112_ends_hexagon (F : Floats) (hh : F.fl (1 / 2) = 1 / 2) (c : Hexagon) (hc : ∀ q ∈ [c.x1, c.x2, c.y1, c.yl, c.yu], F.fl q.v = q.v)
    (hx : c.x1.v ≠ 1 / 2) :
    (∃ a, hexAdjustF F.toRounding c 0 = .ok a ∧ a.x1.v = c.x1.v ∧ a.x2.v = c.x2.v ∧ a.y1.v = c.y1.v ∧ a.yl.v = c.yl.v ∧ a.yu.v = c.yu.v) ∧
    (∃ a, hexAdjustF F.toRounding c 1 = .ok a ∧ a.x1.v = 0 ∧ a.y1.v = 0 ∧ a.yl.v = 0 ∧ a.yu.v = 0 ∧
      pathUpperF F.toRounding a.yu.v = [(0, 2), (0, 1), (1, 1), (1, 2)] ∧ pathLower a.yl.v = [(0, -1), (0, 0), (1, 0), (1, -1)]) ∧
    (∃ a, hexAdjustF F.toRounding c (-1) = .ok a ∧ ∀ p ∈ hexCenterF F.toRounding a, p = (1 / 2, 1 / 2)) := by
  have hc' : ∀ q ∈ [c.x1, c.x2, c.y1, c.yl, c.yu], F.toRounding.fl q.v = q.v := hc
  have hh' : F.toRounding.fl (1 / 2) = 1 / 2 := hh
  have one : F.toRounding.fl 1 = 1 := F.one
  have z := fl_zero F.toRounding
  simp only [List.forall_mem_cons, List.not_mem_nil, IsEmpty.forall_iff, implies_true, and_true] at hc'
  obtain ⟨h1, h2, h3, h4, h5⟩ := hc'
  refine ⟨⟨_, by rw [hexAdjustF, if_neg (lt_irrefl _)], ?_⟩, ⟨_, by
      rw [hexAdjustF, if_pos one_pos]
      simp only
      rw [if_neg fun e => hx (by have := (fl_eq_zero F.toRounding).1 e; linarith)], ?_⟩,
    ⟨_, by rw [hexAdjustF, if_neg (by norm_num)], ?_⟩⟩
  · simp [Hexagon.new, towardsF, plain, z, one, h1, h2, h3, h4, h5]
  · simp [Hexagon.new, scaledF, plain, z, pathUpperF, pathLower, one]
  · have half : F.toRounding.fl (1 - 1 / 2) = 1 / 2 := by rw [show (1 : ℚ) - 1 / 2 = 1 / 2 by norm_num]; exact hh'
    have e : ∀ q, (towardsF F.toRounding (- -1) q).v = 1 / 2 := by
      intro q
      simp only [towardsF, plain, neg_neg, sub_self, z, zero_mul, one_mul, add_zero, hh']
    simp only [Hexagon.new, hexCenterF, e, half, List.forall_mem_cons, List.not_mem_nil, IsEmpty.forall_iff, implies_true, and_self]

/-- **C112 (ends of the range, decagon).** The same for decagons. -/
theorem C112_ends_decagon (F : Floats) (hh : F.fl (1 / 2) = 1 / 2) (c : Decagon)
    (hc : ∀ q ∈ [c.x1, c.x2, c.x3, c.y1, c.y2, c.yl, c.yu], F.fl q.v = q.v) (hx : c.x1.v ≠ 1 / 2) (hy : c.y1.v ≠ 1 / 2) :
    (∃ a, decAdjustF F.toRounding c 0 = .ok a ∧ a.x1.v = c.x1.v ∧ a.x2.v = c.x2.v ∧ a.x3.v = c.x3.v ∧ a.y1.v = c.y1.v ∧ a.y2.v = c.y2.v ∧
      a.yl.v = c.yl.v ∧ a.yu.v = c.yu.v) ∧
    (∃ a, decAdjustF F.toRounding c 1 = .ok a ∧ a.x1.v = 0 ∧ a.y1.v = 0 ∧ a.yl.v = 0 ∧ a.yu.v = 0 ∧
      pathUpperF F.toRounding a.yu.v = [(0, 2), (0, 1), (1, 1), (1, 2)] ∧ pathLower a.yl.v = [(0, -1), (0, 0), (1, 0), (1, -1)]) ∧
    (∃ a, decAdjustF F.toRounding c (-1) = .ok a ∧ ∀ p ∈ decCenterF F.toRounding a, p = (1 / 2, 1 / 2)) := by
  have hc' : ∀ q ∈ [c.x1, c.x2, c.x3, c.y1, c.y2, c.yl, c.yu], F.toRounding.fl q.v = q.v := hc
  have hh' : F.toRounding.fl (1 / 2) = 1 / 2 := hh
  have one : F.toRounding.fl 1 = 1 := F.one
  have z := fl_zero F.toRounding
  simp only [List.forall_mem_cons, List.not_mem_nil, IsEmpty.forall_iff, implies_true, and_true] at hc'
  obtain ⟨h1, h2, h3, h4, h5, h6, h7⟩ := hc'
  refine ⟨⟨_, by rw [decAdjustF, if_neg (lt_irrefl _)], ?_⟩, ⟨_, by
      rw [decAdjustF, if_pos one_pos]
      simp only
      rw [if_neg (by
        rintro (e | e)
        · exact hx (by have := (fl_eq_zero F.toRounding).1 e; linarith)
        · exact hy (by have := (fl_eq_zero F.toRounding).1 e; linarith))], ?_⟩,
    ⟨_, by rw [decAdjustF, if_neg (by norm_num)], ?_⟩⟩
  · simp [Decagon.new, towardsF, plain, z, one, h1, h2, h3, h4, h5, h6, h7]
  · simp [Decagon.new, scaledF, plain, z, pathUpperF, pathLower, one]
  · have half : F.toRounding.fl (1 - 1 / 2) = 1 / 2 := by rw [show (1 : ℚ) - 1 / 2 = 1 / 2 by norm_num]; exact hh'
    have e : ∀ q, (towardsF F.toRounding (- -1) q).v = 1 / 2 := by
      intro q
      simp only [towardsF, plain, neg_neg, sub_self, z, zero_mul, one_mul, add_zero, hh']
    simp only [Decagon.new, decCenterF, e, half, List.forall_mem_cons, List.not_mem_nil, IsEmpty.forall_iff, implies_true, and_self]

/-! ### Without rounding -/

/-- C112: without rounding these are the functions of C39-C42. -/
theorem C112_exact (m c : Hexagon) (d e : Decagon) (ua ui f : ℚ) :
    hexConvertF exact m ua ui = m.convert ua ui ∧ hexAdjustF exact c f = c.adjust f ∧ hexPathsF exact c = c.paths ∧
    decConvertF exact d ua ui = d.convert ua ui ∧ decAdjustF exact e f = e.adjust f ∧ decPathsF exact e = e.paths ∧ marginsF exact = margins := by
  refine ⟨rfl, rfl, rfl, rfl, rfl, rfl, ?_⟩
  rw [marginsF_eq]
  exact List.map_id _

/-! ### Examples -/

instance (κ : ℚ) (p q r s : Pt) : Decidable (CrossArea κ p q r s) :=
  decidable_of_iff ((κ ≤ -1 * area r s p ∧ κ ≤ 1 * area r s q ∧ κ ≤ 1 * area p q r ∧ κ ≤ -1 * area p q s) ∨
    (κ ≤ - -1 * area r s p ∧ κ ≤ -1 * area r s q ∧ κ ≤ -1 * area p q r ∧ κ ≤ - -1 * area p q s)) (by
      constructor
      · rintro (h | h)
        · exact ⟨1, .inl rfl, h⟩
        · exact ⟨-1, .inr rfl, h⟩
      · rintro ⟨σ, rfl | rfl, h⟩
        · exact .inl h
        · exact .inr h)

instance (κ : ℚ) (w : List Pt) (paths : List (List Pt)) : Decidable (ThroughBy κ w paths) := by unfold ThroughBy; infer_instance

instance (κ : ℚ) (w : List Pt) (paths : List (List Pt)) : Decidable (ClearBy κ w paths) := by unfold ClearBy; infer_instance

/-- A symbol that goes up to 1.6 and one that stays at 0. -/
def exWave : List Wf :=
  [⟨[0, 0, 0, 0, 0, 0, 0, 0, nearest (8 / 5), 0, 0, 0, 0, 0, 0, 0, 0, 0], [⟨9, 9 - nearest (187 / 20)⟩]⟩,
   ⟨List.replicate 18 0, [⟨9, 9 - nearest (187 / 20)⟩]⟩]

/-- A mask in doubles whose upper limit is in volts. -/
def exHex : Hexagon := ⟨plain (nearest (1 / 10)), plain (nearest (3 / 10)), plain (nearest (3 / 20)), plain (1 / 4), ⟨true, nearest (7 / 20)⟩, true, false⟩

/-- The mask in unit intervals and amplitudes. -/
def exHexC : Hexagon := ⟨plain (nearest (1 / 10)), plain (nearest (3 / 10)), plain (nearest (3 / 20)), plain (1 / 4), plain (nearest (7 / 20) / 3), true, true⟩

/-- A decagon in doubles with limits relative to the middle. -/
def exDec : Decagon := ⟨plain (nearest (1 / 10)), plain (nearest (1 / 5)), plain (nearest (2 / 5)), plain (nearest (7 / 20)), plain (1 / 4), plain (nearest (4 / 5)),
  ⟨true, nearest (12 / 5)⟩, false, false⟩

/-- The decagon in unit intervals and amplitudes. -/
def exDecC : Decagon := ⟨plain (nearest (1 / 10)), plain (nearest (1 / 5)), plain (nearest (2 / 5)), plain (1 / 2 - nearest (7 / 20)), plain (1 / 4),
  plain (nearest (4 / 5) - 1 / 2), plain (nearest (12 / 5) / 3 - 1 / 2), false, true⟩

theorem exInside : ∀ w ∈ exWave, ∀ k ∈ w.centers, InsideF double 4 1 w.y.length k := by
  unfold InsideF exWave
  decide +kernel

theorem exWithin : ∀ w ∈ exWave, ∀ k ∈ w.centers, ∀ p ∈ symbol doubles 4 1 0 3 w k, |p.1| ≤ 64 ∧ |p.2| ≤ 64 := by
  unfold exWave symbol
  decide +kernel

/-- The hypotheses of `C112_mask_hexagon` are met by doubles: the first symbol reaches up to 8/15 of an amplitude and is an offender at margin 1, the
second one stays clear of the mask at margin 0. -/
example : ∃ r, sampleHexMaskF double exHex 1 4 0 3 exWave = .ok r ∧ Judged doubles (1 / 10 ^ 9) (hexP exHexC) 4 1 0 3 exWave r ∧ r.margin < 1 ∧
    ∃ o, r.offenders = [o, []] := by
  obtain ⟨r, e, h⟩ := C112_mask_hexagon doubles exHex exHexC 1 4 0 3 (by norm_num) (by norm_num) (by decide +kernel) 1 (1 / 4) 64 (1 / 10 ^ 9) (by norm_num)
    (by norm_num) (by norm_num) (by decide +kernel) (by unfold HexWithin; decide +kernel) (by decide +kernel) (by decide +kernel) (by decide +kernel)
    (by norm_num) (by decide +kernel) exWave exInside exWithin
  refine ⟨r, e, h, ?_, ?_⟩
  · have := h.below _ (List.mem_cons_self ..) _ (List.mem_cons_self ..) 1 ((mem_margins 1).2 ⟨1000, by norm_num, by norm_num, by norm_num⟩) (by norm_num) (by
      intro g hg h1
      have : g = 1 := le_antisymm (margins_range g hg).2 h1
      subst this
      unfold symbol
      decide +kernel)
    rw [doubles.one] at this
    exact this
  · have ho := h.offenders
    unfold exWave at ho
    obtain ⟨o1, l, -, hl, e1⟩ := List.forall₂_cons_left_iff.1 ho
    obtain ⟨o2, l', ⟨hs, hi⟩, hl', e2⟩ := List.forall₂_cons_left_iff.1 hl
    have := List.forall₂_nil_left_iff.1 hl'
    subst this
    subst e2
    refine ⟨o1, ?_⟩
    rw [e1]
    have h0 : 0 ∉ o2 := (hi 0 (by decide)).2 (by unfold symbol; decide +kernel)
    have hn : o2 = [] := by
      rw [List.eq_nil_iff_forall_not_mem]
      intro i hm
      have hl := List.mem_range.1 (hs.subset hm)
      rw [Nat.lt_one_iff.1 hl] at hm
      exact h0 hm
    rw [hn]

/-- The hypotheses of `C112_mask_decagon` are met by doubles. -/
example : ∃ r, sampleDecMaskF double exDec 1 4 0 3 exWave = .ok r ∧ Judged doubles (1 / 10 ^ 9) (decP exDecC) 4 1 0 3 exWave r := by
  exact C112_mask_decagon doubles exDec exDecC 1 4 0 3 (by norm_num) (by norm_num) (by decide +kernel) 1 (1 / 4) 64 (1 / 10 ^ 9) (by norm_num)
    (by norm_num) (by norm_num) (by decide +kernel) (by unfold DecWithin; decide +kernel) (by decide +kernel) (by decide +kernel) (by decide +kernel)
    (by decide +kernel) (by norm_num) (by decide +kernel) exWave exInside exWithin

/-- The hypotheses of the theorems on the ends of the range are met by doubles, and the conversion to unit amplitudes is rounded. -/
example : doubles.fl (1 / 2) = 1 / 2 ∧ (∀ q ∈ [exHexC.x1, exHexC.x2, exHexC.y1, exHexC.yl], doubles.fl q.v = q.v) ∧ doubles.fl exHexC.yu.v ≠ exHexC.yu.v ∧
    (∀ q ∈ [exHex.x1, exHex.x2, exHex.y1, exHex.yl, exHex.yu], doubles.fl q.v = q.v) ∧ exHex.x1.v ≠ 1 / 2 ∧
    (∀ q ∈ [exDec.x1, exDec.x2, exDec.x3, exDec.y1, exDec.y2, exDec.yl, exDec.yu], doubles.fl q.v = q.v) ∧ exDec.x1.v ≠ 1 / 2 ∧ exDec.y1.v ≠ 1 / 2 := by
  decide +kernel

end Verif.Props.FloatMaskTest
