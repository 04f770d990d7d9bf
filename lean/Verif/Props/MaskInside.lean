import Verif.Props.EyeMask

/-!
C95: what hits a mask hits every mask around it.
-/

namespace Verif.Props.MaskInside

open Verif Verif.Lines Verif.Eye Verif.Mask Verif.Props Verif.Props.Mask Verif.Props.MaskHits Verif.Props.EyeMask

/-! ### Specification -/

/-- A mask with centre `c` and limits `u` above one and `l` below zero is inside the mask with `c'`, `u'`, `l'`: its centre is in the area of the other
centre, its limits are not nearer and still in the picture. -/
structure Inner (c : List Pt) (u l : ℚ) (c' : List Pt) (u' l' : ℚ) : Prop where
  centre : ∀ p ∈ c, p ∈ hull c'
  upper : u' ≤ u ∧ u ≤ 1
  lower : l' ≤ l ∧ l ≤ 1

/-- The parameters of a hexagon in unit intervals and amplitudes, in the usual order. -/
structure HexOk (m : Hexagon) : Prop where
  converted : m.converted = true
  x : 0 ≤ m.x1.v ∧ m.x1.v ≤ m.x2.v ∧ m.x2.v ≤ 1 / 2 ∧ m.x1.v < 1 / 2
  y : 0 ≤ m.y1.v ∧ m.y1.v < 1 / 2

/-- The parameters of a convex decagon in unit intervals and amplitudes, in the usual order. -/
structure DecOk (m : Decagon) : Prop where
  converted : m.converted = true
  x : 0 ≤ m.x1.v ∧ m.x1.v ≤ m.x2.v ∧ m.x2.v ≤ m.x3.v ∧ m.x3.v ≤ 1 / 2 ∧ m.x1.v < 1 / 2
  y : 0 ≤ m.y1.v ∧ m.y1.v < m.y2.v ∧ m.y2.v < 1 / 2
  convex : (m.x2.v - m.x1.v) * (m.y2.v - m.y1.v) ≤ (m.x3.v - m.x2.v) * (1 / 2 - m.y2.v)

/-! ### Masks as fences -/

/-- A closed path around a convex area that begins after time 0. -/
def Fence (c : List Pt) : Prop :=
  ∃ gs, Border gs c (fun _ => True) ∧ (∀ p ∈ c, In gs p) ∧ ∀ p : Pt, p.1 < 0 → ¬ In gs p

theorem in_convex (gs : List Aff) : Convex ℚ {p | In gs p} := by
  intro p hp q hq a b ha hb hab g hg
  have h1 := hp g hg
  have h2 := hq g hg
  have e : g.at (a • p + b • q) = a * g.at p + b * g.at q := by
    unfold Aff.at
    simp only [Prod.fst_add, Prod.snd_add, Prod.smul_fst, Prod.smul_snd, smul_eq_mul]
    linear_combination -(g.c) * hab
  rw [e]
  nlinarith

theorem hits_fence (c c' : List Pt) (hf : Fence c') (hin : ∀ p ∈ c, p ∈ hull c') (w : List Pt) (hw : Window w) (h : Hits w c) : Hits w c' := by
  obtain ⟨gs, hb, hv, h0⟩ := hf
  refine hits_mono gs c c' _ hb w (fun _ _ _ _ => trivial) (fun p hp => h0 p (hw.first p hp)) (fun p hp => ?_) h
  exact convexHull_min (fun q hq => hv q hq) (in_convex gs) (hin p hp)

theorem hits_inner (c : List Pt) (u l : ℚ) (c' : List Pt) (u' l' : ℚ) (hc : c ≠ []) (hf : Fence c') (hc' : c' ≠ []) (h : Inner c u l c' u' l') (w : List Pt)
    (hw : Window w) (hit : isHitting w [c, pathUpper u, pathLower l] = .ok true) : isHitting w [c', pathUpper u', pathLower l'] = .ok true := by
  rw [hitting_three _ _ _ _ hw.mono hc (by simp [pathUpper]) (by simp [pathLower])] at hit
  rw [hitting_three _ _ _ _ hw.mono hc' (by simp [pathUpper]) (by simp [pathLower])]
  rcases hit with hit | hit | hit
  · exact .inl (hits_fence c c' hf h.centre w hw hit)
  · exact .inr (.inl (upper_mono u u' h.upper.1 h.upper.2 w hw hit))
  · exact .inr (.inr (lower_mono l l' h.lower.1 h.lower.2 w hw hit))

theorem hex_first (a b c : ℚ) (ha : a ≤ 1 / 2) (hc : 0 < c) (p : Pt) (hp : p.1 < 0) : ¬ In (hexGs a b c) p := by
  intro hin
  have s1 := hex_in_side _ _ _ (-1) 1 p hin (Or.inr rfl) (Or.inl rfl)
  have s2 := hex_in_side _ _ _ (-1) (-1) p hin (Or.inr rfl) (Or.inr rfl)
  have : c * (-1 * (p.1 - 1 / 2)) ≤ c * a := by linarith
  have := le_of_mul_le_mul_left this hc
  linarith

theorem fence_hexPath (a b c : ℚ) (hb : 0 ≤ b) (hab : b ≤ a) (ha : 0 < a) (ha2 : a ≤ 1 / 2) (hc : 0 < c) : Fence (hexPath a b c) :=
  ⟨_, border_hex a b c hb hab ha hc, hex_inside a b c a b c ⟨hb, ha.le, hc.le⟩ le_rfl le_rfl le_rfl hab, hex_first a b c ha2 hc⟩

theorem hex_center (m : Hexagon) : m.center = hexPath (1 / 2 - m.x1.v) (1 / 2 - m.x2.v) (1 / 2 - m.y1.v) := by
  simp only [Hexagon.center, hexPath, corner, List.cons.injEq, Prod.mk.injEq, and_true]
  and_intros <;> ring

theorem dec_center (m : Decagon) :
    m.center = decPath (1 / 2 - m.x1.v) (1 / 2 - m.x2.v) (1 / 2 - m.x3.v) (1 / 2 - m.y1.v) (1 / 2 - m.y2.v) := by
  simp only [Decagon.center, decPath, corner, List.cons.injEq, Prod.mk.injEq, and_true]
  and_intros <;> ring

theorem fence_hex (m : Hexagon) (h : HexOk m) : Fence m.center := by
  obtain ⟨x0, x12, x2, x1⟩ := h.x
  obtain ⟨y0, y1⟩ := h.y
  rw [hex_center]
  exact fence_hexPath _ _ _ (by linarith) (by linarith) (by linarith) (by linarith) (by linarith)

theorem dec_first (a1 a2 a3 c1 c2 : ℚ) (ha : a1 ≤ 1 / 2) (hc : 0 < c2) (p : Pt) (hp : p.1 < 0) : ¬ In (decGs a1 a2 a3 c1 c2) p := by
  intro hin
  have s1 := dec_in_side1 _ _ _ _ _ (-1) 1 p hin (Or.inr rfl) (Or.inl rfl)
  have s2 := dec_in_side1 _ _ _ _ _ (-1) (-1) p hin (Or.inr rfl) (Or.inr rfl)
  have : c2 * (-1 * (p.1 - 1 / 2)) ≤ c2 * a1 := by linarith
  have := le_of_mul_le_mul_left this hc
  linarith

theorem fence_dec (m : Decagon) (h : DecOk m) : Fence m.center := by
  obtain ⟨x0, x12, x23, x3, x1⟩ := h.x
  obtain ⟨y0, y12, y2⟩ := h.y
  have hK := h.convex
  rw [dec_center]
  refine ⟨_, border_dec _ _ _ _ _ (by linarith) (by linarith) (by linarith) (by linarith) (by linarith) (by linarith) (by linarith), ?_,
    dec_first _ _ _ _ _ (by linarith) (by linarith)⟩
  exact dec_inside _ _ _ _ _ (by linarith) (by linarith) (by linarith) (by linarith) (by linarith) (by linarith) _ _ _ _ _
    ⟨by linarith, by linarith, by linarith, by linarith, by linarith⟩ le_rfl le_rfl le_rfl le_rfl le_rfl

/-! ### C95: symbols -/

/-- **C95.** A symbol that hits a mask (hexagon or decagon) hits every hexagon mask around it. -/
theorem C95_hit_hexagon (n : Hexagon) (hn : HexOk n) (c : List Pt) (hc : c ≠ []) (u l : ℚ) (h : Inner c u l n.center n.yu.v n.yl.v) (w : List Pt)
    (hw : Window w) (hit : isHitting w [c, pathUpper u, pathLower l] = .ok true) : ∃ q, n.paths = .ok q ∧ isHitting w q = .ok true := by
  refine ⟨[n.center, pathUpper n.yu.v, pathLower n.yl.v], by simp [Hexagon.paths, hn.converted], ?_⟩
  exact hits_inner c u l _ _ _ hc (fence_hex n hn) (by simp [Hexagon.center]) h w hw hit

/-- **C95.** It hits every convex decagon mask around it. -/
theorem C95_hit_decagon (n : Decagon) (hn : DecOk n) (c : List Pt) (hc : c ≠ []) (u l : ℚ) (h : Inner c u l n.center n.yu.v n.yl.v) (w : List Pt)
    (hw : Window w) (hit : isHitting w [c, pathUpper u, pathLower l] = .ok true) : ∃ q, n.paths = .ok q ∧ isHitting w q = .ok true := by
  refine ⟨[n.center, pathUpper n.yu.v, pathLower n.yl.v], by simp [Decagon.paths, hn.converted], ?_⟩
  exact hits_inner c u l _ _ _ hc (fence_dec n hn) (by simp [Decagon.center]) h w hw hit

/-! ### C95: all symbols -/

/-- The result of a mask inside another one: fewer offending symbols in every waveform. -/
structure Fewer (r r' : MaskAll) : Prop where
  offenders : List.Forall₂ List.Sublist r.offenders r'.offenders
  count : r.count ≤ r'.count

theorem no_samples (p : List (List Pt)) : ¬ Hit [] p := by
  rintro ⟨q, -, a, ha, -⟩
  simp [Intersect.pairs] at ha

theorem hit_three (w p1 p2 p3 : List Pt) : Hit w [p1, p2, p3] ↔ Hits w p1 ∨ Hits w p2 ∨ Hits w p3 := by
  simp [Hit]

theorem exact_fewer (P Q : ℚ → List (List Pt)) (T δ z u : ℚ) (wfs : List Wf) (r r' : MaskAll) (hr : Exact P T δ z u wfs r) (hr' : Exact Q T δ z u wfs r')
    (h : ∀ wf ∈ wfs, ∀ w ∈ wfWindows T δ z u wf, Hit w (P 0) → Hit w (Q 0)) : Fewer r r' := by
  constructor
  · rw [hr.offenders, hr'.offenders, List.forall₂_map_left_iff, List.forall₂_map_right_iff, List.forall₂_same]
    intro wf hwf
    refine List.monotone_filter_right _ ?_
    intro i hi
    rw [decide_eq_true_eq] at hi ⊢
    rcases lt_or_ge i (wfWindows T δ z u wf).length with hl | hl
    · rw [List.getD_eq_getElem?_getD, List.getElem?_eq_getElem hl, Option.getD_some] at hi ⊢
      exact h wf hwf _ (List.getElem_mem hl) hi
    · rw [List.getD_eq_getElem?_getD, List.getElem?_eq_none hl, Option.getD_none] at hi
      exact absurd hi (no_samples _)
  · rw [hr.count, hr'.count]
    refine List.countP_mono_left ?_
    intro w hw hi
    rw [decide_eq_true_eq] at hi ⊢
    obtain ⟨wf, hwf, hw⟩ := List.mem_flatMap.1 hw
    exact h wf hwf w hw hi

theorem exact_margin (P Q : ℚ → List (List Pt)) (T δ z u : ℚ) (wfs : List Wf) (r r' : MaskAll) (hr : Exact P T δ z u wfs r) (hr' : Exact Q T δ z u wfs r')
    (h : ∀ wf ∈ wfs, ∀ w ∈ wfWindows T δ z u wf, ∀ f ∈ margins, Hit w (P f) → Hit w (Q f)) : r'.margin ≤ r.margin := by
  have hall : ∀ f ∈ margins, (∀ w ∈ wfs.flatMap (wfWindows T δ z u), ¬ Hit w (Q f)) → ∀ w ∈ wfs.flatMap (wfWindows T δ z u), ¬ Hit w (P f) := by
    intro f hf hq w hw hp
    obtain ⟨wf, hwf, hw'⟩ := List.mem_flatMap.1 hw
    exact hq w hw (h wf hwf w hw' f hf hp)
  by_cases hex : ∃ f ∈ margins, ∀ w ∈ wfs.flatMap (wfWindows T δ z u), ¬ Hit w (Q f)
  · have g' := hr'.margin.1 hex
    have hm := g'.1
    have hp := hall _ hm.1 hm.2
    exact (hr.margin.1 ⟨_, hm.1, hp⟩).2 ⟨hm.1, hp⟩
  · rw [hr'.margin.2 hex]
    by_cases hexp : ∃ f ∈ margins, ∀ w ∈ wfs.flatMap (wfWindows T δ z u), ¬ Hit w (P f)
    · exact (margins_range _ (hr.margin.1 hexp).1.1).1
    · rw [hr.margin.2 hexp]

/-! ### C95: margins -/

theorem grow_inner (v s v' s' f : ℚ) (h0 : 0 ≤ v') (hv : v' ≤ v) (h1 : v < 1 / 2) (hs : s ≤ 1 / 2)
    (hr : (1 / 2 - s) * (1 / 2 - v') ≤ (1 / 2 - s') * (1 / 2 - v)) (hf : -1 ≤ f) (hf1 : f ≤ 1) :
    grow v f * (1 / 2 - s) ≤ grow v' f * (1 / 2 - s') := by
  have hd : 0 < 1 / 2 - v := by linarith
  have hd' : 0 < 1 / 2 - v' := by linarith
  have hb : 0 ≤ 1 / 2 - s := by linarith
  have hq : (1 / 2 - s) / (1 / 2 - v) ≤ (1 / 2 - s') / (1 / 2 - v') := by
    rw [div_le_div_iff₀ hd hd']
    exact hr
  have hq0 : 0 ≤ (1 / 2 - s) / (1 / 2 - v) := div_nonneg hb hd.le
  have hg : grow v f * (1 / 2 - v) ≤ grow v' f * (1 / 2 - v') := by
    unfold grow
    split
    · rw [div_mul_cancel₀ _ hd.ne', div_mul_cancel₀ _ hd'.ne']
      nlinarith
    · nlinarith
  have hg0 : 0 ≤ grow v' f * (1 / 2 - v') := mul_nonneg (grow_bounds v' h0 (by linarith) f hf).1 hd'.le
  have e1 : grow v f * (1 / 2 - s) = grow v f * (1 / 2 - v) * ((1 / 2 - s) / (1 / 2 - v)) := by
    rw [mul_assoc, mul_div_cancel₀ _ hd.ne']
  have e2 : grow v' f * (1 / 2 - s') = grow v' f * (1 / 2 - v') * ((1 / 2 - s') / (1 / 2 - v')) := by
    rw [mul_assoc, mul_div_cancel₀ _ hd'.ne']
  rw [e1, e2]
  exact mul_le_mul hg hq hq0 hg0

/-- The hexagon `c` is inside the hexagon `d`, and its top is not longer in proportion to its width. -/
structure InnerHex (c d : Hexagon) : Prop where
  x : d.x1.v ≤ c.x1.v
  y : d.y1.v ≤ c.y1.v
  top : (1 / 2 - c.x2.v) * (1 / 2 - d.x1.v) ≤ (1 / 2 - d.x2.v) * (1 / 2 - c.x1.v)
  upper : 0 ≤ d.yu.v ∧ d.yu.v ≤ c.yu.v ∧ c.yu.v ≤ 1 / 2
  lower : 0 ≤ d.yl.v ∧ d.yl.v ≤ c.yl.v ∧ c.yl.v ≤ 1 / 2

/-- The decagon `c` is inside the decagon `d`, and its inner corners are not further out in proportion to its width and height. -/
structure InnerDec (c d : Decagon) : Prop where
  x : d.x1.v ≤ c.x1.v
  y : d.y1.v ≤ c.y1.v
  second : (1 / 2 - c.x2.v) * (1 / 2 - d.x1.v) ≤ (1 / 2 - d.x2.v) * (1 / 2 - c.x1.v)
  third : (1 / 2 - c.x3.v) * (1 / 2 - d.x1.v) ≤ (1 / 2 - d.x3.v) * (1 / 2 - c.x1.v)
  side : (1 / 2 - c.y2.v) * (1 / 2 - d.y1.v) ≤ (1 / 2 - d.y2.v) * (1 / 2 - c.y1.v)
  upper : 0 ≤ d.yu.v ∧ d.yu.v ≤ c.yu.v ∧ c.yu.v ≤ 1 / 2
  lower : 0 ≤ d.yl.v ∧ d.yl.v ≤ c.yl.v ∧ c.yl.v ≤ 1 / 2

theorem limit_inner (q q' : Qty) (f : ℚ) (h0 : 0 ≤ q'.v) (h : q'.v ≤ q.v) (h1 : q.v ≤ 1 / 2) (hf : -1 ≤ f) (hf1 : f ≤ 1) :
    ((1 - f) * q'.v ≤ (1 - f) * q.v ∧ (0 < f → (1 - f) * q.v ≤ 1)) ∧ (f ≤ 0 → (towards (-f) q').v ≤ (towards (-f) q).v ∧ (towards (-f) q).v ≤ 1) := by
  refine ⟨⟨mul_le_mul_of_nonneg_left h (by linarith), fun _ => by nlinarith⟩, fun hf0 => ?_⟩
  unfold towards
  simp only [plain]
  constructor <;> nlinarith

theorem hexAdj_limits (c d : Hexagon) (h : InnerHex c d) (f : ℚ) (hf : -1 ≤ f) (hf1 : f ≤ 1) :
    ((hexAdj d f).yu.v ≤ (hexAdj c f).yu.v ∧ (hexAdj c f).yu.v ≤ 1) ∧ (hexAdj d f).yl.v ≤ (hexAdj c f).yl.v ∧ (hexAdj c f).yl.v ≤ 1 := by
  have hu := limit_inner _ _ f h.upper.1 h.upper.2.1 h.upper.2.2 hf hf1
  have hl := limit_inner _ _ f h.lower.1 h.lower.2.1 h.lower.2.2 hf hf1
  unfold hexAdj
  split
  · rename_i hp
    exact ⟨⟨hu.1.1, hu.1.2 hp⟩, hl.1.1, hl.1.2 hp⟩
  · rename_i hp
    exact ⟨hu.2 (not_lt.1 hp), hl.2 (not_lt.1 hp)⟩

theorem decAdj_limits (c d : Decagon) (h : InnerDec c d) (f : ℚ) (hf : -1 ≤ f) (hf1 : f ≤ 1) :
    ((decAdj d f).yu.v ≤ (decAdj c f).yu.v ∧ (decAdj c f).yu.v ≤ 1) ∧ (decAdj d f).yl.v ≤ (decAdj c f).yl.v ∧ (decAdj c f).yl.v ≤ 1 := by
  have hu := limit_inner _ _ f h.upper.1 h.upper.2.1 h.upper.2.2 hf hf1
  have hl := limit_inner _ _ f h.lower.1 h.lower.2.1 h.lower.2.2 hf hf1
  unfold decAdj
  split
  · rename_i hp
    exact ⟨⟨hu.1.1, hu.1.2 hp⟩, hl.1.1, hl.1.2 hp⟩
  · rename_i hp
    exact ⟨hu.2 (not_lt.1 hp), hl.2 (not_lt.1 hp)⟩

theorem hex_margin_hit (c d : Hexagon) (hc : HexOk c) (hd : HexOk d) (h : InnerHex c d) (w : List Pt) (hw : Window w) (f : ℚ) (hf : -1 ≤ f) (hf1 : f ≤ 1)
    (hit : Hit w (hexP c f)) : Hit w (hexP d f) := by
  obtain ⟨x0, x12, x2, x1⟩ := hc.x
  obtain ⟨y0, y1⟩ := hc.y
  obtain ⟨X0, X12, X2, X1⟩ := hd.x
  obtain ⟨Y0, Y1⟩ := hd.y
  obtain ⟨lu, ll⟩ := hexAdj_limits c d h f hf hf1
  have ec := (hexP_eq c hc.converted x1.ne f).2.1
  have ed := (hexP_eq d hd.converted X1.ne f).2.1
  simp only [Hexagon.paths, hexAdj_flag, hc.converted, hd.converted, if_true, Except.ok.injEq] at ec ed
  rw [← ec] at hit
  rw [← ed]
  rw [hit_three] at hit ⊢
  rcases hit with hit | hit | hit
  · left
    rw [hexAdj_center c x1.ne y1.ne] at hit
    rw [hexAdj_center d X1.ne Y1.ne]
    rcases eq_or_lt_of_le hf with e | e
    · subst e
      have g : ∀ v : ℚ, grow v (-1) = 0 := by intro v; unfold grow; norm_num
      simpa only [g, zero_mul] using hit
    · have px := grow_pos d.x1.v X0 X1 f e
      have py := grow_pos d.y1.v Y0 Y1 f e
      obtain ⟨nx, -⟩ := grow_bounds c.x1.v x0 x1 f hf
      obtain ⟨ny, -⟩ := grow_bounds c.y1.v y0 y1 f hf
      have ba : grow d.x1.v f * (1 / 2 - d.x2.v) ≤ grow d.x1.v f * (1 / 2 - d.x1.v) := mul_le_mul_of_nonneg_left (by linarith) px.le
      have c0 : 0 < grow d.y1.v f * (1 / 2 - d.y1.v) := mul_pos py (by linarith)
      refine hits_mono _ _ _ _ (border_hex _ _ _ (mul_nonneg px.le (by linarith)) ba (mul_pos px (by linarith)) c0) w (fun _ _ _ _ => trivial)
        (fun p hp => hex_first _ _ _ ((grow_bounds d.x1.v X0 X1 f hf).2 hf1) c0 p (hw.first p hp)) ?_ hit
      refine hex_inside _ _ _ _ _ _ ⟨mul_nonneg nx (by linarith), mul_nonneg nx (by linarith), mul_nonneg ny (by linarith)⟩ ?_ ?_ ?_ ba
      · exact grow_inner _ _ _ _ f X0 h.x x1 (by linarith) (by linarith) hf hf1
      · exact grow_inner _ _ _ _ f X0 h.x x1 (by linarith) h.top hf hf1
      · exact grow_inner _ _ _ _ f Y0 h.y y1 (by linarith) (by linarith) hf hf1
  · exact .inr (.inl (upper_mono _ _ lu.1 lu.2 w hw hit))
  · exact .inr (.inr (lower_mono _ _ ll.1 ll.2 w hw hit))

theorem dec_margin_hit (c d : Decagon) (hc : DecOk c) (hd : DecOk d) (h : InnerDec c d) (w : List Pt) (hw : Window w) (f : ℚ) (hf : -1 ≤ f) (hf1 : f ≤ 1)
    (hit : Hit w (decP c f)) : Hit w (decP d f) := by
  obtain ⟨x0, x12, x23, x3, x1⟩ := hc.x
  obtain ⟨y0, y12, y2⟩ := hc.y
  obtain ⟨X0, X12, X23, X3, X1⟩ := hd.x
  obtain ⟨Y0, Y12, Y2⟩ := hd.y
  have y1 : c.y1.v < 1 / 2 := y12.trans y2
  have Y1 : d.y1.v < 1 / 2 := Y12.trans Y2
  obtain ⟨lu, ll⟩ := decAdj_limits c d h f hf hf1
  have ec := (decP_eq c hc.converted x1.ne y1.ne f).2.1
  have ed := (decP_eq d hd.converted X1.ne Y1.ne f).2.1
  simp only [Decagon.paths, decAdj_flag, hc.converted, hd.converted, if_true, Except.ok.injEq] at ec ed
  rw [← ec] at hit
  rw [← ed]
  rw [hit_three] at hit ⊢
  rcases hit with hit | hit | hit
  · left
    rw [decAdj_center c x1.ne y1.ne] at hit
    rw [decAdj_center d X1.ne Y1.ne]
    rcases eq_or_lt_of_le hf with e | e
    · subst e
      have g : ∀ v : ℚ, grow v (-1) = 0 := by intro v; unfold grow; norm_num
      simpa only [g, zero_mul] using hit
    · have px := grow_pos d.x1.v X0 X1 f e
      have py := grow_pos d.y1.v Y0 Y1 f e
      obtain ⟨nx, -⟩ := grow_bounds c.x1.v x0 x1 f hf
      obtain ⟨ny, -⟩ := grow_bounds c.y1.v y0 y1 f hf
      have a3 : 0 ≤ grow d.x1.v f * (1 / 2 - d.x3.v) := mul_nonneg px.le (by linarith)
      have a23 : grow d.x1.v f * (1 / 2 - d.x3.v) ≤ grow d.x1.v f * (1 / 2 - d.x2.v) := mul_le_mul_of_nonneg_left (by linarith) px.le
      have a12 : grow d.x1.v f * (1 / 2 - d.x2.v) ≤ grow d.x1.v f * (1 / 2 - d.x1.v) := mul_le_mul_of_nonneg_left (by linarith) px.le
      have a0 : 0 < grow d.x1.v f * (1 / 2 - d.x1.v) := mul_pos px (by linarith)
      have c2 : 0 < grow d.y1.v f * (1 / 2 - d.y2.v) := mul_pos py (by linarith)
      have c12 : grow d.y1.v f * (1 / 2 - d.y2.v) < grow d.y1.v f * (1 / 2 - d.y1.v) := mul_lt_mul_of_pos_left (by linarith) py
      have hK : (grow d.x1.v f * (1 / 2 - d.x1.v) - grow d.x1.v f * (1 / 2 - d.x2.v)) *
          (grow d.y1.v f * (1 / 2 - d.y1.v) - grow d.y1.v f * (1 / 2 - d.y2.v)) ≤
          (grow d.x1.v f * (1 / 2 - d.x2.v) - grow d.x1.v f * (1 / 2 - d.x3.v)) * (grow d.y1.v f * (1 / 2 - d.y2.v)) := by
        have := mul_le_mul_of_nonneg_left hd.convex (mul_pos px py).le
        linarith
      refine hits_mono _ _ _ _ (border_dec _ _ _ _ _ a3 a23 a12 a0 c2 c12 hK) w (fun _ _ _ _ => trivial)
        (fun p hp => dec_first _ _ _ _ _ ((grow_bounds d.x1.v X0 X1 f hf).2 hf1) c2 p (hw.first p hp)) ?_ hit
      refine dec_inside _ _ _ _ _ a3 a23 a12 c2 c12 hK _ _ _ _ _
        ⟨mul_nonneg nx (by linarith), mul_nonneg nx (by linarith), mul_nonneg nx (by linarith), mul_nonneg ny (by linarith), mul_nonneg ny (by linarith)⟩
        ?_ ?_ ?_ ?_ ?_
      · exact grow_inner _ _ _ _ f X0 h.x x1 (by linarith) (by linarith) hf hf1
      · exact grow_inner _ _ _ _ f X0 h.x x1 (by linarith) h.second hf hf1
      · exact grow_inner _ _ _ _ f X0 h.x x1 (by linarith) h.third hf hf1
      · exact grow_inner _ _ _ _ f Y0 h.y y1 (by linarith) (by linarith) hf hf1
      · exact grow_inner _ _ _ _ f Y0 h.y y1 (by linarith) h.side hf hf1
  · exact .inr (.inl (upper_mono _ _ lu.1 lu.2 w hw hit))
  · exact .inr (.inr (lower_mono _ _ ll.1 ll.2 w hw hit))

/-! ### C95: results -/

/-- A mask given to `mask_y_slices`, and the mask in unit intervals and amplitudes. -/
inductive Given where
  | hex (m c : Hexagon)
  | dec (m c : Decagon)

/-- What the eye diagram computes for a mask. -/
def Given.run (δ T z u : ℚ) (wfs : List Wf) : Given → Except PyErr MaskAll
  | .hex m _ => sampleHexMask m δ T z u wfs
  | .dec m _ => sampleDecMask m δ T z u wfs

/-- The second mask is the first one converted, has the usual shape, and its limits are at most half an amplitude away. -/
def Given.Ok (T u : ℚ) : Given → Prop
  | .hex m c => m.convert u T = .ok c ∧ HexOk c ∧ (0 ≤ c.yu.v ∧ c.yu.v ≤ 1 / 2) ∧ 0 ≤ c.yl.v ∧ c.yl.v ≤ 1 / 2
  | .dec m c => m.convert u T = .ok c ∧ DecOk c ∧ (0 ≤ c.yu.v ∧ c.yu.v ≤ 1 / 2) ∧ 0 ≤ c.yl.v ∧ c.yl.v ≤ 1 / 2

/-- The centre of the converted mask. -/
def Given.centre : Given → List Pt
  | .hex _ c => c.center
  | .dec _ c => c.center

/-- The distance of its upper limit from 1. -/
def Given.upper : Given → ℚ
  | .hex _ c => c.yu.v
  | .dec _ c => c.yu.v

/-- The distance of its lower limit from 0. -/
def Given.lower : Given → ℚ
  | .hex _ c => c.yl.v
  | .dec _ c => c.yl.v

/-- One mask is inside another one. -/
def Given.Inside (a b : Given) : Prop := Inner a.centre a.upper a.lower b.centre b.upper b.lower

theorem given_exact (T δ z u : ℚ) (hT : 0 < T) (hδ : 0 < δ) (wfs : List Wf) (hin : ∀ w ∈ wfs, ∀ k ∈ w.centers, EyeWindow.Inside T δ w.y.length k ∧ k.t ≤ 0)
    (hr : InRange z u wfs) (a : Given) (ha : a.Ok T u) :
    ∃ (P : ℚ → List (List Pt)) (r : MaskAll), a.run δ T z u wfs = .ok r ∧ Exact P T δ z u wfs r ∧
      P 0 = [a.centre, pathUpper a.upper, pathLower a.lower] ∧ Fence a.centre ∧ a.centre ≠ [] := by
  cases a with
  | hex m c =>
    obtain ⟨hm, ho, hu, hl⟩ := ha
    obtain ⟨r, e, h, hp⟩ := C42_hexagon m c T δ z u hT hδ hm ho.x ho.y hu hl wfs hin hr
    refine ⟨_, r, e, h, ?_, fence_hex c ho, by simp [Given.centre, Hexagon.center]⟩
    simp only [Hexagon.paths, ho.converted, if_true, Except.ok.injEq] at hp
    rw [← hp]
    rfl
  | dec m c =>
    obtain ⟨hm, ho, hu, hl⟩ := ha
    obtain ⟨r, e, h, hp⟩ := C42_decagon m c T δ z u hT hδ hm ho.x ho.y ho.convex hu hl wfs hin hr
    refine ⟨_, r, e, h, ?_, fence_dec c ho, by simp [Given.centre, Decagon.center]⟩
    simp only [Decagon.paths, ho.converted, if_true, Except.ok.injEq] at hp
    rw [← hp]
    rfl

/-- **C95.** A mask inside another one, of the same or of the other shape, has no more offending symbols: in every waveform they are among those of
the other one, in the same order. -/
theorem C95_offenders (T δ z u : ℚ) (hT : 0 < T) (hδ : 0 < δ) (wfs : List Wf)
    (hin : ∀ w ∈ wfs, ∀ k ∈ w.centers, EyeWindow.Inside T δ w.y.length k ∧ k.t ≤ 0) (hr : InRange z u wfs) (a b : Given) (ha : a.Ok T u) (hb : b.Ok T u)
    (hab : a.Inside b) : ∃ r r', a.run δ T z u wfs = .ok r ∧ b.run δ T z u wfs = .ok r' ∧ Fewer r r' := by
  obtain ⟨P, r, e, h, hP, -, hne⟩ := given_exact T δ z u hT hδ wfs hin hr a ha
  obtain ⟨Q, r', e', h', hQ, hf, hne'⟩ := given_exact T δ z u hT hδ wfs hin hr b hb
  refine ⟨r, r', e, e', exact_fewer P Q T δ z u wfs r r' h h' ?_⟩
  intro wf hwf w hw hit
  rw [hP] at hit
  rw [hQ]
  have hw' := windows_ok T δ z u hT hδ wfs hin hr wf hwf w hw
  rw [hit_iff w _ hw'.mono (by simp [pathUpper, pathLower, hne])] at hit
  rw [hit_iff w _ hw'.mono (by simp [pathUpper, pathLower, hne'])]
  exact hits_inner _ _ _ _ _ _ hne hf hne' hab w hw' hit

/-- **C95.** A hexagon inside another one has no smaller margin, if its top is not longer in proportion to its width (partial: see
`C95_margin_fails` for other masks). -/
theorem C95_margin_hexagon_partial (T δ z u : ℚ) (hT : 0 < T) (hδ : 0 < δ) (wfs : List Wf)
    (hin : ∀ w ∈ wfs, ∀ k ∈ w.centers, EyeWindow.Inside T δ w.y.length k ∧ k.t ≤ 0) (hr : InRange z u wfs) (m n c d : Hexagon)
    (hm : m.convert u T = .ok c) (hn : n.convert u T = .ok d) (hc : HexOk c) (hd : HexOk d) (h : InnerHex c d) :
    ∃ r r', sampleHexMask m δ T z u wfs = .ok r ∧ sampleHexMask n δ T z u wfs = .ok r' ∧ r'.margin ≤ r.margin := by
  have hu := h.upper
  have hl := h.lower
  obtain ⟨r, e, x, -⟩ := C42_hexagon m c T δ z u hT hδ hm hc.x hc.y ⟨by linarith, hu.2.2⟩ ⟨by linarith, hl.2.2⟩ wfs hin hr
  obtain ⟨r', e', x', -⟩ := C42_hexagon n d T δ z u hT hδ hn hd.x hd.y ⟨hu.1, by linarith⟩ ⟨hl.1, by linarith⟩ wfs hin hr
  refine ⟨r, r', e, e', exact_margin _ _ T δ z u wfs r r' x x' ?_⟩
  intro wf hwf w hw f hf hit
  obtain ⟨f0, f1⟩ := margins_range f hf
  exact hex_margin_hit c d hc hd h w (windows_ok T δ z u hT hδ wfs hin hr wf hwf w hw) f f0 f1 hit

/-- **C95.** A decagon inside another one has no smaller margin, if its inner corners are not further out in proportion (partial, as for
hexagons). -/
theorem C95_margin_decagon_partial (T δ z u : ℚ) (hT : 0 < T) (hδ : 0 < δ) (wfs : List Wf)
    (hin : ∀ w ∈ wfs, ∀ k ∈ w.centers, EyeWindow.Inside T δ w.y.length k ∧ k.t ≤ 0) (hr : InRange z u wfs) (m n c d : Decagon)
    (hm : m.convert u T = .ok c) (hn : n.convert u T = .ok d) (hc : DecOk c) (hd : DecOk d) (h : InnerDec c d) :
    ∃ r r', sampleDecMask m δ T z u wfs = .ok r ∧ sampleDecMask n δ T z u wfs = .ok r' ∧ r'.margin ≤ r.margin := by
  have hu := h.upper
  have hl := h.lower
  obtain ⟨r, e, x, -⟩ := C42_decagon m c T δ z u hT hδ hm hc.x hc.y hc.convex ⟨by linarith, hu.2.2⟩ ⟨by linarith, hl.2.2⟩ wfs hin hr
  obtain ⟨r', e', x', -⟩ := C42_decagon n d T δ z u hT hδ hn hd.x hd.y hd.convex ⟨hu.1, by linarith⟩ ⟨hl.1, by linarith⟩ wfs hin hr
  refine ⟨r, r', e, e', exact_margin _ _ T δ z u wfs r r' x x' ?_⟩
  intro wf hwf w hw f hf hit
  obtain ⟨f0, f1⟩ := margins_range f hf
  exact dec_margin_hit c d hc hd h w (windows_ok T δ z u hT hδ wfs hin hr wf hwf w hw) f f0 f1 hit

/-! ### Masks inside masks -/

theorem lerp_x (S : Set Pt) (hS : Convex ℚ S) (a b x y : ℚ) (ha : (a, y) ∈ S) (hb : (b, y) ∈ S) (h1 : a ≤ x) (h2 : x ≤ b) : (x, y) ∈ S := by
  rcases eq_or_lt_of_le (h1.trans h2) with e | e
  · have : x = a := by linarith
    rw [this]; exact ha
  · have hd : 0 < b - a := by linarith
    have := hS ha hb (div_nonneg (by linarith : 0 ≤ b - x) hd.le) (div_nonneg (by linarith : 0 ≤ x - a) hd.le) (by rw [← add_div, div_eq_one_iff_eq hd.ne']; ring)
    convert this using 1
    ext
    · simp only [Prod.smul_mk, Prod.mk_add_mk, smul_eq_mul]; rw [div_mul_eq_mul_div, div_mul_eq_mul_div, ← add_div, eq_div_iff hd.ne']; ring
    · simp only [Prod.smul_mk, Prod.mk_add_mk, smul_eq_mul]; rw [div_mul_eq_mul_div, div_mul_eq_mul_div, ← add_div, eq_div_iff hd.ne']; ring

theorem lerp_y (S : Set Pt) (hS : Convex ℚ S) (a b x y : ℚ) (ha : (x, a) ∈ S) (hb : (x, b) ∈ S) (h1 : a ≤ y) (h2 : y ≤ b) : (x, y) ∈ S := by
  rcases eq_or_lt_of_le (h1.trans h2) with e | e
  · have : y = a := by linarith
    rw [this]; exact ha
  · have hd : 0 < b - a := by linarith
    have := hS ha hb (div_nonneg (by linarith : 0 ≤ b - y) hd.le) (div_nonneg (by linarith : 0 ≤ y - a) hd.le) (by rw [← add_div, div_eq_one_iff_eq hd.ne']; ring)
    convert this using 1
    ext
    · simp only [Prod.smul_mk, Prod.mk_add_mk, smul_eq_mul]; rw [div_mul_eq_mul_div, div_mul_eq_mul_div, ← add_div, eq_div_iff hd.ne']; ring
    · simp only [Prod.smul_mk, Prod.mk_add_mk, smul_eq_mul]; rw [div_mul_eq_mul_div, div_mul_eq_mul_div, ← add_div, eq_div_iff hd.ne']; ring

theorem rect (S : Set Pt) (hS : Convex ℚ S) (a b a' b' x y : ℚ) (h1 : (a, a') ∈ S) (h2 : (b, a') ∈ S) (h3 : (a, b') ∈ S) (h4 : (b, b') ∈ S)
    (hx : a ≤ x ∧ x ≤ b) (hy : a' ≤ y ∧ y ≤ b') : (x, y) ∈ S :=
  lerp_y S hS a' b' x y (lerp_x S hS a b x a' h1 h2 hx.1 hx.2) (lerp_x S hS a b x b' h3 h4 hx.1 hx.2) hy.1 hy.2

/-- A hexagon whose corners are all nearer to the middle is inside. -/
theorem nearer_hexagon (c d : Hexagon) (hc : HexOk c) (h1 : d.x1.v ≤ c.x1.v) (h2 : d.x2.v ≤ c.x2.v) (h3 : d.y1.v ≤ c.y1.v) :
    ∀ p ∈ c.center, p ∈ hull d.center := by
  obtain ⟨x0, x12, x2, x1⟩ := hc.x
  obtain ⟨y0, y1⟩ := hc.y
  have hS : Convex ℚ (hull d.center) := convex_convexHull ℚ _
  have sub : ∀ p ∈ d.center, p ∈ hull d.center := fun p hp => subset_convexHull ℚ _ hp
  have m1 : (d.x1.v, 1 / 2) ∈ hull d.center := sub _ (by simp [Hexagon.center])
  have m2 : (d.x2.v, 1 - d.y1.v) ∈ hull d.center := sub _ (by simp [Hexagon.center])
  have m3 : (1 - d.x2.v, 1 - d.y1.v) ∈ hull d.center := sub _ (by simp [Hexagon.center])
  have m4 : (1 - d.x1.v, 1 / 2) ∈ hull d.center := sub _ (by simp [Hexagon.center])
  have m5 : (1 - d.x2.v, d.y1.v) ∈ hull d.center := sub _ (by simp [Hexagon.center])
  have m6 : (d.x2.v, d.y1.v) ∈ hull d.center := sub _ (by simp [Hexagon.center])
  intro p hp
  have mid : ∀ x, d.x1.v ≤ x → x ≤ 1 - d.x1.v → (x, 1 / 2) ∈ hull d.center := fun x h h' => lerp_x _ hS _ _ _ _ m1 m4 h h'
  have box : ∀ x y, d.x2.v ≤ x → x ≤ 1 - d.x2.v → d.y1.v ≤ y → y ≤ 1 - d.y1.v → (x, y) ∈ hull d.center :=
    fun x y h h' k k' => rect _ hS _ _ _ _ _ _ m6 m5 m2 m3 ⟨h, h'⟩ ⟨k, k'⟩
  simp only [Hexagon.center, List.mem_cons, List.not_mem_nil, or_false] at hp
  rcases hp with rfl | rfl | rfl | rfl | rfl | rfl | rfl
  · exact mid _ (by linarith) (by linarith)
  · exact box _ _ (by linarith) (by linarith) (by linarith) (by linarith)
  · exact box _ _ (by linarith) (by linarith) (by linarith) (by linarith)
  · exact mid _ (by linarith) (by linarith)
  · exact box _ _ (by linarith) (by linarith) (by linarith) (by linarith)
  · exact box _ _ (by linarith) (by linarith) (by linarith) (by linarith)
  · exact mid _ (by linarith) (by linarith)

/-! ### C95: a smaller mask with a smaller margin -/

/-- A rectangle. -/
def exSmall : Hexagon := ⟨plain (3 / 10), plain (3 / 10), plain (3 / 10), plain (1 / 4), plain (1 / 4), true, true⟩

/-- A hexagon around it. -/
def exLarge : Hexagon := ⟨plain (1 / 5), plain (3 / 10), plain (3 / 10), plain (1 / 4), plain (1 / 4), true, true⟩

/-- One symbol at 1 with a dip a third of a unit interval after its centre. -/
def exDip : List Wf := [⟨[1, 1, 1, 1, 1, 1, 1, 21 / 25, 1, 1, 1, 1, 1], [⟨6, 0⟩]⟩]

theorem exSmall_ok : HexOk exSmall := ⟨rfl, by unfold exSmall plain; norm_num, by unfold exSmall plain; norm_num⟩

theorem exLarge_ok : HexOk exLarge := ⟨rfl, by unfold exLarge plain; norm_num, by unfold exLarge plain; norm_num⟩

theorem exInside : Given.Inside (.hex exSmall exSmall) (.hex exLarge exLarge) :=
  ⟨nearer_hexagon _ _ exSmall_ok (by unfold exSmall exLarge plain; norm_num) (by unfold exSmall exLarge plain; norm_num)
      (by unfold exSmall exLarge plain; norm_num),
    by unfold Given.upper exSmall exLarge plain; norm_num, by unfold Given.lower exSmall exLarge plain; norm_num⟩

theorem exSmall_given : Given.Ok 3 1 (.hex exSmall exSmall) :=
  ⟨by decide +kernel, exSmall_ok, by unfold exSmall plain; norm_num, by unfold exSmall plain; norm_num⟩

theorem exLarge_given : Given.Ok 3 1 (.hex exLarge exLarge) :=
  ⟨by decide +kernel, exLarge_ok, by unfold exLarge plain; norm_num, by unfold exLarge plain; norm_num⟩

theorem exDip_in : ∀ w ∈ exDip, ∀ k ∈ w.centers, EyeWindow.Inside 3 1 w.y.length k ∧ k.t ≤ 0 := by
  unfold exDip EyeWindow.Inside
  decide +kernel

theorem exDip_range : InRange 0 1 exDip := by
  unfold InRange exDip
  decide +kernel

/-- **C95** fails for margins: a rectangle has a smaller margin than a hexagon around it, because the top of the hexagon grows less. -/
theorem C95_margin_fails : ∃ (a b : Given) (T δ z u : ℚ) (wfs : List Wf) (r r' : MaskAll), a.Ok T u ∧ b.Ok T u ∧ a.Inside b ∧
    0 < T ∧ 0 < δ ∧ InRange z u wfs ∧ a.run δ T z u wfs = .ok r ∧ b.run δ T z u wfs = .ok r' ∧ r.margin < r'.margin := by
  obtain ⟨r, e, x, -⟩ := C42_hexagon exSmall exSmall 3 1 0 1 (by norm_num) (by norm_num) (by decide +kernel) exSmall_ok.x exSmall_ok.y
    exSmall_given.2.2.1 exSmall_given.2.2.2 exDip exDip_in exDip_range
  obtain ⟨r', e', x', -⟩ := C42_hexagon exLarge exLarge 3 1 0 1 (by norm_num) (by norm_num) (by decide +kernel) exLarge_ok.x exLarge_ok.y
    exLarge_given.2.2.1 exLarge_given.2.2.2 exDip exDip_in exDip_range
  refine ⟨.hex exSmall exSmall, .hex exLarge exLarge, 3, 1, 0, 1, exDip, r, r', exSmall_given, exLarge_given, exInside, by norm_num, by norm_num,
    exDip_range, e, e', ?_⟩
  have hm : (1 / 2 : ℚ) ∈ margins := (mem_margins _).2 ⟨500, by norm_num, by norm_num, by norm_num⟩
  have large : 1 / 2 ≤ r'.margin := by
    have hno : ∀ w ∈ exDip.flatMap (wfWindows 3 1 0 1), ¬ Hit w (hexP exLarge (1 / 2)) := by decide +kernel
    exact (x'.margin.1 ⟨_, hm, hno⟩).2 ⟨hm, hno⟩
  have small : r.margin < 1 / 2 := by
    by_cases hex : ∃ f ∈ margins, ∀ w ∈ exDip.flatMap (wfWindows 3 1 0 1), ¬ Hit w (hexP exSmall f)
    · obtain ⟨⟨hmem, hno⟩, -⟩ := x.margin.1 hex
      by_contra hge
      rw [not_lt] at hge
      have hhit : ∃ w ∈ exDip.flatMap (wfWindows 3 1 0 1), Hit w (hexP exSmall (1 / 2)) := by decide +kernel
      obtain ⟨w, hw, hit⟩ := hhit
      obtain ⟨wf, hwf, hw'⟩ := List.mem_flatMap.1 hw
      have e1 := hexP_eq exSmall rfl exSmall_ok.x.2.2.2.ne (1 / 2)
      have e2 := hexP_eq exSmall rfl exSmall_ok.x.2.2.2.ne r.margin
      have ww := windows_ok 3 1 0 1 (by norm_num) (by norm_num) exDip exDip_in exDip_range wf hwf w hw'
      rw [hit_iff w _ ww.mono e1.2.2] at hit
      exact hno w hw ((hit_iff w _ ww.mono e2.2.2).2 (C41_hexagon_partial exSmall _ _ rfl exSmall_ok.x exSmall_ok.y exSmall_given.2.2.1
        exSmall_given.2.2.2 w ww (1 / 2) r.margin (by norm_num) hge (margins_range _ hmem).2 e1.1 e2.1 _ _ e1.2.1 e2.2.1 hit))
    · rw [x.margin.2 hex]
      norm_num
  linarith

/-- A decagon around the rectangle. -/
def exDec : Decagon := ⟨plain (1 / 10), plain (3 / 20), plain (3 / 10), plain (3 / 20), plain (3 / 10), plain (1 / 4), plain (1 / 4), true, true⟩

theorem exDec_ok : DecOk exDec :=
  ⟨rfl, by unfold exDec plain; norm_num, by unfold exDec plain; norm_num, by unfold exDec plain; norm_num⟩

theorem exDec_given : Given.Ok 3 1 (.dec exDec exDec) :=
  ⟨by decide +kernel, exDec_ok, by unfold exDec plain; norm_num, by unfold exDec plain; norm_num⟩

theorem exInsideDec : Given.Inside (.hex exSmall exSmall) (.dec exDec exDec) := by
  have hS : Convex ℚ (hull exDec.center) := convex_convexHull ℚ _
  have sub : ∀ p ∈ exDec.center, p ∈ hull exDec.center := fun p hp => subset_convexHull ℚ _ hp
  refine ⟨?_, by unfold Given.upper exSmall exDec plain; norm_num, by unfold Given.lower exSmall exDec plain; norm_num⟩
  rintro ⟨x, y⟩ hp
  refine rect _ hS (3 / 10) (7 / 10) (3 / 20) (17 / 20) x y (sub _ (by decide +kernel)) (sub _ (by decide +kernel)) (sub _ (by decide +kernel))
    (sub _ (by decide +kernel)) ?_ ?_
  · have : ∀ p ∈ exSmall.center, 3 / 10 ≤ p.1 ∧ p.1 ≤ 7 / 10 := by decide +kernel
    exact this _ hp
  · have : ∀ p ∈ exSmall.center, 3 / 20 ≤ p.2 ∧ p.2 ≤ 17 / 20 := by decide +kernel
    exact this _ hp

/-- Two waveforms; the dip of the first one is deeper. -/
def exDeep : List Wf := [⟨[1, 1, 1, 1, 1, 1, 1, 7 / 10, 1, 1, 1, 1, 1], [⟨6, 0⟩, ⟨7, -1 / 2⟩]⟩, ⟨[1, 1, 1, 1, 1, 1, 1 / 2, 1, 1, 1, 1, 1], [⟨6, 0⟩]⟩]

theorem exDeep_in : ∀ w ∈ exDeep, ∀ k ∈ w.centers, EyeWindow.Inside 3 1 w.y.length k ∧ k.t ≤ 0 := by
  unfold exDeep EyeWindow.Inside
  decide +kernel

theorem exDeep_range : InRange 0 1 exDeep := by
  unfold InRange exDeep
  decide +kernel

/-- The hypotheses of `C95_offenders` are met by a rectangle inside a decagon, with symbols that hit only the decagon or both. -/
example : ∃ r r', Given.run 1 3 0 1 exDeep (.hex exSmall exSmall) = .ok r ∧ Given.run 1 3 0 1 exDeep (.dec exDec exDec) = .ok r' ∧ Fewer r r' ∧
    r.offenders = [[1], [0]] ∧ r'.offenders = [[0, 1], [0]] := by
  obtain ⟨r, r', e, e', h⟩ := C95_offenders 3 1 0 1 (by norm_num) (by norm_num) exDeep exDeep_in exDeep_range _ _ exSmall_given exDec_given exInsideDec
  obtain ⟨s, f, x, -⟩ := C42_hexagon exSmall exSmall 3 1 0 1 (by norm_num) (by norm_num) (by decide +kernel) exSmall_ok.x exSmall_ok.y
    exSmall_given.2.2.1 exSmall_given.2.2.2 exDeep exDeep_in exDeep_range
  obtain ⟨s', f', x', -⟩ := C42_decagon exDec exDec 3 1 0 1 (by norm_num) (by norm_num) (by decide +kernel) exDec_ok.x exDec_ok.y exDec_ok.convex
    exDec_given.2.2.1 exDec_given.2.2.2 exDeep exDeep_in exDeep_range
  obtain rfl := Except.ok.inj (e.symm.trans f)
  obtain rfl := Except.ok.inj (e'.symm.trans f')
  refine ⟨r, r', e, e', h, ?_, ?_⟩
  · rw [x.offenders]; decide +kernel
  · rw [x'.offenders]; decide +kernel

/-- The hypotheses of the theorems about margins are met by masks of different widths and heights. -/
example : ∃ (c d : Hexagon) (c' d' : Decagon), HexOk c ∧ HexOk d ∧ InnerHex c d ∧ c.x1.v ≠ d.x1.v ∧ DecOk c' ∧ DecOk d' ∧ InnerDec c' d' ∧
    c'.x1.v ≠ d'.x1.v ∧ c'.y1.v ≠ d'.y1.v := by
  refine ⟨⟨plain (1 / 4), plain (2 / 5), plain (3 / 10), plain (1 / 3), plain (1 / 4), true, true⟩, exLarge,
    ⟨plain (1 / 5), plain (1 / 4), plain (7 / 20), plain (1 / 4), plain (2 / 5), plain (1 / 3), plain (1 / 4), true, true⟩, exDec,
    ⟨rfl, ?_, ?_⟩, exLarge_ok, ⟨?_, ?_, ?_, ?_, ?_⟩, ?_, ⟨rfl, ?_, ?_, ?_⟩, exDec_ok, ⟨?_, ?_, ?_, ?_, ?_, ?_, ?_⟩, ?_, ?_⟩ <;>
    norm_num [exLarge, exDec, plain]

end Verif.Props.MaskInside
