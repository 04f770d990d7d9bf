import Verif.Model.Draw
import Verif.Props.Image
import Verif.Props.EyeImage
import Verif.Props.EyeMask
import Mathlib.Tactic.IntervalCases

/-!
C77: the images show what was measured.
-/

namespace Verif.Props.Draw

open Verif Verif.Lines Verif.Eye Verif.Image Verif.Draw Verif.Props.Intersect Verif.Props.EyeMask Verif.Props.EyeWindow Verif.Props.EyeImage

/-- The value of the cell that was written last. -/
theorem blend_fold (res : ℕ) (a : ℕ → ℕ → ℚ) (l : List ((ℤ × ℤ) × ℚ)) (b : ℕ → ℕ → ℚ) (x y : ℕ) :
    let r := (l.foldl (fun b (e : (ℤ × ℤ) × ℚ) (x y : ℕ) => if (x : ℤ) = e.1.1 ∧ (y : ℤ) = e.1.2 then e.2 + (1 - e.2) * a x y else b x y) b) x y
    ((∀ v, (((x : ℤ), (y : ℤ)), v) ∉ l) → r = b x y) ∧
    ((∃ v, (((x : ℤ), (y : ℤ)), v) ∈ l) → ∃ v, (((x : ℤ), (y : ℤ)), v) ∈ l ∧ r = v + (1 - v) * a x y) := by
  induction l generalizing b with
  | nil => simp
  | cons e l ih =>
    simp only [List.foldl_cons]
    set b' : ℕ → ℕ → ℚ := fun x y => if (x : ℤ) = e.1.1 ∧ (y : ℤ) = e.1.2 then e.2 + (1 - e.2) * a x y else b x y with hb'
    obtain ⟨h1, h2⟩ := ih b'
    constructor
    · intro hn
      rw [h1 fun v hv => hn v (List.mem_cons_of_mem _ hv), hb']
      simp only
      rw [if_neg]
      rintro ⟨e1, e2⟩
      exact hn e.2 (by rw [e1, e2]; exact List.mem_cons_self)
    · intro hex
      by_cases hl : ∃ v, (((x : ℤ), (y : ℤ)), v) ∈ l
      · obtain ⟨v, hv, e⟩ := h2 hl
        exact ⟨v, List.mem_cons_of_mem _ hv, e⟩
      · push Not at hl
        obtain ⟨v, hv⟩ := hex
        rcases List.mem_cons.1 hv with hv | hv
        · refine ⟨v, by rw [hv]; exact List.mem_cons_self, ?_⟩
          rw [h1 hl, hb', ← hv]
          simp
        · exact absurd hv (hl v)

theorem blend_spec (res : ℕ) (a : ℕ → ℕ → ℚ) (l : List ((ℤ × ℤ) × ℚ)) (x y : ℕ) :
    ((¬ ∃ v, x < res ∧ y < res ∧ (((x : ℤ), (y : ℤ)), v) ∈ l) → blend res a l x y = a x y) ∧
    ((∃ v, x < res ∧ y < res ∧ (((x : ℤ), (y : ℤ)), v) ∈ l) →
      ∃ v, (((x : ℤ), (y : ℤ)), v) ∈ l ∧ blend res a l x y = v + (1 - v) * a x y) := by
  obtain ⟨h1, h2⟩ := blend_fold res a (l.filter fun e : (ℤ × ℤ) × ℚ => decide (0 ≤ e.1.1 ∧ e.1.1 < (res : ℤ) ∧ 0 ≤ e.1.2 ∧ e.1.2 < (res : ℤ))) a x y
  have key : ∀ v, ((((x : ℤ), (y : ℤ)), v) ∈ l.filter fun e : (ℤ × ℤ) × ℚ =>
      decide (0 ≤ e.1.1 ∧ e.1.1 < (res : ℤ) ∧ 0 ≤ e.1.2 ∧ e.1.2 < (res : ℤ))) ↔ x < res ∧ y < res ∧ (((x : ℤ), (y : ℤ)), v) ∈ l := by
    intro v
    rw [List.mem_filter]
    simp only [decide_eq_true_eq]
    constructor
    · rintro ⟨h, h1, h2, h3, h4⟩
      exact ⟨by omega, by omega, h⟩
    · rintro ⟨h1, h2, h⟩
      exact ⟨h, by omega, by omega, by omega, by omega⟩
  constructor
  · intro hn
    exact h1 fun v hv => hn ⟨v, (key v).1 hv⟩
  · rintro ⟨v, hv⟩
    obtain ⟨v', h', e⟩ := h2 ⟨v, (key v).2 hv⟩
    exact ⟨v', ((key v').1 h').2.2, e⟩

/-- What is assumed of the drawing library: coverages are fractions. -/
def Coverage (lib : Library) : Prop := ∀ p q e, e ∈ lib.lineAA p q → 0 ≤ e.2 ∧ e.2 ≤ 1

/-- The segment between two points is drawn: it is not beside the image. -/
def Beside (res : ℕ) (p q : ℤ × ℤ) : Prop := q.1 < 0 ∨ (res : ℤ) < p.1

theorem segment_spec (lib : Library) (hlib : Coverage lib) (res : ℕ) (a : ℕ → ℕ → ℚ) (p q : ℤ × ℤ) (x y : ℕ) (ha : 0 ≤ a x y ∧ a x y ≤ 1) :
    a x y ≤ strokeAA lib res a p q x y ∧ strokeAA lib res a p q x y ≤ 1 ∧
    (strokeAA lib res a p q x y ≠ a x y → ¬ Beside res p q ∧ x < res ∧ y < res ∧ ∃ v ≠ 0, (((x : ℤ), (y : ℤ)), v) ∈ lib.lineAA q p) ∧
    (¬ Beside res p q → x < res → y < res → (∃ v, (((x : ℤ), (y : ℤ)), v) ∈ lib.lineAA q p) →
      (∀ v, (((x : ℤ), (y : ℤ)), v) ∈ lib.lineAA q p → v ≠ 0) → 0 < strokeAA lib res a p q x y) := by
  unfold strokeAA
  by_cases hb : Beside res p q
  · unfold Beside at hb
    rw [if_pos hb]
    exact ⟨le_rfl, ha.2, fun h => absurd rfl h, fun h => absurd hb h⟩
  · have hb' := hb
    unfold Beside at hb'
    rw [if_neg hb']
    obtain ⟨h1, h2⟩ := blend_spec res a (lib.lineAA q p) x y
    by_cases hc : ∃ v, x < res ∧ y < res ∧ (((x : ℤ), (y : ℤ)), v) ∈ lib.lineAA q p
    · obtain ⟨v, hv, e⟩ := h2 hc
      have hv' := hlib q p _ hv
      simp only at hv'
      rw [e]
      obtain ⟨_, hx, hy, _⟩ := hc
      have m1 := mul_nonneg hv'.1 (sub_nonneg.2 ha.2)
      have m2 := mul_nonneg (sub_nonneg.2 hv'.2) (sub_nonneg.2 ha.2)
      have m3 := mul_nonneg (sub_nonneg.2 hv'.2) ha.1
      refine ⟨by nlinarith, by nlinarith, ?_, ?_⟩
      · intro hne
        refine ⟨hb, hx, hy, v, ?_, hv⟩
        rintro rfl
        exact hne (by ring)
      · intro _ _ _ _ hall
        have := lt_of_le_of_ne hv'.1 (Ne.symm (hall v hv))
        linarith
    · rw [h1 hc]
      refine ⟨le_rfl, ha.2, fun h => absurd rfl h, ?_⟩
      rintro - hx hy ⟨v, hv⟩ -
      exact absurd ⟨v, hx, hy, hv⟩ hc

theorem segments_spec (lib : Library) (hlib : Coverage lib) (res : ℕ) (L : List ((ℤ × ℤ) × ℤ × ℤ)) (a : ℕ → ℕ → ℚ) (x y : ℕ)
    (ha : 0 ≤ a x y ∧ a x y ≤ 1) :
    let b := L.foldl (fun a s => strokeAA lib res a s.1 s.2) a
    a x y ≤ b x y ∧ b x y ≤ 1 ∧
    (b x y ≠ a x y → ∃ s ∈ L, ¬ Beside res s.1 s.2 ∧ x < res ∧ y < res ∧ ∃ v ≠ 0, (((x : ℤ), (y : ℤ)), v) ∈ lib.lineAA s.2 s.1) ∧
    (∀ s ∈ L, ¬ Beside res s.1 s.2 → x < res → y < res → (∃ v, (((x : ℤ), (y : ℤ)), v) ∈ lib.lineAA s.2 s.1) →
      (∀ v, (((x : ℤ), (y : ℤ)), v) ∈ lib.lineAA s.2 s.1 → v ≠ 0) → 0 < b x y) := by
  induction L generalizing a with
  | nil => simp [ha.2]
  | cons s L ih =>
    obtain ⟨h1, h2, h3, h4⟩ := segment_spec lib hlib res a s.1 s.2 x y ha
    obtain ⟨i1, i2, i3, i4⟩ := ih (strokeAA lib res a s.1 s.2) ⟨ha.1.trans h1, h2⟩
    simp only [List.foldl_cons]
    refine ⟨h1.trans i1, i2, ?_, ?_⟩
    · intro hne
      by_cases hs : strokeAA lib res a s.1 s.2 x y = a x y
      · rw [← hs] at hne
        obtain ⟨s', hs', h'⟩ := i3 hne
        exact ⟨s', List.mem_cons_of_mem _ hs', h'⟩
      · exact ⟨s, List.mem_cons_self, h3 hs⟩
    · intro s' hs' b1 b2 b3 b4 b5
      rcases List.mem_cons.1 hs' with rfl | hs'
      · exact lt_of_lt_of_le (h4 b1 b2 b3 b4 b5) i1
      · exact i4 s' hs' b1 b2 b3 b4 b5

/-- Two neighbouring points of a symbol whose connection covers a cell: `v` is the coverage. -/
def Stroke (lib : Library) (res : ℕ) (w : List Pt) (x y : ℕ) (v : ℚ) : Prop :=
  ∃ s ∈ w.zip w.tail, ¬ Beside res (uiaPos res s.1.1, uiaPos res s.1.2) (uiaPos res s.2.1, uiaPos res s.2.2) ∧
    (((x : ℤ), (y : ℤ)), v) ∈ lib.lineAA (uiaPos res s.2.1, uiaPos res s.2.2) (uiaPos res s.1.1, uiaPos res s.1.2)

/-- Two neighbouring points of a symbol whose connection covers a cell, whichever coverage of the cell counts. -/
def Covers (lib : Library) (res : ℕ) (w : List Pt) (x y : ℕ) : Prop :=
  ∃ s ∈ w.zip w.tail, ¬ Beside res (uiaPos res s.1.1, uiaPos res s.1.2) (uiaPos res s.2.1, uiaPos res s.2.2) ∧
    (∃ v, (((x : ℤ), (y : ℤ)), v) ∈ lib.lineAA (uiaPos res s.2.1, uiaPos res s.2.2) (uiaPos res s.1.1, uiaPos res s.1.2)) ∧
    (∀ v, (((x : ℤ), (y : ℤ)), v) ∈ lib.lineAA (uiaPos res s.2.1, uiaPos res s.2.2) (uiaPos res s.1.1, uiaPos res s.1.2) → v ≠ 0)

theorem symbols_spec (lib : Library) (hlib : Coverage lib) (y : List ℚ) (cs : List Center) (T δ yZero yUa : ℚ) (hy : yUa ≠ 0) (res : ℕ)
    (idx : List ℕ) (hidx : ∀ i ∈ idx, i < cs.length) (a0 : ℕ → ℕ → ℚ) (h0 : ∀ x y, 0 ≤ a0 x y ∧ a0 x y ≤ 1) :
    ∃ a, idx.foldlM (fun a i => do
        let c ← pyGet cs i
        let px := pixels y δ T (-1 / 2 * yUa + yZero) (3 / 2 * yUa + yZero) res c
        return (px.zip px.tail).foldl (fun a s => strokeAA lib res a s.1 s.2) a) a0 = Except.ok (ε := PyErr) a ∧
      ∀ x z, a0 x z ≤ a x z ∧ a x z ≤ 1 ∧
        (a x z ≠ a0 x z → x < res ∧ z < res ∧ ∃ i ∈ idx, ∃ v ≠ 0, Stroke lib res ((windows y cs δ T yZero yUa).getD i []) x z v) ∧
        (x < res → z < res → ∀ i ∈ idx, Covers lib res ((windows y cs δ T yZero yUa).getD i []) x z → 0 < a x z) := by
  induction idx generalizing a0 with
  | nil => exact ⟨a0, rfl, fun x z => ⟨le_rfl, (h0 x z).2, fun h => absurd rfl h, by simp⟩⟩
  | cons i idx ih =>
    have hi : i < cs.length := hidx i List.mem_cons_self
    have hg : pyGet cs i = .ok cs[i] := by unfold pyGet; rw [List.getElem?_eq_getElem hi]
    have hw : (windows y cs δ T yZero yUa).getD i [] = window (normalise y yZero yUa) T δ cs[i] := by
      rw [List.getD_eq_getElem?_getD]
      unfold windows
      rw [List.getElem?_map, List.getElem?_eq_getElem hi]
      rfl
    set w := window (normalise y yZero yUa) T δ cs[i] with hwdef
    set f : Pt → ℤ × ℤ := fun p => (uiaPos res p.1, uiaPos res p.2) with hf
    have hpx : pixels y δ T (-1 / 2 * yUa + yZero) (3 / 2 * yUa + yZero) res cs[i] = w.map f := C59_pixels y T δ yZero yUa hy res cs[i]
    have hz : (w.map f).zip (w.map f).tail = (w.zip w.tail).map (Prod.map f f) := by rw [← List.map_tail, List.zip_map]
    set a1 := ((w.map f).zip (w.map f).tail).foldl (fun a s => strokeAA lib res a s.1 s.2) a0 with ha1
    have S := fun x z => segments_spec lib hlib res ((w.map f).zip (w.map f).tail) a0 x z (h0 x z)
    obtain ⟨a, e, ha⟩ := ih (fun j hj => hidx j (List.mem_cons_of_mem _ hj)) a1
      (fun x z => ⟨(h0 x z).1.trans (S x z).1, (S x z).2.1⟩)
    refine ⟨a, ?_, ?_⟩
    · rw [List.foldlM_cons, hg]
      simp only [bind, Except.bind, pure, Except.pure, hpx] at e ⊢
      exact e
    · intro x z
      obtain ⟨s1, s2, s3, s4⟩ := S x z
      obtain ⟨t1, t2, t3, t4⟩ := ha x z
      refine ⟨s1.trans t1, t2, ?_, ?_⟩
      · intro hne
        by_cases h : a x z = a1 x z
        · rw [h] at hne
          obtain ⟨s, hs, b1, b2, b3, v, hv, hm⟩ := s3 hne
          rw [hz] at hs
          obtain ⟨u, hu, rfl⟩ := List.mem_map.1 hs
          exact ⟨b2, b3, i, List.mem_cons_self, v, hv, by rw [hw]; exact ⟨u, hu, b1, hm⟩⟩
        · obtain ⟨b2, b3, j, hj, v, hv, hs⟩ := t3 h
          exact ⟨b2, b3, j, List.mem_cons_of_mem _ hj, v, hv, hs⟩
      · intro hx hz' j hj hc
        rcases List.mem_cons.1 hj with rfl | hj
        · rw [hw] at hc
          obtain ⟨u, hu, b1, b2, b3⟩ := hc
          refine lt_of_lt_of_le (s4 (Prod.map f f u) ?_ b1 hx hz' b2 b3) t1
          rw [hz]
          exact List.mem_map_of_mem hu
        · exact t4 hx hz' j hj hc

/-! ### The circles around the hits -/

theorem radius_eq (res : ℕ) : radius res = ((max 3 (res / 500) : ℕ) : ℤ) := by
  have hf : ⌊(res : ℚ) / 500⌋ = ((res / 500 : ℕ) : ℤ) := by
    have := Rat.floor_intCast_div_natCast (res : ℤ) 500
    push_cast at this ⊢
    exact this
  unfold radius pyInt
  rw [if_pos (le_max_of_le_left (by norm_num))]
  rcases le_total (3 : ℚ) ((res : ℚ) / 500) with h | h
  · have h3 : (3 : ℤ) ≤ ((res / 500 : ℕ) : ℤ) := by rw [← hf]; exact Int.le_floor.2 (by exact_mod_cast h)
    rw [max_eq_right h, hf, max_eq_right (by exact_mod_cast h3)]
  · have h3 : ((res / 500 : ℕ) : ℤ) ≤ 3 := by
      rw [← hf]
      have := (Int.floor_le ((res : ℚ) / 500)).trans h
      exact_mod_cast this
    rw [max_eq_left h, max_eq_left (by exact_mod_cast h3)]
    norm_num

/-- A cell on the circle around a hit inside the image; its radius is 3, and larger in images of more than 2000 pixels. -/
def Circled (lib : Library) (res : ℕ) (hits : List Pt) (x y : ℕ) : Prop :=
  ∃ h ∈ hits, 0 ≤ uiaPos res h.1 ∧ uiaPos res h.1 < res ∧ 0 ≤ uiaPos res h.2 ∧ uiaPos res h.2 < res ∧
    (x, y) ∈ lib.circle res (uiaPos res h.1) (uiaPos res h.2) ((max 3 (res / 500) : ℕ) : ℤ)

theorem circles_fold (lib : Library) (res : ℕ) (hits : List Pt) (s : List (ℤ × ℤ) × List (ℕ × ℕ))
    (hs : ∀ p ∈ s.1, ∀ q ∈ lib.circle res p.1 p.2 (radius res), q ∈ s.2) (x y : ℕ) :
    (x, y) ∈ (hits.foldl (hitStep lib res) s).2 ↔ (x, y) ∈ s.2 ∨ Circled lib res hits x y := by
  induction hits generalizing s with
  | nil => simp [Circled]
  | cons h hits ih =>
    rw [List.foldl_cons, ih]
    · have split : Circled lib res (h :: hits) x y ↔ (0 ≤ uiaPos res h.1 ∧ uiaPos res h.1 < res ∧ 0 ≤ uiaPos res h.2 ∧ uiaPos res h.2 < res ∧
          (x, y) ∈ lib.circle res (uiaPos res h.1) (uiaPos res h.2) (radius res)) ∨ Circled lib res hits x y := by
        unfold Circled
        simp only [List.mem_cons, exists_eq_or_imp, radius_eq]
      rw [split]
      unfold hitStep
      simp only
      split_ifs with hc
      · rw [List.mem_append]
        tauto
      · constructor
        · tauto
        · rintro (h1 | ⟨h1, h2, h3, h4, h5⟩ | h1)
          · exact Or.inl h1
          · left
            by_contra hn
            exact hc ⟨h1, h2, h3, h4, fun hm => hn (hs _ hm _ h5)⟩
          · exact Or.inr h1
    · unfold hitStep
      simp only
      split_ifs
      · intro p hp q hq
        rw [List.mem_append]
        rcases List.mem_cons.1 hp with rfl | hp
        · exact Or.inr hq
        · exact Or.inl (hs p hp q hq)
      · exact hs

theorem circles_spec (lib : Library) (res : ℕ) (hits : List Pt) (x y : ℕ) : (x, y) ∈ circles lib res hits ↔ Circled lib res hits x y := by
  unfold circles
  rw [circles_fold lib res hits ([], []) (by simp)]
  simp

/-! ### The hits -/

/-- The alphas of an image. -/
def HasAlpha (res : ℕ) (m : Img) (a : ℕ → ℕ → ℚ) : Prop := m.shape = [res, res, 4] ∧ ∀ x y, m.px x y 3 = some (a x y) ∧ 0 ≤ a x y ∧ a x y ≤ 1

/-- What is visible is red. -/
def IsRed (m : Img) : Prop := ∀ x y, m.px x y 3 ≠ some 0 → m.px x y 0 = some 1 ∧ m.px x y 1 = some 0 ∧ m.px x y 2 = some 0

/-- No value is nan or inf. -/
def Finite (m : Img) : Prop := ∀ x y k, m.px x y k ≠ none

theorem red_alpha (res : ℕ) (a : ℕ → ℕ → ℚ) (ha : ∀ x y, 0 ≤ a x y ∧ a x y ≤ 1) : HasAlpha res (red res a) a := ⟨rfl, fun x y => ⟨rfl, ha x y⟩⟩

theorem layer_red (junk : ℕ → ℕ → ℕ → Option ℚ) (res : ℕ) (m : Img) (a b : ℕ → ℕ → ℚ) (hm : HasAlpha res m a)
    (hb : ∀ x y, 0 ≤ b x y ∧ b x y ≤ 1) :
    ∃ r, layer junk m (red res b) = .ok r ∧ HasAlpha res r (fun x y => b x y + a x y * (1 - b x y)) ∧
      (Finite m → IsRed m → IsRed r) ∧ (Finite m → (∀ x y k, junk x y k ≠ none) → Finite r) := by
  refine ⟨_, Image.layer_ok junk hm.1 rfl, ⟨rfl, ?_⟩, ?_, ?_⟩
  · intro x y
    obtain ⟨h1, h2, h3⟩ := hm.2 x y
    obtain ⟨_, _, b3, b4⟩ := Image.alpha_bounds (hb x y) ⟨h2, h3⟩
    refine ⟨?_, b4, b3⟩
    simp [red, square, h1, alphaOut]
  · intro hf hr x y hv
    obtain ⟨h1, h2, h3⟩ := hm.2 x y
    have e3 : ¬ (3 < 3) := lt_irrefl 3
    simp only [e3, if_false, red, square, h1, Image.alphaOut_some, if_true, show ¬ (3 = 0) by norm_num] at hv
    have hne : Image.alpha (b x y) (a x y) ≠ 0 := fun h => hv (by rw [h])
    have red_of : ∀ k < 3, ∃ v, m.px x y k = some v ∧ (a x y ≠ 0 → v = if k = 0 then 1 else 0) := by
      intro k hk
      obtain ⟨v, hv⟩ := Option.ne_none_iff_exists'.1 (hf x y k)
      refine ⟨v, hv, fun hne => ?_⟩
      obtain ⟨r0, r1, r2⟩ := hr x y (by rw [h1]; simpa using hne)
      interval_cases k
      · rw [r0] at hv; simpa using (Option.some.inj hv).symm
      · rw [r1] at hv; simpa using (Option.some.inj hv).symm
      · rw [r2] at hv; simpa using (Option.some.inj hv).symm
    have ch : ∀ k < 3, colour (junk x y k) (some (if k = 0 then (1 : ℚ) else 0)) (some (b x y)) (m.px x y k) (some (a x y)) =
        some (if k = 0 then 1 else 0) := by
      intro k hk
      obtain ⟨v, hv, hv'⟩ := red_of k hk
      rw [hv, Image.colour_some, if_pos hne]
      congr 1
      rw [div_eq_iff hne]
      unfold Image.alpha
      by_cases ha : a x y = 0
      · rw [ha]; ring
      · rw [hv' ha]; ring
    have c0 := ch 0 (by norm_num)
    have c1 := ch 1 (by norm_num)
    have c2 := ch 2 (by norm_num)
    refine ⟨?_, ?_, ?_⟩
    · simpa [red, square, h1] using c0
    · simpa [red, square, h1] using c1
    · simpa [red, square, h1] using c2
  · intro hf hj x y k
    obtain ⟨h1, h2, h3⟩ := hm.2 x y
    simp only [red, square, h1]
    split_ifs with hk
    all_goals first
      | (obtain ⟨v, hv⟩ := Option.ne_none_iff_exists'.1 (hf x y k)
         rw [hv]
         rw [Image.colour_some]
         split_ifs
         · exact Option.some_ne_none _
         · exact hj x y k)
      | exact Option.some_ne_none _

/-- The offenders that are drawn: the first two of the waveform. -/
def Drawn (T δ yZero yUa : ℚ) (p : Wf × List ℕ) (w : List Pt) : Prop := ∃ i ∈ p.2.take 2, w = (wfWindows T δ yZero yUa p.1).getD i []

theorem loop_spec (lib : Library) (hlib : Coverage lib) (junk : ℕ → ℕ → ℕ → ℕ → Option ℚ) (res : ℕ) (T δ yZero yUa : ℚ) (hy : yUa ≠ 0)
    (ps : List (Wf × List ℕ)) (hps : ∀ p ∈ ps, ∀ i ∈ p.2, i < p.1.centers.length) (n : ℕ) (m : Img) (a : ℕ → ℕ → ℚ) (hm : HasAlpha res m a) :
    ∃ r b, hitsLoop lib junk res δ T yZero yUa ps n m = .ok r ∧ HasAlpha res r b ∧
      (∀ x y, a x y ≤ b x y ∧ (b x y ≠ 0 → a x y ≠ 0 ∨ x < res ∧ y < res ∧ ∃ p ∈ ps, ∃ w, Drawn T δ yZero yUa p w ∧ ∃ v ≠ 0, Stroke lib res w x y v) ∧
        (x < res → y < res → ∀ p ∈ ps, ∀ w, Drawn T δ yZero yUa p w → Covers lib res w x y → 0 < b x y)) ∧
      (Finite m → IsRed m → (∀ j, n ≤ j → j + 1 < n + ps.length → ∀ x y k, junk j x y k ≠ none) → IsRed r) := by
  induction ps generalizing n m a with
  | nil =>
    refine ⟨m, a, rfl, hm, fun x y => ⟨le_rfl, fun h => Or.inl h, by simp⟩, fun _ h _ => h⟩
  | cons p ps ih =>
    obtain ⟨b, eb, hb⟩ := symbols_spec lib hlib p.1.y p.1.centers T δ yZero yUa hy res (p.2.take 2)
      (fun i hi => hps p List.mem_cons_self i (List.mem_of_mem_take hi)) (fun _ _ => 0) (fun _ _ => by norm_num)
    have hb01 : ∀ x y, 0 ≤ b x y ∧ b x y ≤ 1 := fun x y => ⟨(hb x y).1, (hb x y).2.1⟩
    obtain ⟨m', em, hm', hr', hf'⟩ := layer_red (junk n) res m a b hm hb01
    obtain ⟨r, c, er, hr, hc, hred⟩ := ih (fun q hq => hps q (List.mem_cons_of_mem _ hq)) (n + 1) m' _ hm'
    refine ⟨r, c, ?_, hr, ?_, ?_⟩
    · unfold hitsLoop drawSymbols
      rw [eb]
      simp only [bind, Except.bind]
      rw [em]
      exact er
    · intro x y
      obtain ⟨c1, c2, c3⟩ := hc x y
      obtain ⟨a1, a2, a3⟩ := hm.2 x y
      obtain ⟨b1, b2, _, _⟩ := Image.alpha_bounds (hb01 x y) ⟨a2, a3⟩
      unfold Image.alpha at b1 b2
      refine ⟨b2.trans c1, ?_, ?_⟩
      · intro h
        rcases c2 h with h | ⟨hx, hy', q, hq, w, hw, hs⟩
        · by_cases hb0 : b x y = 0
          · left
            rw [hb0] at h
            simpa using h
          · obtain ⟨hx, hy', i, hi, hs⟩ := (hb x y).2.2.1 hb0
            exact Or.inr ⟨hx, hy', p, List.mem_cons_self, _, ⟨i, hi, rfl⟩, hs⟩
        · exact Or.inr ⟨hx, hy', q, List.mem_cons_of_mem _ hq, w, hw, hs⟩
      · intro hx hy' q hq w hw hcov
        rcases List.mem_cons.1 hq with rfl | hq
        · obtain ⟨i, hi, rfl⟩ := hw
          have := (hb x y).2.2.2 hx hy' i hi hcov
          exact lt_of_lt_of_le (lt_of_lt_of_le this b1) c1
        · exact c3 hx hy' q hq w hw hcov
    · intro hfm hrm hj
      by_cases hps0 : ps = []
      · subst hps0
        have : r = m' := by
          unfold hitsLoop at er
          exact (Except.ok.inj er).symm
        rw [this]
        exact hr' hfm hrm
      · have hl : 0 < ps.length := List.length_pos_iff.2 hps0
        refine hred (hf' hfm (hj n le_rfl ?_)) (hr' hfm hrm) ?_
        · rw [List.length_cons]; omega
        · intro j h1 h2
          exact hj j (by omega) (by rw [List.length_cons]; omega)

theorem zip_map_self {α β : Type} (l : List α) (f : α → β) (p : α × β) (h : p ∈ l.zip (l.map f)) : p.1 ∈ l ∧ p.2 = f p.1 := by
  induction l with
  | nil => simp at h
  | cons a l ih =>
    rw [List.map_cons, List.zip_cons_cons] at h
    rcases List.mem_cons.1 h with rfl | h
    · exact ⟨List.mem_cons_self, rfl⟩
    · exact ⟨List.mem_cons_of_mem _ (ih h).1, (ih h).2⟩

/-- The symbols of a waveform that hit the mask `P 0`, in order. -/
def offending (P : ℚ → List (List Pt)) (T δ yZero yUa : ℚ) (w : Wf) : List (List Pt) :=
  (wfWindows T δ yZero yUa w).filter fun s => decide (Hit s (P 0))

theorem getD_filter_range {α : Type} (l : List α) (d : α) (q : α → Bool) :
    ((List.range l.length).filter fun i => q (l.getD i d)).map (fun i => l.getD i d) = l.filter q := by
  have h : l = (List.range l.length).map fun i => l.getD i d := by
    apply List.ext_getElem
    · simp
    · intro i h1 h2
      simp [List.getD_eq_getElem?_getD, List.getElem?_eq_getElem h1]
  conv_rhs => rw [h, List.filter_map]
  rfl

theorem drawn_iff (P : ℚ → List (List Pt)) (T δ yZero yUa : ℚ) (wf : Wf) (w : List Pt) :
    Drawn T δ yZero yUa (wf, (List.range wf.centers.length).filter fun i => decide (Hit ((wfWindows T δ yZero yUa wf).getD i []) (P 0))) w ↔
      w ∈ (offending P T δ yZero yUa wf).take 2 := by
  have hlen : wf.centers.length = (wfWindows T δ yZero yUa wf).length := by simp [wfWindows, windows]
  unfold Drawn offending
  rw [hlen, ← getD_filter_range _ [], ← List.map_take, List.mem_map]
  constructor
  · rintro ⟨i, hi, rfl⟩; exact ⟨i, hi, rfl⟩
  · rintro ⟨i, hi, rfl⟩; exact ⟨i, hi, rfl⟩

/-- **C77.** The image of the hits: alphas are in [0, 1]; the circles around all hits inside the image are opaque; a cell is visible only if it is
on such a circle or on the way of one of the first two offenders of a waveform; those offenders are visible.  `P f` is the mask adjusted by `f`. -/
theorem C77_hits (lib : Library) (hlib : Coverage lib) (junk : ℕ → ℕ → ℕ → ℕ → Option ℚ) (res : ℕ) (P : ℚ → List (List Pt)) (T δ yZero yUa : ℚ)
    (hy : yUa ≠ 0) (wfs : List Wf) (all : MaskAll) (hall : Exact P T δ yZero yUa wfs all) :
    ∃ (m : Img) (a : ℕ → ℕ → ℚ), hitsImage lib junk res δ T yZero yUa wfs all = .ok m ∧ m.shape = [res, res, 4] ∧ ∀ x y, m.px x y 3 = some (a x y) ∧
      0 ≤ a x y ∧ a x y ≤ 1 ∧
      (∀ wf ∈ wfs, ∀ w ∈ wfWindows T δ yZero yUa wf, ∀ h ∈ allHits w (P 0), Circled lib res [h] x y → a x y = 1) ∧
      (a x y ≠ 0 → (∃ wf ∈ wfs, ∃ w ∈ wfWindows T δ yZero yUa wf, ∃ h ∈ allHits w (P 0), Circled lib res [h] x y) ∨
        x < res ∧ y < res ∧ ∃ wf ∈ wfs, ∃ w ∈ (offending P T δ yZero yUa wf).take 2, ∃ v ≠ 0, Stroke lib res w x y v) ∧
      (x < res → y < res → ∀ wf ∈ wfs, ∀ w ∈ (offending P T δ yZero yUa wf).take 2, Covers lib res w x y → a x y ≠ 0) := by
  have circ : ∀ x y, Circled lib res all.hits x y ↔ ∃ wf ∈ wfs, ∃ w ∈ wfWindows T δ yZero yUa wf, ∃ h ∈ allHits w (P 0), Circled lib res [h] x y := by
    intro x y
    rw [hall.hits]
    unfold Circled
    constructor
    · rintro ⟨h, hh, hc⟩
      obtain ⟨w, hw, hh⟩ := List.mem_flatMap.1 hh
      obtain ⟨wf, hwf, hw⟩ := List.mem_flatMap.1 hw
      exact ⟨wf, hwf, w, hw, h, hh, h, by simp, hc⟩
    · rintro ⟨wf, hwf, w, hw, h, hh, h', hh', hc⟩
      rw [List.mem_singleton] at hh'
      subst hh'
      exact ⟨h', List.mem_flatMap.2 ⟨w, List.mem_flatMap.2 ⟨wf, hwf, hw⟩, hh⟩, hc⟩
  set F : Wf → List ℕ := fun w => (List.range w.centers.length).filter fun i => decide (Hit ((wfWindows T δ yZero yUa w).getD i []) (P 0)) with hF
  have hz : ∀ p ∈ wfs.zip all.offenders, p.1 ∈ wfs ∧ p.2 = F p.1 := by
    intro p hp
    rw [hall.offenders] at hp
    exact zip_map_self wfs F p hp
  have hzz : ∀ w ∈ wfs, (w, F w) ∈ wfs.zip all.offenders := by
    intro w hw
    rw [hall.offenders]
    obtain ⟨i, hi, rfl⟩ := List.getElem_of_mem hw
    rw [List.mem_iff_getElem]
    refine ⟨i, by simpa using hi, by simp [hF]⟩
  set a0 : ℕ → ℕ → ℚ := fun x y => if (x, y) ∈ circles lib res all.hits then 1 else 0 with ha0
  have h01 : ∀ x y, 0 ≤ a0 x y ∧ a0 x y ≤ 1 := by
    intro x y
    rw [ha0]
    simp only
    split_ifs <;> norm_num
  obtain ⟨r, b, er, hr, hb, -⟩ := loop_spec lib hlib junk res T δ yZero yUa hy (wfs.zip all.offenders) (by
    intro p hp i hi
    rw [(hz p hp).2] at hi
    exact List.mem_range.1 (List.mem_filter.1 hi).1) 0 (red res a0) a0 (red_alpha res a0 h01)
  refine ⟨r, b, er, hr.1, ?_⟩
  intro x y
  obtain ⟨h1, h2, h3⟩ := hr.2 x y
  obtain ⟨b1, b2, b3⟩ := hb x y
  refine ⟨h1, h2, h3, ?_, ?_, ?_⟩
  · intro wf hwf w hw h hh hc
    have : a0 x y = 1 := by
      rw [ha0]
      simp only
      rw [if_pos]
      rw [circles_spec, circ]
      exact ⟨wf, hwf, w, hw, h, hh, hc⟩
    linarith
  · intro hne
    rcases b2 hne with h | ⟨hx, hy', p, hp, w, hw, hs⟩
    · left
      rw [← circ, ← circles_spec]
      by_contra hn
      apply h
      rw [ha0]
      simp only
      rw [if_neg hn]
    · right
      obtain ⟨p1, p2⟩ := hz p hp
      have hp' : p = (p.1, F p.1) := Prod.ext rfl p2
      rw [hp'] at hw
      exact ⟨hx, hy', p.1, p1, w, (drawn_iff P T δ yZero yUa p.1 w).1 hw, hs⟩
  · intro hx hy' wf hwf w hw hc
    exact (b3 hx hy' (wf, F wf) (hzz wf hwf) w ((drawn_iff P T δ yZero yUa wf w).2 hw) hc).ne'

/-- **C77.** If no symbol is bad, the image of the hits is transparent. -/
theorem C77_no_hits (lib : Library) (hlib : Coverage lib) (junk : ℕ → ℕ → ℕ → ℕ → Option ℚ) (res : ℕ) (P : ℚ → List (List Pt)) (T δ yZero yUa : ℚ)
    (hy : yUa ≠ 0) (wfs : List Wf) (all : MaskAll) (hall : Exact P T δ yZero yUa wfs all) (hno : all.count = 0) :
    ∃ m, hitsImage lib junk res δ T yZero yUa wfs all = .ok m ∧ ∀ x y, m.px x y 3 = some 0 := by
  obtain ⟨m, a, e, -, h⟩ := C77_hits lib hlib junk res P T δ yZero yUa hy wfs all hall
  have hno' : ∀ wf ∈ wfs, ∀ w ∈ wfWindows T δ yZero yUa wf, ¬ Hit w (P 0) := by
    intro wf hwf w hw hhit
    rw [hall.count, List.countP_eq_zero] at hno
    exact hno w (List.mem_flatMap.2 ⟨wf, hwf, hw⟩) (decide_eq_true hhit)
  refine ⟨m, e, fun x y => ?_⟩
  obtain ⟨h1, -, -, -, h2, -⟩ := h x y
  rw [h1]
  congr 1
  by_contra hne
  rcases h2 hne with ⟨wf, hwf, w, hw, p, hp, -⟩ | ⟨-, -, wf, hwf, w, hw, -⟩
  · exact hno' wf hwf w hw ((hit_iff_hits w (P 0)).2 (List.ne_nil_of_mem hp))
  · have := List.mem_of_mem_take hw
    unfold offending at this
    rw [List.mem_filter] at this
    exact hno' wf hwf w this.1 (of_decide_eq_true this.2)

/-- **C77, in part.** What is visible in the image of the hits is red, if the uninitialised memory that `layer_rgba` leaves in transparent pixels is
finite for all waveforms but the last.  Missing: memory that holds nan or inf, see `C77_red_fails`. -/
theorem C77_red_partial (lib : Library) (hlib : Coverage lib) (junk : ℕ → ℕ → ℕ → ℕ → Option ℚ) (res : ℕ) (P : ℚ → List (List Pt))
    (T δ yZero yUa : ℚ) (hy : yUa ≠ 0) (wfs : List Wf) (all : MaskAll) (hall : Exact P T δ yZero yUa wfs all)
    (hj : ∀ n, n + 1 < wfs.length → ∀ x y k, junk n x y k ≠ none) :
    ∃ m, hitsImage lib junk res δ T yZero yUa wfs all = .ok m ∧
      ∀ x y, m.px x y 3 ≠ some 0 → m.px x y 0 = some 1 ∧ m.px x y 1 = some 0 ∧ m.px x y 2 = some 0 := by
  set a0 : ℕ → ℕ → ℚ := fun x y => if (x, y) ∈ circles lib res all.hits then 1 else 0 with ha0
  have h01 : ∀ x y, 0 ≤ a0 x y ∧ a0 x y ≤ 1 := by
    intro x y
    rw [ha0]
    simp only
    split_ifs <;> norm_num
  obtain ⟨r, b, er, -, -, h⟩ := loop_spec lib hlib junk res T δ yZero yUa hy (wfs.zip all.offenders) (by
    intro p hp i hi
    rw [hall.offenders] at hp
    rw [(zip_map_self wfs _ p hp).2] at hi
    exact List.mem_range.1 (List.mem_filter.1 hi).1) 0 (red res a0) a0 (red_alpha res a0 h01)
  refine ⟨r, er, h ?_ ?_ ?_⟩
  · intro x y k
    exact Option.some_ne_none _
  · intro x y _
    exact ⟨rfl, rfl, rfl⟩
  · intro j _ hj2
    apply hj j
    have : (wfs.zip all.offenders).length = wfs.length := by rw [hall.offenders]; simp
    omega

/-! ### The other images -/

/-- The cell `(x, y)` of a drawing is in row `res - 1 - y`, column `x` of the image: up is up. -/
theorem turn_px (res : ℕ) (m : Img) (x y k : ℕ) (hy : y < res) : (turn res m).px (res - 1 - y) x k = m.px x y k := by
  unfold turn
  simp only
  congr 1
  omega

/-- **C77.** Without a mask the images of the mask, the hits and the margin are transparent. -/
theorem C77_no_mask (lib : Library) (junk : ℕ → ℕ → ℕ → ℕ → Option ℚ) (res : ℕ) (lower upper T δ yZero yUa : ℚ) (wfs : List Wf) (heat : ℕ → ℕ → ℚ) :
    ∃ m, images lib junk res lower upper δ T yZero yUa wfs heat none = .ok m ∧
      ∀ r c, m.mask.px r c 3 = some 0 ∧ m.hits.px r c 3 = some 0 ∧ m.margin.px r c 3 = some 0 :=
  ⟨_, rfl, fun _ _ => ⟨rfl, rfl, rfl⟩⟩

/-- **C77.** The images of the mask and of the margin: half transparent magenta on the polygons, in the orientation of the heat map; nothing
elsewhere. -/
theorem C77_mask (lib : Library) (junk : ℕ → ℕ → ℕ → ℕ → Option ℚ) (res : ℕ) (lower upper T δ yZero yUa : ℚ) (wfs : List Wf) (heat : ℕ → ℕ → ℚ)
    (s : Shown) (m : Images) (h : images lib junk res lower upper δ T yZero yUa wfs heat (some s) = .ok m) (x y : ℕ) (hy : y < res) :
    (∀ p ∈ [(m.mask, s.paths), (m.margin, s.adjusted)],
      ((∃ path ∈ p.2, (x, y) ∈ lib.polygon res (path.map fun q => (uiaPos res q.1, uiaPos res q.2))) →
        [0, 1, 2, 3].map (p.1.px (res - 1 - y) x) = [some 1, some 0, some 1, some (1 / 2)]) ∧
      ((¬ ∃ path ∈ p.2, (x, y) ∈ lib.polygon res (path.map fun q => (uiaPos res q.1, uiaPos res q.2))) → p.1.px (res - 1 - y) x 3 = some 0)) ∧
    ∃ hits, hitsImage lib junk res δ T yZero yUa wfs s.all = .ok hits ∧ ∀ k, m.hits.px (res - 1 - y) x k = hits.px x y k := by
  unfold images at h
  simp only [bind, Except.bind, pure, Except.pure] at h
  split at h
  · cases h
  · rename_i hits hh
    obtain rfl := Except.ok.inj h
    refine ⟨?_, hits, hh, fun k => turn_px res hits x y k hy⟩
    have key : ∀ paths : List (List Pt), (x, y) ∈ maskCells lib res paths ↔
        ∃ path ∈ paths, (x, y) ∈ lib.polygon res (path.map fun q => (uiaPos res q.1, uiaPos res q.2)) := by
      intro paths
      unfold maskCells
      rw [List.mem_flatMap]
    intro p hp
    have hp' : p.1 = turn res (maskImage lib res p.2) := by
      simp only [List.mem_cons, List.not_mem_nil, or_false] at hp
      rcases hp with rfl | rfl <;> rfl
    rw [← key p.2, hp']
    simp only [List.map_cons, List.map_nil, turn_px _ _ _ _ _ hy]
    constructor
    · intro hin
      simp [maskImage, square, hin]
    · intro hin
      simp [maskImage, square, hin]

theorem onLine_iff (res : ℕ) (u : ℚ) (x : ℕ) (hx : x < res) : onLine res u x = true ↔ (x : ℤ) = uiaPos res u := by
  unfold onLine uiaToImage
  rw [decide_eq_true_iff]
  split_ifs with h
  · rw [List.mem_singleton]
  · simp only [List.not_mem_nil, false_iff]
    intro e
    apply h
    rw [← e]
    constructor
    · positivity
    · exact_mod_cast hx.le

/-- The reference lines for times and levels, with the distance of the dots: those of 0 and 1 are solid, every third pixel of those of 1/2 is shown,
every tenth of those of the quarters. -/
def gridLines : List (ℚ × ℕ) := [(0, 1), (1, 1), (1 / 2, 3), (-1 / 4, 10), (1 / 4, 10), (3 / 4, 10), (5 / 4, 10)]

/-- **C77.** The reference lines are where they should be, in the coordinates of the samples of the heat map (C59_pixels), for times and for levels, and
every fifth pixel of the levels between which the edges are measured; what is visible is yellow, nothing else is visible. -/
theorem C77_grid (lib : Library) (junk : ℕ → ℕ → ℕ → ℕ → Option ℚ) (res : ℕ) (lower upper T δ yZero yUa : ℚ) (wfs : List Wf) (heat : ℕ → ℕ → ℚ)
    (s : Option Shown) (m : Images) (h : images lib junk res lower upper δ T yZero yUa wfs heat s = .ok m) (x y : ℕ) (hx : x < res) (hy : y < res) :
    let on := (∃ l ∈ gridLines, (x : ℤ) = uiaPos res l.1 ∧ l.2 ∣ y ∨ (y : ℤ) = uiaPos res l.1 ∧ l.2 ∣ x) ∨
      ∃ u ∈ [lower, upper], (y : ℤ) = uiaPos res u ∧ 5 ∣ x
    (on → [0, 1, 2, 3].map (m.grid.px (res - 1 - y) x) = [some 1, some 1, some 0, some 1]) ∧
    (¬ on → m.grid.px (res - 1 - y) x 3 = some 0) := by
  intro on
  have hg : m.grid = turn res (gridImage res lower upper) := by
    unfold images at h
    cases s with
    | none => obtain rfl := Except.ok.inj h; rfl
    | some s =>
      simp only [bind, Except.bind, pure, Except.pure] at h
      split at h
      · cases h
      · obtain rfl := Except.ok.inj h; rfl
  rw [hg]
  simp only [List.map_cons, List.map_nil, turn_px _ _ _ _ _ hy]
  have px3 : (gridImage res lower upper).px x y 3 = some (if gridOn res lower upper x y then 1 else 0) := by simp [gridImage, square]
  have hon : gridOn res lower upper x y = true ↔ on := by
    unfold gridOn
    simp only [Bool.or_eq_true, Bool.and_eq_true, List.any_cons, List.any_nil, Bool.or_false, onLine_iff res _ x hx, onLine_iff res _ y hy, beq_iff_eq,
      on, gridLines, List.mem_cons, List.not_mem_nil, or_false, exists_eq_or_imp, exists_eq_left, Nat.dvd_iff_mod_eq_zero, Nat.mod_one, and_true]
    exact iff_of_eq (by ac_rfl)
  constructor
  · intro h1
    rw [px3, if_pos (hon.2 h1)]
    simp [gridImage, square]
  · intro h1
    rw [px3, if_neg (fun h2 => h1 (hon.1 h2))]

theorem heatMax_spec (res : ℕ) (heat : ℕ → ℕ → ℚ) (hpos : ∀ r c, 0 ≤ heat r c) (r c : ℕ) (hr : r < res) (hc : c < res) (hne : heat r c ≠ 0) :
    ∃ M, heatMax res heat = some M ∧ 0 < M ∧ (∀ r' < res, ∀ c' < res, heat r' c' ≤ M) ∧ ∃ r' < res, ∃ c' < res, heat r' c' = M := by
  set L := ((List.range res).flatMap fun r : ℕ => (List.range res).map fun c : ℕ => heat r c).filter (· ≠ 0) with hL
  have mem : ∀ v, v ∈ L ↔ v ≠ 0 ∧ ∃ r < res, ∃ c < res, heat r c = v := by
    intro v
    rw [hL, List.mem_filter, List.mem_flatMap]
    simp only [List.mem_range, List.mem_map, decide_eq_true_eq]
    exact and_comm
  have hin : heat r c ∈ L := (mem _).2 ⟨hne, r, hr, c, hc, rfl⟩
  cases hm : L.max? with
  | none => rw [List.max?_eq_none_iff.1 hm] at hin; simp at hin
  | some M =>
    obtain ⟨h1, h2⟩ := List.max?_eq_some_iff.1 hm
    obtain ⟨h3, r', hr', c', hc', e⟩ := (mem M).1 h1
    have hM : 0 < M := lt_of_le_of_ne (e ▸ hpos r' c') (Ne.symm h3)
    refine ⟨M, hm, hM, ?_, r', hr', c', hc', e⟩
    intro r'' hr'' c'' hc''
    by_cases h0 : heat r'' c'' = 0
    · rw [h0]; exact hM.le
    · exact h2 _ ((mem _).2 ⟨h0, r'', hr'', c'', hc'', rfl⟩)

/-- **C77.** The image of the waveforms: a pixel is transparent exactly where the heat map is zero; elsewhere it has the colour of the fraction of
the largest value of the heat map, in (0, 1].  Assumed of the colour map: nan is transparent, values are opaque. -/
theorem C77_clean (lib : Library) (hnan : lib.jet none 3 = 0) (hval : ∀ v, lib.jet (some v) 3 = 1) (junk : ℕ → ℕ → ℕ → ℕ → Option ℚ) (res : ℕ)
    (lower upper T δ yZero yUa : ℚ) (wfs : List Wf) (heat : ℕ → ℕ → ℚ) (hpos : ∀ r c, 0 ≤ heat r c)
    (s : Option Shown) (m : Images) (h : images lib junk res lower upper δ T yZero yUa wfs heat s = .ok m) (r c : ℕ) (hr : r < res) (hc : c < res) :
    (m.clean.px r c 3 = some 0 ↔ heat r c = 0) ∧
    (heat r c ≠ 0 → ∃ M v, (∀ r' < res, ∀ c' < res, heat r' c' ≤ M) ∧ (∃ r' < res, ∃ c' < res, heat r' c' = M) ∧ v * M = heat r c ∧
      0 < v ∧ v ≤ 1 ∧ ∀ k, m.clean.px r c k = some (lib.jet (some v) k)) := by
  have hg : m.clean = cleanImage lib res heat := by
    unfold images at h
    cases s with
    | none => obtain rfl := Except.ok.inj h; rfl
    | some s =>
      simp only [bind, Except.bind, pure, Except.pure] at h
      split at h
      · cases h
      · obtain rfl := Except.ok.inj h; rfl
  rw [hg]
  have px : ∀ k, (cleanImage lib res heat).px r c k = some (lib.jet (fraction res heat r c) k) := fun k => rfl
  by_cases h0 : heat r c = 0
  · have : fraction res heat r c = none := by unfold fraction; rw [if_pos h0]
    refine ⟨?_, fun h => absurd h0 h⟩
    rw [px, this, hnan]
    simp [h0]
  · obtain ⟨M, e, hM, hle, hat⟩ := heatMax_spec res heat hpos r c hr hc h0
    have hf : fraction res heat r c = some (heat r c / M) := by unfold fraction; rw [if_neg h0, e]; rfl
    refine ⟨?_, fun _ => ⟨M, heat r c / M, hle, hat, div_mul_cancel₀ _ hM.ne', ?_, ?_, fun k => by rw [px, hf]⟩⟩
    · rw [px, hf, hval]
      simp [h0]
    · exact div_pos (lt_of_le_of_ne (hpos r c) (Ne.symm h0)) hM
    · rw [div_le_one hM]
      exact hle r hr c hc

/-- The heat map is not negative. -/
theorem heat_nonneg (g : Grid) (n : ℕ) (pc : Bool) (r c : ℕ) : 0 ≤ heatmap g n pc r c := by
  unfold heatmap rot90 scaled
  split_ifs <;> positivity

/-- **C77.** The margin image shows a mask that no symbol hits (if there is one), the mask image the mask itself: hexagons. -/
theorem C77_hexagon (m c : Mask.Hexagon) (T δ yZero yUa : ℚ) (hT : 0 < T) (hδ : 0 < δ) (hm : m.convert yUa T = .ok c)
    (hx : 0 ≤ c.x1.v ∧ c.x1.v ≤ c.x2.v ∧ c.x2.v ≤ 1 / 2 ∧ c.x1.v < 1 / 2) (hy : 0 ≤ c.y1.v ∧ c.y1.v < 1 / 2)
    (hu : 0 ≤ c.yu.v ∧ c.yu.v ≤ 1 / 2) (hl : 0 ≤ c.yl.v ∧ c.yl.v ≤ 1 / 2) (wfs : List Wf)
    (hin : ∀ w ∈ wfs, ∀ k ∈ w.centers, Inside T δ w.y.length k ∧ k.t ≤ 0) (hr : InRange yZero yUa wfs) :
    ∃ all s, sampleHexMask m δ T yZero yUa wfs = .ok all ∧ hexShown c all = .ok s ∧ s.all = all ∧ Exact (hexP c) T δ yZero yUa wfs all ∧
      c.paths = .ok s.paths ∧ (∃ d, c.adjust all.margin = .ok d ∧ d.paths = .ok s.adjusted) ∧
      (-1 < all.margin → ∀ wf ∈ wfs, ∀ w ∈ wfWindows T δ yZero yUa wf, isHitting w s.adjusted = .ok false) := by
  obtain ⟨all, e, hall, hp⟩ := C42_hexagon m c T δ yZero yUa hT hδ hm hx hy hu hl wfs hin hr
  have hc := hex_converted m c yUa T hm
  obtain ⟨h1, h2, h3⟩ := hexP_eq c hc hx.2.2.2.ne all.margin
  refine ⟨all, ⟨hexP c 0, hexP c all.margin, all⟩, e, ?_, rfl, hall, hp, ⟨_, h1, h2⟩, ?_⟩
  · unfold hexShown
    simp only [bind, Except.bind, pure, Except.pure, hp, h1, h2]
  · intro hgt wf hwf w hw
    have hno : ¬ Hit w (hexP c all.margin) := by
      by_cases hex : ∃ f ∈ margins, ∀ w ∈ wfs.flatMap (wfWindows T δ yZero yUa), ¬ Hit w (hexP c f)
      · exact (hall.margin.1 hex).1.2 w (List.mem_flatMap.2 ⟨wf, hwf, hw⟩)
      · have := hall.margin.2 hex
        linarith
    have hmono : NonDecreasing w := by
      obtain ⟨k, hk, rfl⟩ := List.mem_map.1 hw
      exact window_mono _ T δ hT hδ k (by simpa [normalise] using (hin wf hwf k hk).1)
    rw [hit_cases w _ hmono h3, decide_eq_false hno]

/-- **C77.** The margin image shows a mask that no symbol hits (if there is one), the mask image the mask itself: decagons. -/
theorem C77_decagon (m c : Mask.Decagon) (T δ yZero yUa : ℚ) (hT : 0 < T) (hδ : 0 < δ) (hm : m.convert yUa T = .ok c)
    (hx : 0 ≤ c.x1.v ∧ c.x1.v ≤ c.x2.v ∧ c.x2.v ≤ c.x3.v ∧ c.x3.v ≤ 1 / 2 ∧ c.x1.v < 1 / 2)
    (hy : 0 ≤ c.y1.v ∧ c.y1.v < c.y2.v ∧ c.y2.v < 1 / 2) (hconv : (c.x2.v - c.x1.v) * (c.y2.v - c.y1.v) ≤ (c.x3.v - c.x2.v) * (1 / 2 - c.y2.v))
    (hu : 0 ≤ c.yu.v ∧ c.yu.v ≤ 1 / 2) (hl : 0 ≤ c.yl.v ∧ c.yl.v ≤ 1 / 2) (wfs : List Wf)
    (hin : ∀ w ∈ wfs, ∀ k ∈ w.centers, Inside T δ w.y.length k ∧ k.t ≤ 0) (hr : InRange yZero yUa wfs) :
    ∃ all s, sampleDecMask m δ T yZero yUa wfs = .ok all ∧ decShown c all = .ok s ∧ s.all = all ∧ Exact (decP c) T δ yZero yUa wfs all ∧
      c.paths = .ok s.paths ∧ (∃ d, c.adjust all.margin = .ok d ∧ d.paths = .ok s.adjusted) ∧
      (-1 < all.margin → ∀ wf ∈ wfs, ∀ w ∈ wfWindows T δ yZero yUa wf, isHitting w s.adjusted = .ok false) := by
  obtain ⟨all, e, hall, hp⟩ := C42_decagon m c T δ yZero yUa hT hδ hm hx hy hconv hu hl wfs hin hr
  have hc := dec_converted m c yUa T hm
  obtain ⟨h1, h2, h3⟩ := decP_eq c hc hx.2.2.2.2.ne (hy.2.1.trans hy.2.2).ne all.margin
  refine ⟨all, ⟨decP c 0, decP c all.margin, all⟩, e, ?_, rfl, hall, hp, ⟨_, h1, h2⟩, ?_⟩
  · unfold decShown
    simp only [bind, Except.bind, pure, Except.pure, hp, h1, h2]
  · intro hgt wf hwf w hw
    have hno : ¬ Hit w (decP c all.margin) := by
      by_cases hex : ∃ f ∈ margins, ∀ w ∈ wfs.flatMap (wfWindows T δ yZero yUa), ¬ Hit w (decP c f)
      · exact (hall.margin.1 hex).1.2 w (List.mem_flatMap.2 ⟨wf, hwf, hw⟩)
      · have := hall.margin.2 hex
        linarith
    have hmono : NonDecreasing w := by
      obtain ⟨k, hk, rfl⟩ := List.mem_map.1 hw
      exact window_mono _ T δ hT hδ k (by simpa [normalise] using (hin wf hwf k hk).1)
    rw [hit_cases w _ hmono h3, decide_eq_false hno]

/-! ### The stacked pictures -/

/-- All values are finite and in [0, 1]. -/
def Fraction (res : ℕ) (m : Img) (f : ℕ → ℕ → ℕ → ℚ) : Prop :=
  m = Image.img res res f ∧ ∀ r c k, 0 ≤ f r c k ∧ f r c k ≤ 1

/-- One image over another, as it should be: alpha `a + b (1 - a)`, colours weighted by their alphas. -/
def Over (r c : ℕ) (above below out : ℕ → ℕ → ℕ → ℚ) : Prop :=
  out r c 3 = above r c 3 + below r c 3 * (1 - above r c 3) ∧
  ∀ k < 3, out r c k * out r c 3 = above r c k * above r c 3 + below r c k * below r c 3 * (1 - above r c 3)

theorem layer_over (junk : ℕ → ℕ → ℕ → ℚ) (res : ℕ) (b a : ℕ → ℕ → ℕ → ℚ) (hb : ∀ r c, 0 ≤ b r c 3 ∧ b r c 3 ≤ 1) (ha : ∀ r c, 0 ≤ a r c 3 ∧ a r c 3 ≤ 1) :
    ∃ f, layer (fun i j k => some (junk i j k)) (Image.img res res b) (Image.img res res a) = .ok (Image.img res res f) ∧
      (∀ r c, 0 ≤ f r c 3 ∧ f r c 3 ≤ 1) ∧ ∀ r c, Over r c a b f := by
  refine ⟨_, Image.layer_img junk res res b a, ?_, ?_⟩
  · intro r c
    obtain ⟨_, _, h1, h2⟩ := Image.alpha_bounds (ha r c) (hb r c)
    simpa using ⟨h2, h1⟩
  · intro r c
    have e3 : ¬ (3 < 3) := lt_irrefl 3
    refine ⟨by simp [Image.alpha], ?_⟩
    intro k hk
    simp only [hk, if_true, e3, if_false]
    exact Image.tint_mul _ _ _ _ _ (ha r c) (hb r c)

/-- **C77, in part.** The stacked pictures are the hits over the mask over the waveforms over the grid, and the margin over the waveforms over the
grid, if the uninitialised memory of the layers below the top is finite.  Missing: nan and inf in that memory, see `C77_stack_fails`. -/
theorem C77_stack_partial (j0 j1 j2 j3 j4 : ℕ → ℕ → ℕ → ℚ) (res : ℕ) (m : Images) (clean grid mask hits margin : ℕ → ℕ → ℕ → ℚ)
    (h1 : Fraction res m.clean clean) (h2 : Fraction res m.grid grid) (h3 : Fraction res m.mask mask) (h4 : Fraction res m.hits hits)
    (h5 : Fraction res m.margin margin) :
    ∃ a b f1 f2 f3 g1 g2, stacked (fun n i j k => some (([j0, j1, j2, j3, j4].getD n j0) i j k)) m = .ok (a, b) ∧
      a = Image.img res res f3 ∧ b = Image.img res res g2 ∧
      ∀ r c, Over r c clean grid f1 ∧ Over r c mask f1 f2 ∧ Over r c hits f2 f3 ∧ Over r c clean grid g1 ∧ Over r c margin g1 g2 := by
  obtain ⟨f1, e1, b1, o1⟩ := layer_over j0 res grid clean (fun r c => h2.2 r c 3) (fun r c => h1.2 r c 3)
  obtain ⟨f2, e2, b2, o2⟩ := layer_over j1 res f1 mask b1 (fun r c => h3.2 r c 3)
  obtain ⟨f3, e3, b3, o3⟩ := layer_over j2 res f2 hits b2 (fun r c => h4.2 r c 3)
  obtain ⟨g1, e4, b4, o4⟩ := layer_over j3 res grid clean (fun r c => h2.2 r c 3) (fun r c => h1.2 r c 3)
  obtain ⟨g2, e5, b5, o5⟩ := layer_over j4 res g1 margin b4 (fun r c => h5.2 r c 3)
  refine ⟨_, _, f1, f2, f3, g1, g2, ?_, rfl, rfl, fun r c => ⟨o1 r c, o2 r c, o3 r c, o4 r c, o5 r c⟩⟩
  unfold stacked
  rw [h1.1, h2.1, h3.1, h4.1, h5.1]
  simp only [bind, Except.bind, pure, Except.pure, List.getD_cons_zero, List.getD_cons_succ]
  rw [e1]; simp only
  rw [e2]; simp only
  rw [e3]; simp only
  rw [e4]; simp only
  rw [e5]

/-- A library that draws end points, a cell right of the centre of a circle, corners of polygons, and black. -/
def exLib : Library :=
  ⟨fun p q => [(p, 1), (q, 1)], fun _ x y r => [((x + r).toNat, y.toNat)], fun _ l => l.map fun p => (p.1.toNat, p.2.toNat),
   fun v k => if v.isSome ∧ k = 3 then 1 else 0⟩

theorem exLib_coverage : Coverage exLib := by
  intro p q e he
  simp only [exLib, List.mem_cons, List.not_mem_nil, or_false] at he
  rcases he with rfl | rfl <;> norm_num

/-- A waveform that does not hit the mask and one that does. -/
def exTwo : List Wf := exWfs.reverse

theorem exTwo_exact : ∃ all, sampleHexMask exHexZero 1 4 0 1 exTwo = .ok all ∧ Exact (hexP exHexConv) 4 1 0 1 exTwo all := by
  have hs : ∀ w ∈ exTwo, ∀ k ∈ w.centers, Inside 4 1 w.y.length k ∧ k.t ≤ 0 := by
    intro w hw
    simp only [exTwo, List.mem_reverse, exWfs, List.mem_cons, List.not_mem_nil, or_false] at hw
    rcases hw with rfl | rfl
    · exact sampled_ok 4 1 0 (by norm_num) 18 _
    · exact sampled_ok 4 1 0 (by norm_num) 18 _
  obtain ⟨r, e, h, -⟩ := C42_hexagon exHexZero exHexConv 4 1 0 1 (by norm_num) (by norm_num) (by decide +kernel) (by decide +kernel)
    (by decide +kernel) (by decide +kernel) (by decide +kernel) exTwo hs (by unfold InRange exTwo exWfs; decide +kernel)
  exact ⟨r, e, h⟩

/-- **C77 fails**: two waveforms, the second hits the mask.  If the uninitialised memory of the first layer holds nan, the second waveform is opaque
but its colour is nan instead of red. -/
theorem C77_red_fails : ∃ all m, sampleHexMask exHexZero 1 4 0 1 exTwo = .ok all ∧
    hitsImage exLib (fun _ _ _ _ => none) 8 1 4 0 1 exTwo all = .ok m ∧ m.px 4 2 3 = some 1 ∧ m.px 4 2 0 = none := by
  obtain ⟨all, e, h⟩ := exTwo_exact
  obtain ⟨m, -, em, -⟩ := C77_hits exLib exLib_coverage (fun _ _ _ _ => none) 8 (hexP exHexConv) 4 1 0 1 (by norm_num) exTwo all h
  have ho : all.offenders = [[], [0]] := by rw [h.offenders]; decide +kernel
  have hh : all.hits = [(39 / 128, 17 / 20), (53 / 128, 3 / 20), (17 / 128, 5 / 4), (31 / 128, 5 / 4)] := by rw [h.hits]; decide +kernel
  have key : (hitsImage exLib (fun _ _ _ _ => none) 8 1 4 0 1 exTwo all).map (fun m => (m.px 4 2 3, m.px 4 2 0)) = .ok (some 1, none) := by
    unfold hitsImage
    rw [ho, hh]
    decide +kernel
  rw [em] at key
  have key' := Except.ok.inj key
  exact ⟨all, m, e, em, congrArg Prod.fst key', congrArg Prod.snd key'⟩

/-- The hypotheses of `C77_hits`, `C77_red_partial`, `C77_hexagon` are met by two waveforms, one of which hits the mask. -/
example : ∃ all m, sampleHexMask exHexZero 1 4 0 1 exTwo = .ok all ∧ hitsImage exLib (fun _ _ _ _ => some 7) 8 1 4 0 1 exTwo all = .ok m ∧
    m.px 4 2 3 = some 1 ∧ m.px 4 2 0 = some 1 ∧ m.px 6 5 3 = some 1 ∧ m.px 5 5 3 = some 0 := by
  obtain ⟨all, e, h⟩ := exTwo_exact
  obtain ⟨m, em, -⟩ := C77_red_partial exLib exLib_coverage (fun _ _ _ _ => some 7) 8 (hexP exHexConv) 4 1 0 1 (by norm_num) exTwo all h (by simp)
  have ho : all.offenders = [[], [0]] := by rw [h.offenders]; decide +kernel
  have hh : all.hits = [(39 / 128, 17 / 20), (53 / 128, 3 / 20), (17 / 128, 5 / 4), (31 / 128, 5 / 4)] := by rw [h.hits]; decide +kernel
  have key : (hitsImage exLib (fun _ _ _ _ => some 7) 8 1 4 0 1 exTwo all).map (fun m => (m.px 4 2 3, m.px 4 2 0, m.px 6 5 3, m.px 5 5 3)) =
      .ok (some 1, some 1, some 1, some 0) := by
    unfold hitsImage
    rw [ho, hh]
    decide +kernel
  rw [em] at key
  have key' := Except.ok.inj key
  simp only [Prod.mk.injEq] at key'
  exact ⟨all, m, e, em, key'⟩

/-- The transparent image. -/
def clear : ℕ → ℕ → ℕ → ℚ := fun _ _ _ => 0

/-- Half transparent magenta. -/
def magenta : ℕ → ℕ → ℕ → ℚ := fun _ _ k => if k = 0 ∨ k = 2 then 1 else if k = 3 then 1 / 2 else 0

/-- **C77 fails**: a pixel of the mask without waveforms and grid.  If the uninitialised memory of the first layer holds nan, the colour of the
stacked picture is nan, although the pixel is visible. -/
theorem C77_stack_fails : ∃ m a b, Fraction 1 m.clean clear ∧ Fraction 1 m.grid clear ∧ Fraction 1 m.mask magenta ∧ Fraction 1 m.hits clear ∧
    Fraction 1 m.margin magenta ∧ stacked (fun _ _ _ _ => none) m = .ok (a, b) ∧
    a.px 0 0 3 = some (1 / 2) ∧ a.px 0 0 0 = none ∧ b.px 0 0 3 = some (1 / 2) ∧ b.px 0 0 0 = none := by
  have hc : ∀ r c k, 0 ≤ clear r c k ∧ clear r c k ≤ 1 := by intro r c k; unfold clear; norm_num
  have hm : ∀ r c k, 0 ≤ magenta r c k ∧ magenta r c k ≤ 1 := by intro r c k; unfold magenta; split_ifs <;> norm_num
  refine ⟨⟨Image.img 1 1 clear, Image.img 1 1 clear, Image.img 1 1 magenta, Image.img 1 1 clear, Image.img 1 1 magenta⟩, _, _,
    ⟨rfl, hc⟩, ⟨rfl, hc⟩, ⟨rfl, hm⟩, ⟨rfl, hc⟩, ⟨rfl, hm⟩, rfl, ?_, ?_, ?_, ?_⟩
  all_goals decide +kernel

end Verif.Props.Draw
