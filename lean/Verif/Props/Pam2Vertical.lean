import Verif.Model.Pam2
import Verif.Props.EyeMask

/-!
C44: vertical sampling of the PAM2 eye diagram; C62: where the levels at the crossing are sampled; C12: the compiled version.
-/

namespace Verif.Props.Pam2Vertical

open Verif Verif.Lines Verif.Eye Verif.Pam2 Verif.Props.EyeWindow Verif.Props.EyeMask

/-! ### Specification -/

/-- Half the number of samples that belong to a symbol. -/
def halfWidth (T δ : ℚ) : ℕ := ⌊T / δ + 1 / 2⌋.toNat + 2

/-- The samples around a symbol: time in UI, where 1/2 is at the clock edge, and value. -/
def around (ys : List ℚ) (T δ : ℚ) (c : Center) : List (ℚ × ℚ) :=
  (List.range (2 * halfWidth T δ + 1)).map fun k : ℕ =>
    let j := c.i.toNat - halfWidth T δ + k
    (1 / 2 + (((j : ℚ) - c.i) * δ + c.t) / T, ys.getD j 0)

/-- The values of the samples no farther than half of `w` from the time `u`. -/
def near (l : List (ℚ × ℚ)) (u w : ℚ) : List ℚ := (l.filter fun p => decide (|p.1 - u| ≤ w / 2)).map Prod.snd

/-- The values of the samples for which `u` is the first of the centres of the previous, this and the next symbol that is no farther than half
of `w`. -/
def slot (l : List (ℚ × ℚ)) (u w : ℚ) : List ℚ :=
  (l.filter fun p => ([-1 / 2, 1 / 2, 3 / 2] : List ℚ).find? (fun v => decide (|p.1 - v| ≤ w / 2)) == some u).map Prod.snd

/-- The average is above a level. -/
def isHigh (half : ℚ) (l : List ℚ) : Bool := decide (l ≠ [] ∧ half < l.sum / l.length)

/-- The width of the decision windows: at least a bit more than a sample. -/
def decisionWidth (levelWidth T δ : ℚ) : ℚ := max levelWidth (101 / 100 * (δ / T))

/-- The logic level of the previous (`u = -1/2`), this (`1/2`) or the next (`3/2`) symbol. -/
def logic (ys : List ℚ) (T δ half levelWidth u : ℚ) (c : Center) : Bool :=
  isHigh half (slot (around ys T δ c) u (decisionWidth levelWidth T δ))

/-! ### The samples -/

theorem halfWidth_eq (T δ : ℚ) (hT : 0 < T) (hδ : 0 < δ) : iWidth T δ = halfWidth T δ := by
  unfold iWidth halfWidth
  have h := div_pos hT hδ
  rw [pyInt_nonneg _ (by linarith)]
  have h3 : 0 ≤ ⌊T / δ + 1 / 2⌋ := Int.floor_nonneg.2 (by linarith)
  push_cast
  omega

theorem grid_eq (T δ : ℚ) (hT : 0 < T) (hδ : 0 < δ) :
    gridT T δ = (List.range (2 * halfWidth T δ + 1)).map fun k : ℕ => 1 / 2 + ((k : ℚ) - halfWidth T δ) * δ / T := by
  have hw : 2 ≤ halfWidth T δ := by unfold halfWidth; omega
  unfold gridT Stats.linspace
  simp only [halfWidth_eq T δ hT hδ]
  rw [show (2 * (halfWidth T δ : ℤ)).toNat = 2 * halfWidth T δ by omega]
  apply List.map_congr_left
  intro k _
  generalize halfWidth T δ = w at *
  have hw0 : (w : ℚ) ≠ 0 := by exact_mod_cast (by omega : w ≠ 0)
  have e : ((1 : ℚ) / 2 + (w : ℤ) * δ / T - (1 / 2 - (w : ℤ) * δ / T)) / ((2 * w : ℕ) : ℚ) = δ / T := by
    push_cast
    rw [div_eq_iff (by positivity)]
    ring
  rw [e]
  push_cast
  ring

theorem mem_grid (T δ : ℚ) (hT : 0 < T) (hδ : 0 < δ) (p : ℚ × ℕ) (hp : p ∈ (gridT T δ).zipIdx) :
    p.2 < 2 * halfWidth T δ + 1 ∧ p.1 = 1 / 2 + ((p.2 : ℚ) - halfWidth T δ) * δ / T := by
  rw [grid_eq T δ hT hδ] at hp
  obtain ⟨h1, h2⟩ := List.mem_zipIdx' (x := p.1) (i := p.2) hp
  refine ⟨by simpa using h1, ?_⟩
  rw [h2]
  simp only [List.getElem_map, List.getElem_range]

theorem around_eq (ys : List ℚ) (T δ : ℚ) (hT : 0 < T) (hδ : 0 < δ) (c : Center) (hc : Inside T δ ys.length c) :
    around ys T δ c = (gridT T δ).zipIdx.map fun p => (p.1 + c.t / T, ys.getD (c.i.toNat - halfWidth T δ + p.2) 0) := by
  obtain ⟨hc1, hc2⟩ := hc
  rw [halfWidth_eq T δ hT hδ] at hc1 hc2
  rw [grid_eq T δ hT hδ]
  unfold around
  apply List.ext_getElem
  · simp
  · intro k h1 h2
    simp only [List.getElem_map, List.getElem_range, List.getElem_zipIdx, Prod.mk.injEq]
    constructor
    · have e : ((c.i.toNat - halfWidth T δ + k : ℕ) : ℚ) - c.i = (k : ℚ) - halfWidth T δ := by
        have : ((c.i.toNat - halfWidth T δ + k : ℕ) : ℤ) - c.i = (k : ℤ) - halfWidth T δ := by omega
        exact_mod_cast this
      rw [e]
      ring
    · rw [Nat.zero_add]

theorem points_eq (ys : List ℚ) (T δ : ℚ) (hT : 0 < T) (hδ : 0 < δ) (c : Center) (hc : Inside T δ ys.length c) :
    points ys T δ c = .ok (around ys T δ c) := by
  rw [around_eq ys T δ hT hδ c hc]
  unfold points
  apply mapM_ok
  intro p hp
  obtain ⟨h1, -⟩ := mem_grid T δ hT hδ p hp
  obtain ⟨hc1, hc2⟩ := hc
  rw [halfWidth_eq T δ hT hδ] at hc1 hc2 ⊢
  have e : c.i - halfWidth T δ + (p.2 : ℤ) = ((c.i.toNat - halfWidth T δ + p.2 : ℕ) : ℤ) := by omega
  have hl : c.i.toNat - halfWidth T δ + p.2 < ys.length := by omega
  unfold pyGetZ pyGet
  rw [e, if_pos (by omega), Int.toNat_natCast, List.getElem?_eq_getElem hl]
  simp only [bind, Except.bind, pure, Except.pure]
  rw [List.getD_eq_getElem?_getD, List.getElem?_eq_getElem hl]
  rfl

theorem pointsC_eq (mem : ℤ → ℚ) (ys : List ℚ) (T δ : ℚ) (hT : 0 < T) (hδ : 0 < δ) (c : Center) (hc : Inside T δ ys.length c) :
    pointsC mem ys T δ c = around ys T δ c := by
  rw [around_eq ys T δ hT hδ c hc]
  unfold pointsC
  apply List.map_congr_left
  intro p hp
  obtain ⟨h1, -⟩ := mem_grid T δ hT hδ p hp
  obtain ⟨hc1, hc2⟩ := hc
  rw [halfWidth_eq T δ hT hδ] at hc1 hc2 ⊢
  have e : c.i - halfWidth T δ + (p.2 : ℤ) = ((c.i.toNat - halfWidth T δ + p.2 : ℕ) : ℤ) := by omega
  have hl : c.i.toNat - halfWidth T δ + p.2 < ys.length := by omega
  unfold rawGet
  rw [e, if_pos (by omega), Int.toNat_natCast]

theorem within_iff (u w t : ℚ) : within (u - w / 2) (u + w / 2) t = decide (|t - u| ≤ w / 2) := by
  unfold within
  rw [← Bool.decide_and, decide_eq_decide, abs_le]
  constructor
  · rintro ⟨h1, h2⟩; constructor <;> linarith
  · rintro ⟨h1, h2⟩; constructor <;> linarith

theorem slot_iff (f : ℚ → Bool) :
    ((([-1 / 2, 1 / 2, 3 / 2] : List ℚ).find? f == some (-1 / 2)) = f (-1 / 2)) ∧
    ((([-1 / 2, 1 / 2, 3 / 2] : List ℚ).find? f == some (1 / 2)) = (!f (-1 / 2) && f (1 / 2))) ∧
    ((([-1 / 2, 1 / 2, 3 / 2] : List ℚ).find? f == some (3 / 2)) = (!f (-1 / 2) && !f (1 / 2) && f (3 / 2))) := by
  simp only [List.find?_cons, List.find?_nil]
  cases f (-1 / 2) <;> cases f (1 / 2) <;> cases f (3 / 2) <;> decide +kernel

theorem samples_eq (lw cw abc : ℚ) (l : List (ℚ × ℚ)) :
    samples lw cw abc l = ⟨slot l (-1 / 2) abc, slot l (1 / 2) abc, slot l (3 / 2) abc, near l (1 / 2) lw, near l 0 cw, near l (1 / 2) lw,
      (l.filter fun p => decide (0 ≤ p.1 ∧ p.1 ≤ 1)).map Prod.snd⟩ := by
  unfold samples near slot
  simp only [within_iff, slot_iff]
  simp only [within, Bool.decide_and]

theorem above_eq (half : ℚ) (l : List ℚ) : above half l = isHigh half l := by
  unfold above isHigh mean
  by_cases h : l = []
  · simp [h]
  · simp [h]

theorem aboveC_eq (half : ℚ) (l : List ℚ) : aboveC half l = isHigh half l := by
  unfold aboveC isHigh
  rw [decide_eq_decide]
  by_cases h : l = []
  · simp [h]
  · have : (0 : ℚ) < l.length := by exact_mod_cast List.length_pos_iff.2 h
    rw [lt_div_iff₀ this]
    simp [h]

/-! ### The loop -/

theorem foldlM_ok {α β : Type} (f : β → α → Except PyErr β) (g : β → α → β) (l : List α) (h : ∀ a ∈ l, ∀ b, f b a = .ok (g b a)) (b : β) :
    l.foldlM f b = .ok (l.foldl g b) := by
  induction l generalizing b with
  | nil => rfl
  | cons a l ih =>
    rw [List.foldlM_cons, h a (by simp)]
    exact ih (fun x hx => h x (List.mem_cons_of_mem _ hx)) _

/-- The results of the loop over symbols whose samples are `s c`. -/
theorem fold_eq {α : Type} (dec : List ℚ → Bool) (s : α → Samples) (l : List α) (v : VOut) :
    let r := l.foldl (fun v c => vStep dec (s c) v) v
    r.y0 = v.y0 ++ l.flatMap (fun c => if dec (s c).b then [] else (s c).sym) ∧
    r.y1 = v.y1 ++ l.flatMap (fun c => if dec (s c).b then (s c).sym else []) ∧
    r.cross = v.cross ++ l.flatMap (fun c => if dec (s c).a = dec (s c).b then [] else (s c).cross) ∧
    r.y0Cross = v.y0Cross ++ l.flatMap (fun c => if dec (s c).a = false ∧ dec (s c).b = false then (s c).symCross else []) ∧
    r.y1Cross = v.y1Cross ++ l.flatMap (fun c => if dec (s c).a = true ∧ dec (s c).b = true then (s c).symCross else []) ∧
    r.avg = v.avg ++ l.flatMap (fun c => (s c).avg) ∧
    (∀ x y z, r.trans x y z = v.trans x y z + l.countP fun c => dec (s c).a == x && dec (s c).b == y && dec (s c).c == z) ∧
    r.edgeDir = v.edgeDir ++ l.map (fun c => if dec (s c).a = dec (s c).b then 0 else if dec (s c).b then 1 else -1) := by
  induction l generalizing v with
  | nil => simp
  | cons a l ih =>
    obtain ⟨h1, h2, h3, h4, h5, h6, h7, h8⟩ := ih (vStep dec (s a) v)
    simp only [List.foldl_cons, List.flatMap_cons, List.map_cons]
    refine ⟨?_, ?_, ?_, ?_, ?_, ?_, ?_, ?_⟩
    · rw [h1]; cases hb : dec (s a).b <;> simp [vStep, hb]
    · rw [h2]; cases hb : dec (s a).b <;> simp [vStep, hb]
    · rw [h3]; cases hb : dec (s a).b <;> cases ha : dec (s a).a <;> simp [vStep, hb, ha]
    · rw [h4]; cases hb : dec (s a).b <;> cases ha : dec (s a).a <;> simp [vStep, hb, ha]
    · rw [h5]; cases hb : dec (s a).b <;> cases ha : dec (s a).a <;> simp [vStep, hb, ha]
    · rw [h6]; simp [vStep]
    · intro x y z
      rw [h7, List.countP_cons]
      simp only [vStep, bump]
      cases ha : dec (s a).a <;> cases hb : dec (s a).b <;> cases hc : dec (s a).c <;> cases x <;> cases y <;> cases z <;> simp <;> omega
    · rw [h8]; cases hb : dec (s a).b <;> cases ha : dec (s a).a <;> simp [vStep, hb, ha]

/-! ### C44 -/

/-- C44: what `sample_vertical` returns, for any record, any sampled symbols within it and any window widths. -/
theorem C44_symbols (ys : List ℚ) (centers : List Center) (T δ half lw cw : ℚ) (hT : 0 < T) (hδ : 0 < δ)
    (hc : ∀ c ∈ centers, Inside T δ ys.length c) :
    ∃ v, sampleVertical ys centers δ T half lw cw = .ok v ∧
      -- one direction per symbol: 1 for 01, -1 for 10, 0 for equal symbols
      v.edgeDir = centers.map (fun c =>
        match logic ys T δ half lw (-1 / 2) c, logic ys T δ half lw (1 / 2) c with
        | false, true => 1
        | true, false => -1
        | _, _ => 0) ∧
      -- one transition per symbol
      (∀ x y z, v.trans x y z = centers.countP fun c =>
        logic ys T δ half lw (-1 / 2) c == x && logic ys T δ half lw (1 / 2) c == y && logic ys T δ half lw (3 / 2) c == z) ∧
      -- the samples of a level come from symbols of that level
      v.y0 = (centers.filter fun c => !logic ys T δ half lw (1 / 2) c).flatMap (fun c => near (around ys T δ c) (1 / 2) lw) ∧
      v.y1 = (centers.filter fun c => logic ys T δ half lw (1 / 2) c).flatMap (fun c => near (around ys T δ c) (1 / 2) lw) ∧
      -- the samples of the crossing come from symbols with an edge
      v.cross = (centers.filter fun c => logic ys T δ half lw (-1 / 2) c != logic ys T δ half lw (1 / 2) c).flatMap
        (fun c => near (around ys T δ c) 0 cw) ∧
      v.avg = centers.flatMap (fun c => near (around ys T δ c) (1 / 2) 1) := by
  have e := foldlM_ok (fun v c => do
      let ps ← points ys T δ c
      return vStep (above half) (samples lw cw (abcWidth lw δ T) ps) v)
    (fun v c => vStep (isHigh half) (samples lw cw (abcWidth lw δ T) (around ys T δ c)) v) centers (by
      intro c h v
      rw [points_eq ys T δ hT hδ c (hc c h), show above half = isHigh half from funext (above_eq half)]
      rfl) VOut.empty
  have hw : abcWidth lw δ T = decisionWidth lw T δ := by unfold abcWidth decisionWidth; rw [mul_div_assoc]
  obtain ⟨h1, h2, h3, -, -, h6, h7, h8⟩ := fold_eq (isHigh half) (fun c => samples lw cw (abcWidth lw δ T) (around ys T δ c)) centers VOut.empty
  simp only [samples_eq, hw] at h1 h2 h3 h6 h7 h8
  refine ⟨_, e, ?_, ?_, ?_, ?_, ?_, ?_⟩
  · simp only [samples_eq, hw]
    rw [h8]
    simp only [VOut.empty, List.nil_append]
    apply List.map_congr_left
    intro c _
    unfold logic
    cases isHigh half (slot (around ys T δ c) (-1 / 2) (decisionWidth lw T δ)) <;>
      cases isHigh half (slot (around ys T δ c) (1 / 2) (decisionWidth lw T δ)) <;> simp
  · intro x y z
    simp only [samples_eq, hw]
    rw [h7]
    simp [VOut.empty, logic]
  · simp only [samples_eq, hw]
    rw [h1]
    simp only [VOut.empty, List.nil_append]
    clear e h1 h2 h3 h6 h7 h8 hc
    induction centers with
    | nil => rfl
    | cons c l ih =>
      rw [List.flatMap_cons, ih, List.filter_cons]
      unfold logic
      cases isHigh half (slot (around ys T δ c) (1 / 2) (decisionWidth lw T δ)) <;> simp
  · simp only [samples_eq, hw]
    rw [h2]
    simp only [VOut.empty, List.nil_append]
    clear e h1 h2 h3 h6 h7 h8 hc
    induction centers with
    | nil => rfl
    | cons c l ih =>
      rw [List.flatMap_cons, ih, List.filter_cons]
      unfold logic
      cases isHigh half (slot (around ys T δ c) (1 / 2) (decisionWidth lw T δ)) <;> simp
  · simp only [samples_eq, hw]
    rw [h3]
    simp only [VOut.empty, List.nil_append]
    clear e h1 h2 h3 h6 h7 h8 hc
    induction centers with
    | nil => rfl
    | cons c l ih =>
      rw [List.flatMap_cons, ih, List.filter_cons]
      unfold logic
      cases isHigh half (slot (around ys T δ c) (-1 / 2) (decisionWidth lw T δ)) <;>
        cases isHigh half (slot (around ys T δ c) (1 / 2) (decisionWidth lw T δ)) <;> simp
  · simp only [samples_eq, hw]
    rw [h6]
    simp only [VOut.empty, List.nil_append]
    congr 1
    funext c
    unfold near
    congr 1
    apply List.filter_congr
    intro p _
    rw [decide_eq_decide, abs_le]
    constructor
    · rintro ⟨a, b⟩; constructor <;> linarith
    · rintro ⟨a, b⟩; constructor <;> linarith

theorem total_fold {α : Type} (f : VOut → α → Except PyErr VOut)
    (hf : ∀ v a r, f v a = .ok r → ∃ s dec, r = vStep dec s v) (l : List α) (v r : VOut) (h : l.foldlM f v = .ok r) :
    (∑ x, ∑ y, ∑ z, r.trans x y z) = (∑ x, ∑ y, ∑ z, v.trans x y z) + l.length ∧ r.edgeDir.length = v.edgeDir.length + l.length ∧
    ((∀ d ∈ v.edgeDir, d = -1 ∨ d = 0 ∨ d = 1) → ∀ d ∈ r.edgeDir, d = -1 ∨ d = 0 ∨ d = 1) := by
  induction l generalizing v with
  | nil =>
    obtain rfl : v = r := by simpa [pure, Except.pure] using h
    simp
  | cons a l ih =>
    rw [List.foldlM_cons] at h
    cases hv : f v a with
    | error e => rw [hv] at h; cases h
    | ok w =>
      rw [hv] at h
      obtain ⟨s, dec, rfl⟩ := hf _ _ _ hv
      obtain ⟨h1, h2, h3⟩ := ih _ h
      refine ⟨?_, ?_, ?_⟩
      · rw [h1]
        simp only [vStep, bump, Fintype.sum_bool, List.length_cons]
        cases dec s.a <;> cases dec s.b <;> cases dec s.c <;> simp <;> omega
      · rw [h2]
        simp only [vStep, List.length_append, List.length_cons, List.length_nil]
        omega
      · intro hd
        apply h3
        intro d hm
        simp only [vStep, List.mem_append, List.mem_singleton] at hm
        rcases hm with hm | rfl
        · exact hd d hm
        · cases dec s.a <;> cases dec s.b <;> simp

/-- C44: the eight transition counters add up to the number of symbols, and there is one direction per symbol - for whatever is passed, if
there is no exception. -/
theorem C44_total (ys : List ℚ) (centers : List Center) (T δ half lw cw : ℚ) (v : VOut) (h : sampleVertical ys centers δ T half lw cw = .ok v) :
    (∑ x, ∑ y, ∑ z, v.trans x y z) = centers.length ∧ v.edgeDir.length = centers.length ∧ ∀ d ∈ v.edgeDir, d = -1 ∨ d = 0 ∨ d = 1 := by
  obtain ⟨h1, h2, h3⟩ := total_fold _ (by
    intro v a r hr
    cases hp : points ys T δ a with
    | error e => rw [hp] at hr; cases hr
    | ok ps =>
      rw [hp] at hr
      simp only [bind, Except.bind, pure, Except.pure, Except.ok.injEq] at hr
      exact ⟨_, _, hr.symm⟩) centers VOut.empty v h
  refine ⟨by rw [h1]; simp [VOut.empty], by rw [h2]; simp [VOut.empty], h3 (by simp [VOut.empty])⟩

/-- C44: with decision windows narrower than a symbol, the decision on a symbol is that on all samples around its centre. -/
theorem C44_windows (l : List (ℚ × ℚ)) (w : ℚ) (hw : w < 1) : ∀ u ∈ ([-1 / 2, 1 / 2, 3 / 2] : List ℚ), slot l u w = near l u w := by
  intro u hu
  unfold slot near
  congr 1
  apply List.filter_congr
  intro p _
  have ha : ∀ x : ℚ, |x| ≤ w / 2 ↔ -(w / 2) ≤ x ∧ x ≤ w / 2 := fun x => abs_le
  simp only [List.mem_cons, List.not_mem_nil, or_false] at hu
  rcases hu with rfl | rfl | rfl
  · simp only [slot_iff]
  · simp only [slot_iff]
    by_cases h2 : |p.1 - 1 / 2| ≤ w / 2
    · have n1 : ¬ |p.1 - (-1 / 2)| ≤ w / 2 := by rw [ha] at h2 ⊢; intro h; linarith [h.2]
      simp only [h2, n1, decide_true, decide_false, Bool.not_false, Bool.and_self]
    · simp only [h2, decide_false, Bool.and_false]
  · simp only [slot_iff]
    by_cases h3 : |p.1 - 3 / 2| ≤ w / 2
    · have n1 : ¬ |p.1 - (-1 / 2)| ≤ w / 2 := by rw [ha] at h3 ⊢; intro h; linarith [h.2]
      have n2 : ¬ |p.1 - 1 / 2| ≤ w / 2 := by rw [ha] at h3 ⊢; intro h; linarith [h.2]
      simp only [h3, n1, n2, decide_true, decide_false, Bool.not_false, Bool.and_self]
    · simp only [h3, decide_false, Bool.and_false]

theorem sampled_fine (T δ tZero : ℚ) (hδ : 0 < δ) (n : ℕ) (edges : List ℚ) :
    ∀ c ∈ sampleEdges T δ tZero n edges, Inside T δ n c ∧ -δ < c.t ∧ c.t ≤ 0 := by
  intro c hc
  obtain ⟨h1, h2⟩ := sampled_ok T δ tZero hδ n edges c hc
  refine ⟨h1, ?_, h2⟩
  obtain ⟨b, -, hb⟩ := List.mem_filterMap.1 hc
  unfold sampleEdge at hb
  simp only at hb
  split at hb
  · cases hb
  · obtain rfl := Option.some.inj hb
    have := (pyMod_spec b δ hδ).2.1
    simp only
    linarith

/-- C44: no decision is made on an empty window: of every symbol that `_step3_sample` selects there is a sample around the centre of the
previous, of this and of the next symbol. -/
theorem C44_decided (ys : List ℚ) (edges : List ℚ) (T δ tZero lw : ℚ) (hT : 0 < T) (hδ : 0 < δ) :
    ∀ c ∈ sampleEdges T δ tZero ys.length edges, ∀ u ∈ ([-1 / 2, 1 / 2, 3 / 2] : List ℚ),
      near (around ys T δ c) u (decisionWidth lw T δ) ≠ [] := by
  intro c hc u hu
  obtain ⟨⟨hc1, hc2⟩, ht1, ht2⟩ := sampled_fine T δ tZero hδ ys.length edges c hc
  obtain ⟨w1, w2, w3⟩ := iWidth_ge T δ hT hδ
  rw [halfWidth_eq T δ hT hδ] at hc1 hc2 w1 w2 w3
  push_cast at w1 w2
  have hd : T / δ * δ = T := div_mul_cancel₀ _ hδ.ne'
  have hs : -1 ≤ u - 1 / 2 ∧ u - 1 / 2 ≤ 1 := by
    simp only [List.mem_cons, List.not_mem_nil, or_false] at hu
    rcases hu with rfl | rfl | rfl <;> norm_num
  have hx1 : 0 ≤ -c.t / δ := div_nonneg (by linarith) hδ.le
  have hx2 : -c.t / δ < 1 := by rw [div_lt_one hδ]; linarith
  have hp := div_pos hT hδ
  generalize hxd : (halfWidth T δ : ℚ) + (u - 1 / 2) * (T / δ) + -c.t / δ = x
  have hxl : 0 < x := by nlinarith
  have hxu : x < 2 * halfWidth T δ - 1 / 2 := by nlinarith
  have hk0 : 0 ≤ ⌊x + 1 / 2⌋ := Int.floor_nonneg.2 (by linarith)
  obtain ⟨k, hk⟩ := Int.eq_ofNat_of_zero_le hk0
  have hf1 := Int.floor_le (x + 1 / 2)
  have hf2 := Int.lt_floor_add_one (x + 1 / 2)
  rw [hk] at hf1 hf2
  push_cast at hf1 hf2
  have hkw : k < 2 * halfWidth T δ + 1 := by
    have : (k : ℚ) < (2 * halfWidth T δ + 1 : ℕ) := by push_cast; linarith
    exact_mod_cast this
  have hmem : (1 / 2 + (((c.i.toNat - halfWidth T δ + k : ℕ) : ℚ) - c.i) * δ / T + c.t / T,
      ys.getD (c.i.toNat - halfWidth T δ + k) 0) ∈ around ys T δ c := by
    unfold around
    rw [List.mem_map]
    refine ⟨k, List.mem_range.2 hkw, ?_⟩
    simp only [Prod.mk.injEq, and_true]
    ring
  apply List.ne_nil_of_mem
  unfold near
  refine List.mem_map.2 ⟨_, List.mem_filter.2 ⟨hmem, ?_⟩, rfl⟩
  rw [decide_eq_true_iff]
  have e : ((c.i.toNat - halfWidth T δ + k : ℕ) : ℚ) - c.i = (k : ℚ) - halfWidth T δ := by
    have : ((c.i.toNat - halfWidth T δ + k : ℕ) : ℤ) - c.i = (k : ℤ) - halfWidth T δ := by omega
    exact_mod_cast this
  simp only
  rw [e]
  have e2 : (1 / 2 + ((k : ℚ) - halfWidth T δ) * δ / T + c.t / T) - u = (k - x) * (δ / T) := by
    rw [← hxd]
    field_simp
    ring
  have hdt := div_pos hδ hT
  rw [e2, abs_mul, abs_of_pos hdt]
  have h1 : |(k : ℚ) - x| ≤ 1 / 2 := by rw [abs_le]; constructor <;> linarith
  have h2 : 101 / 100 * (δ / T) ≤ decisionWidth lw T δ := le_max_right _ _
  nlinarith

/-! ### C62 -/

/-- C62, what holds: the samples for the levels at the crossing come from symbols equal to their predecessor - but from their middle. -/
theorem C62_levels_partial (ys : List ℚ) (centers : List Center) (T δ half lw cw : ℚ) (hT : 0 < T) (hδ : 0 < δ)
    (hc : ∀ c ∈ centers, Inside T δ ys.length c) :
    ∃ v, sampleVertical ys centers δ T half lw cw = .ok v ∧
      v.y0Cross = (centers.filter fun c => !logic ys T δ half lw (-1 / 2) c && !logic ys T δ half lw (1 / 2) c).flatMap
        (fun c => near (around ys T δ c) (1 / 2) lw) ∧
      v.y1Cross = (centers.filter fun c => logic ys T δ half lw (-1 / 2) c && logic ys T δ half lw (1 / 2) c).flatMap
        (fun c => near (around ys T δ c) (1 / 2) lw) := by
  have e := foldlM_ok (fun v c => do
      let ps ← points ys T δ c
      return vStep (above half) (samples lw cw (abcWidth lw δ T) ps) v)
    (fun v c => vStep (isHigh half) (samples lw cw (abcWidth lw δ T) (around ys T δ c)) v) centers (by
      intro c h v
      rw [points_eq ys T δ hT hδ c (hc c h), show above half = isHigh half from funext (above_eq half)]
      rfl) VOut.empty
  have hw : abcWidth lw δ T = decisionWidth lw T δ := by unfold abcWidth decisionWidth; rw [mul_div_assoc]
  obtain ⟨-, -, -, h4, h5, -, -, -⟩ := fold_eq (isHigh half) (fun c => samples lw cw (abcWidth lw δ T) (around ys T δ c)) centers VOut.empty
  simp only [samples_eq, hw] at h4 h5
  refine ⟨_, e, ?_, ?_⟩
  · simp only [samples_eq, hw]
    rw [h4]
    simp only [VOut.empty, List.nil_append]
    clear e h4 h5 hc
    induction centers with
    | nil => rfl
    | cons c l ih =>
      rw [List.flatMap_cons, ih, List.filter_cons]
      unfold logic
      cases isHigh half (slot (around ys T δ c) (-1 / 2) (decisionWidth lw T δ)) <;>
        cases isHigh half (slot (around ys T δ c) (1 / 2) (decisionWidth lw T δ)) <;> simp
  · simp only [samples_eq, hw]
    rw [h5]
    simp only [VOut.empty, List.nil_append]
    clear e h4 h5 hc
    induction centers with
    | nil => rfl
    | cons c l ih =>
      rw [List.flatMap_cons, ih, List.filter_cons]
      unfold logic
      cases isHigh half (slot (around ys T δ c) (-1 / 2) (decisionWidth lw T δ)) <;>
        cases isHigh half (slot (around ys T δ c) (1 / 2) (decisionWidth lw T δ)) <;> simp

/-- A record of 24 samples, 4 per symbol, with droop: low symbols rise from 0 to 3 between their edges, high ones begin at 10. -/
def exYs : List ℚ := [0, 1, 2, 3, 0, 1, 2, 3, 10, 11, 12, 13, 10, 11, 12, 13, 0, 1, 2, 3, 0, 1, 2, 3]

/-- Clock edges in the middle of the symbols. -/
def exEdges : List ℚ := [6, 10, 14, 17 + 1 / 4]

/-- The sampled symbols of the example. -/
def exCenters : List Center := sampleEdges 4 1 0 exYs.length exEdges

/-- C62 fails: with a low symbol after a low symbol, the sample recorded for the level of a 0 at the crossing is that of the middle of the symbol
(2), not that at the crossing (0). -/
theorem C62_cross_fails : ∃ (ys : List ℚ) (c : Center) (T δ half lw cw : ℚ), 0 < T ∧ 0 < δ ∧ Inside T δ ys.length c ∧
    logic ys T δ half lw (-1 / 2) c = false ∧ logic ys T δ half lw (1 / 2) c = false ∧
    near (around ys T δ c) 0 cw = [0] ∧ ∃ v, sampleVertical ys [c] δ T half lw cw = .ok v ∧ v.y0Cross = [2] := by
  refine ⟨exYs, ⟨6, 0⟩, 4, 1, 6, 1 / 4, 1 / 4, by norm_num, by norm_num, by unfold Inside; decide +kernel, by decide +kernel, by decide +kernel,
    by decide +kernel, ?_⟩
  obtain ⟨v, h1, h2, -⟩ := C62_levels_partial exYs [⟨6, 0⟩] 4 1 6 (1 / 4) (1 / 4) (by norm_num) (by norm_num) (by
    unfold Inside; decide +kernel)
  exact ⟨v, h1, h2.trans (by decide +kernel)⟩

/-! ### C12 -/

/-- C12: the compiled `sample_vertical` returns the same as the fallback, whatever is in memory outside of the record, if the symbols are within
it. -/
theorem C12_vertical (mem : ℤ → ℚ) (ys : List ℚ) (centers : List Center) (T δ half lw cw : ℚ) (hT : 0 < T) (hδ : 0 < δ)
    (hc : ∀ c ∈ centers, Inside T δ ys.length c) :
    sampleVertical ys centers δ T half lw cw = .ok (sampleVerticalC mem ys centers δ T half lw cw) := by
  unfold sampleVertical sampleVerticalC
  apply foldlM_ok
  intro c h v
  rw [points_eq ys T δ hT hδ c (hc c h), pointsC_eq mem ys T δ hT hδ c (hc c h),
    show above half = aboveC half from funext fun l => (above_eq half l).trans (aboveC_eq half l).symm]
  rfl

/-- C12 would fail for symbols that reach beyond the record: the fallback raises, the compiled version reads what is in memory. -/
theorem C12_vertical_outside : ∃ (ys : List ℚ) (c : Center) (T δ half lw cw : ℚ), 0 < T ∧ 0 < δ ∧
    sampleVertical ys [c] δ T half lw cw = .error .indexError ∧
    ∃ mem mem', (sampleVerticalC mem ys [c] δ T half lw cw).edgeDir ≠ (sampleVerticalC mem' ys [c] δ T half lw cw).edgeDir :=
  ⟨[0, 0, 0, 0], ⟨4, 0⟩, 4, 1, 1, 1 / 4, 1 / 4, by norm_num, by norm_num, by
      have : points [0, 0, 0, 0] 4 1 ⟨4, 0⟩ = .error .indexError := by decide +kernel
      unfold sampleVertical
      rw [List.foldlM_cons, this]
      rfl, fun _ => 0, fun _ => 5, by decide +kernel⟩

/-- The hypotheses of the C44, C62 and C12 theorems are met: all four symbols are within the record; the second one rises, the last one falls. -/
example : (∀ c ∈ exCenters, Inside 4 1 exYs.length c) ∧ exCenters.length = 4 ∧
    (sampleVerticalC (fun _ => 0) exYs exCenters 1 4 6 (1 / 4) (1 / 4)).edgeDir = [0, 1, 0, -1] := by
  refine ⟨fun c hc => (sampled_ok 4 1 0 (by norm_num) _ exEdges c hc).1, by decide +kernel, by decide +kernel⟩

/-- The decision windows of the example are narrower than a symbol. -/
example : decisionWidth (1 / 4) 4 1 < 1 := by decide +kernel

end Verif.Props.Pam2Vertical
