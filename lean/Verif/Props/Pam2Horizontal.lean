import Verif.Props.Pam2Vertical

/-!
C45: horizontal sampling of the PAM2 eye diagram; C12: the compiled version.
-/

namespace Verif.Props.Pam2Horizontal

open Verif Verif.Lines Verif.Eye Verif.Pam2 Verif.Props.EyeWindow Verif.Props.EyeMask Verif.Props.Pam2Vertical

/-! ### Specification -/

/-- The index of the first smallest element. -/
def FirstMin (l : List ℚ) (i : ℕ) : Prop := ∃ h : i < l.length, (∀ x ∈ l, l[i] ≤ x) ∧ ∀ j (hj : j < l.length), j < i → l[i] < l[j]

/-- The index of the first largest element. -/
def FirstMax (l : List ℚ) (i : ℕ) : Prop := ∃ h : i < l.length, (∀ x ∈ l, x ≤ l[i]) ∧ ∀ j (hj : j < l.length), j < i → l[j] < l[i]

/-- The times of the samples with a value no farther than half of `h` from `level`. -/
def timesAt (l : List (ℚ × ℚ)) (level h : ℚ) : List ℚ := (l.filter fun p => decide (|p.2 - level| ≤ h / 2)).map Prod.fst

/-- The samples around a symbol with values relative to the levels. -/
def scaledAround (ys : List ℚ) (T δ yZero yUa : ℚ) (c : Center) : List (ℚ × ℚ) :=
  (around ys T δ c).map fun p => (p.1, (p.2 - yZero) / yUa)

/-! ### argmin, argmax -/

theorem argmin_aux (a : ℚ) (l : List ℚ) :
    let r := (l.zipIdx 1).foldl (fun m p => if p.1 < m.1 then p else m) (a, 0)
    FirstMin (a :: l) r.2 ∧ (a :: l)[r.2]? = some r.1 := by
  induction l using List.reverseRecOn with
  | nil => exact ⟨⟨by simp, by simp, by intro j hj h; simp only [List.zipIdx_nil, List.foldl_nil] at h; omega⟩, rfl⟩
  | append_singleton l x ih =>
    rw [List.zipIdx_append, List.foldl_append]
    simp only [List.zipIdx_cons, List.zipIdx_nil, List.foldl_cons, List.foldl_nil]
    generalize (l.zipIdx 1).foldl (fun m p => if p.1 < m.1 then p else m) (a, 0) = r at ih
    obtain ⟨⟨h1, h2, h3⟩, h4⟩ := ih
    have h5 : (a :: l)[r.2] = r.1 := by
      rw [List.getElem?_eq_getElem h1] at h4
      exact Option.some.inj h4
    rw [h5] at h2 h3
    have happ : a :: (l ++ [x]) = (a :: l) ++ [x] := rfl
    split
    · rename_i hx
      have hi : (1 + l.length) < (a :: (l ++ [x])).length := by simp only [List.length_cons, List.length_append, List.length_nil]; omega
      have hg : (a :: (l ++ [x]))[1 + l.length]? = some x := by
        rw [happ, List.getElem?_append_right (by simp)]
        simp [Nat.add_comm]
      have hg' : (a :: (l ++ [x]))[1 + l.length] = x := by
        rw [List.getElem?_eq_getElem hi] at hg
        exact Option.some.inj hg
      refine ⟨⟨hi, ?_, ?_⟩, hg⟩
      · intro y hy
        rw [hg']
        rw [happ, List.mem_append, List.mem_singleton] at hy
        rcases hy with hy | rfl
        · exact hx.le.trans (h2 y hy)
        · exact le_refl _
      · intro j hj hlt
        rw [hg']
        have hj2 : j < (a :: l).length := by simp only [List.length_cons]; omega
        have : (a :: (l ++ [x]))[j] = (a :: l)[j] := List.getElem_append_left hj2
        rw [this]
        exact lt_of_lt_of_le hx (h2 _ (List.getElem_mem hj2))
    · rename_i hx
      simp only [not_lt] at hx
      have hi : r.2 < (a :: (l ++ [x])).length := by rw [happ, List.length_append]; omega
      have hg' : (a :: (l ++ [x]))[r.2] = r.1 := by
        rw [← h5]
        exact List.getElem_append_left h1
      refine ⟨⟨hi, ?_, ?_⟩, by rw [List.getElem?_eq_getElem hi, hg']⟩
      · intro y hy
        rw [hg']
        rw [happ, List.mem_append, List.mem_singleton] at hy
        rcases hy with hy | rfl
        · exact h2 y hy
        · exact hx
      · intro j hj hlt
        rw [hg']
        have hj2 : j < (a :: l).length := by omega
        have : (a :: (l ++ [x]))[j] = (a :: l)[j] := List.getElem_append_left hj2
        rw [this]
        exact h3 j hj2 hlt

theorem argmin_ok (l : List ℚ) (h : l ≠ []) : ∃ i, argmin l = .ok i ∧ FirstMin l i := by
  cases l with
  | nil => exact absurd rfl h
  | cons a l => exact ⟨_, rfl, (argmin_aux a l).1⟩

theorem argmax_ok (l : List ℚ) (h : l ≠ []) : ∃ i, argmax l = .ok i ∧ FirstMax l i := by
  obtain ⟨i, h1, h2, h3, h4⟩ := argmin_ok (l.map fun x => -x) (by simpa using h)
  have hi : i < l.length := by simpa using h2
  refine ⟨i, h1, hi, ?_, ?_⟩
  · intro x hx
    have := h3 (-x) (List.mem_map.2 ⟨x, hx, rfl⟩)
    rw [List.getElem_map] at this
    linarith
  · intro j hj hlt
    have := h4 j (by simpa using hj) hlt
    rw [List.getElem_map, List.getElem_map] at this
    linarith

/-! ### The loops -/

theorem within_abs (u w t : ℚ) : within (u - w / 2) (u + w / 2) t = decide (|t - u| ≤ w / 2) := within_iff u w t

theorem crossFold (h : HWin) (l : List Pt) (v : HOut) :
    l.foldl (crossStep h) v = { v with
      crossLeft := v.crossLeft ++ (l.filter fun p => atCross h p.2 && decide (-1 / 2 ≤ p.1 ∧ p.1 ≤ 1 / 2)).map Prod.fst
      crossRight := v.crossRight ++ (l.filter fun p => atCross h p.2 && decide (1 / 2 < p.1 ∧ p.1 ≤ 3 / 2)).map Prod.fst } := by
  induction l generalizing v with
  | nil => simp
  | cons p l ih =>
    rw [List.foldl_cons, ih, List.filter_cons, List.filter_cons]
    unfold crossStep within
    cases hc : atCross h p.2
    · simp
    · by_cases h1 : -1 / 2 ≤ p.1 ∧ p.1 ≤ 1 / 2
      · have h2 : ¬ (1 / 2 < p.1 ∧ p.1 ≤ 3 / 2) := fun hh => absurd h1.2 (not_le.2 hh.1)
        simp only [if_true, ← Bool.decide_and, decide_eq_true_iff, if_pos h1, Bool.true_and, if_neg h2]
        simp
      · simp only [if_true, ← Bool.decide_and, decide_eq_true_iff, if_neg h1, Bool.true_and]
        by_cases h2 : 1 / 2 < p.1 ∧ p.1 ≤ 3 / 2
        · simp only [if_pos h2]
          simp
        · simp only [if_neg h2]

theorem edgeFold (h : HWin) (d : ℤ) (l : List Pt) (v : HOut) :
    l.foldl (edgeStep h d) v = if d = 1 then { v with
        riseLower := v.riseLower ++ timesAt l h.lower h.height
        riseUpper := v.riseUpper ++ timesAt l h.upper h.height
        riseHalf := v.riseHalf ++ timesAt l (1 / 2) h.height }
      else { v with
        fallLower := v.fallLower ++ timesAt l h.lower h.height
        fallUpper := v.fallUpper ++ timesAt l h.upper h.height
        fallHalf := v.fallHalf ++ timesAt l (1 / 2) h.height } := by
  induction l generalizing v with
  | nil => split <;> simp [timesAt]
  | cons p l ih =>
    rw [List.foldl_cons, ih]
    unfold Pam2.edgeStep timesAt
    simp only [within_abs, List.filter_cons]
    by_cases hd : d = 1
    · simp only [if_pos hd]
      by_cases h1 : |p.2 - h.lower| ≤ h.height / 2 <;> by_cases h2 : |p.2 - h.upper| ≤ h.height / 2 <;>
        by_cases h3 : |p.2 - 1 / 2| ≤ h.height / 2 <;> simp only [h1, h2, h3, decide_true, decide_false, if_true] <;> simp
    · simp only [if_neg hd]
      by_cases h1 : |p.2 - h.lower| ≤ h.height / 2 <;> by_cases h2 : |p.2 - h.upper| ≤ h.height / 2 <;>
        by_cases h3 : |p.2 - 1 / 2| ≤ h.height / 2 <;> simp only [h1, h2, h3, decide_true, decide_false, if_true] <;> simp

/-- The results of one symbol: `es` are the samples of the edge. -/
def symOut (h : HWin) (all es : List Pt) (d : ℤ) (v : HOut) : HOut :=
  let v := all.foldl (crossStep h) v
  if d = 0 then v else es.foldl (edgeStep h d) v

theorem symFold {α : Type} (h : HWin) (all es : α → List Pt) (d : α → ℤ) (l : List α) (v : HOut) :
    let r := l.foldl (fun v c => symOut h (all c) (es c) (d c) v) v
    r.riseLower = v.riseLower ++ (l.filter fun c => d c == 1).flatMap (fun c => timesAt (es c) h.lower h.height) ∧
    r.riseUpper = v.riseUpper ++ (l.filter fun c => d c == 1).flatMap (fun c => timesAt (es c) h.upper h.height) ∧
    r.riseHalf = v.riseHalf ++ (l.filter fun c => d c == 1).flatMap (fun c => timesAt (es c) (1 / 2) h.height) ∧
    r.fallLower = v.fallLower ++ (l.filter fun c => d c != 1 && d c != 0).flatMap (fun c => timesAt (es c) h.lower h.height) ∧
    r.fallUpper = v.fallUpper ++ (l.filter fun c => d c != 1 && d c != 0).flatMap (fun c => timesAt (es c) h.upper h.height) ∧
    r.fallHalf = v.fallHalf ++ (l.filter fun c => d c != 1 && d c != 0).flatMap (fun c => timesAt (es c) (1 / 2) h.height) ∧
    r.crossLeft = v.crossLeft ++ l.flatMap (fun c =>
      ((all c).filter fun p => atCross h p.2 && decide (-1 / 2 ≤ p.1 ∧ p.1 ≤ 1 / 2)).map Prod.fst) ∧
    r.crossRight = v.crossRight ++ l.flatMap (fun c =>
      ((all c).filter fun p => atCross h p.2 && decide (1 / 2 < p.1 ∧ p.1 ≤ 3 / 2)).map Prod.fst) := by
  induction l generalizing v with
  | nil => simp
  | cons a l ih =>
    obtain ⟨h1, h2, h3, h4, h5, h6, h7, h8⟩ := ih (symOut h (all a) (es a) (d a) v)
    simp only [List.foldl_cons]
    rw [h1, h2, h3, h4, h5, h6, h7, h8]
    simp only [symOut, crossFold, edgeFold, List.filter_cons, List.flatMap_cons]
    by_cases hz : d a = 0
    · simp [hz]
    · by_cases ho : d a = 1
      · simp [ho]
      · simp [hz, ho]

/-! ### One symbol of the fallback -/

theorem around_normalise (ys : List ℚ) (T δ yZero yUa : ℚ) (hT : 0 < T) (hδ : 0 < δ) (c : Center) (hc : Inside T δ ys.length c) :
    around (normalise ys yZero yUa) T δ c = scaledAround ys T δ yZero yUa c := by
  obtain ⟨h1, h2⟩ := hc
  rw [halfWidth_eq T δ hT hδ] at h1 h2
  unfold scaledAround around normalise
  rw [List.map_map]
  apply List.map_congr_left
  intro k hk
  rw [List.mem_range] at hk
  simp only [Function.comp, Prod.mk.injEq, true_and]
  have hl : c.i.toNat - halfWidth T δ + k < ys.length := by omega
  rw [List.getD_eq_getElem?_getD, List.getD_eq_getElem?_getD, List.getElem?_map, List.getElem?_eq_getElem hl]
  rfl

theorem around_values (ys : List ℚ) (T δ : ℚ) (hT : 0 < T) (hδ : 0 < δ) (c : Center) (hc : Inside T δ ys.length c) :
    (around ys T δ c).map Prod.snd = (ys.drop (c.i.toNat - halfWidth T δ)).take (2 * halfWidth T δ + 1) := by
  obtain ⟨h1, h2⟩ := hc
  rw [halfWidth_eq T δ hT hδ] at h1 h2
  unfold around
  rw [List.map_map]
  apply List.ext_getElem
  · simp only [List.length_map, List.length_range, List.length_take, List.length_drop]
    omega
  · intro k k1 k2
    simp only [List.length_map, List.length_range] at k1
    simp only [List.getElem_map, List.getElem_range, Function.comp, List.getElem_take, List.getElem_drop]
    rw [List.getD_eq_getElem?_getD, List.getElem?_eq_getElem (by omega)]
    rfl

/-- The samples of an edge: from the first extreme sample before the middle of the symbol to the first opposite one in the centre. -/
structure Edge (l : List (ℚ × ℚ)) (w : ℕ) (d : ℤ) (lo hi : ℕ) : Prop where
  rise : d = 1 → FirstMin ((l.map Prod.snd).take (w + 1)) lo ∧
    ∃ m, hi = (2 * w + 1) / 4 + m ∧ FirstMax (((l.map Prod.snd).drop ((2 * w + 1) / 4)).take (w + 1)) m
  fall : d ≠ 1 → FirstMax ((l.map Prod.snd).take (w + 1)) lo ∧
    ∃ m, hi = (2 * w + 1) / 4 + m ∧ FirstMin (((l.map Prod.snd).drop ((2 * w + 1) / 4)).take (w + 1)) m

theorem range_ok (ys : List ℚ) (T δ : ℚ) (hT : 0 < T) (hδ : 0 < δ) (c : Center) (hc : Inside T δ ys.length c) (d : ℤ) :
    ∃ lo hi, edgeRange ys (iWidth T δ) ((2 * iWidth T δ + 1) / 4) c d = .ok (lo, hi) ∧ Edge (around ys T δ c) (halfWidth T δ) d lo hi := by
  have hv := around_values ys T δ hT hδ c hc
  obtain ⟨h1, h2⟩ := hc
  rw [halfWidth_eq T δ hT hδ] at h1 h2 ⊢
  generalize halfWidth T δ = w at *
  obtain ⟨i, hi⟩ := Int.eq_ofNat_of_zero_le (by omega : 0 ≤ c.i)
  rw [hi, Int.toNat_natCast] at hv
  rw [hi] at h1 h2
  have hoff : (2 * (w : ℤ) + 1) / 4 = (((2 * w + 1) / 4 : ℕ) : ℤ) := by push_cast; rfl
  rw [hoff]
  have ho2 : (2 * w + 1) / 4 ≤ w := by omega
  obtain ⟨off, hoffe⟩ : ∃ off, (2 * w + 1) / 4 = off := ⟨_, rfl⟩
  rw [hoffe] at ho2 ⊢
  have hf : pySlice ys (c.i - w) (c.i + 1) = ((around ys T δ c).map Prod.snd).take (w + 1) := by
    rw [hv, hi, show (i : ℤ) - w = ((i - w : ℕ) : ℤ) by omega, show (i : ℤ) + 1 = ((i - w : ℕ) : ℤ) + ((w + 1 : ℕ) : ℤ) by omega,
      pySlice_inside ys (i - w) (w + 1) (by omega), List.take_take]
    congr 1
    omega
  have hcn : pySlice ys (c.i - w + (off : ℤ)) (c.i + (off : ℤ) + 1) = (((around ys T δ c).map Prod.snd).drop off).take (w + 1) := by
    rw [hv, hi, show (i : ℤ) - w + (off : ℤ) = ((i - w + off : ℕ) : ℤ) by omega,
      show (i : ℤ) + (off : ℤ) + 1 = ((i - w + off : ℕ) : ℤ) + ((w + 1 : ℕ) : ℤ) by omega,
      pySlice_inside ys (i - w + off) (w + 1) (by omega), List.drop_take, List.take_take, List.drop_drop]
    congr 1
    omega
  have hlen : ((around ys T δ c).map Prod.snd).length = 2 * w + 1 := by
    rw [hv, List.length_take, List.length_drop]
    omega
  have n1 : ((around ys T δ c).map Prod.snd).take (w + 1) ≠ [] := by
    apply List.ne_nil_of_length_pos
    rw [List.length_take, hlen]
    omega
  have n2 : (((around ys T δ c).map Prod.snd).drop off).take (w + 1) ≠ [] := by
    apply List.ne_nil_of_length_pos
    rw [List.length_take, List.length_drop, hlen]
    omega
  unfold edgeRange
  simp only
  rw [hf, hcn]
  by_cases hd : d = 1
  · obtain ⟨a, ha1, ha2⟩ := argmin_ok _ n1
    obtain ⟨b, hb1, hb2⟩ := argmax_ok _ n2
    rw [if_pos hd, ha1, hb1]
    exact ⟨a, off + b, rfl, ⟨fun _ => ⟨ha2, b, by rw [hoffe], by rw [hoffe]; exact hb2⟩, fun h => absurd hd h⟩⟩
  · obtain ⟨a, ha1, ha2⟩ := argmax_ok _ n1
    obtain ⟨b, hb1, hb2⟩ := argmin_ok _ n2
    rw [if_neg hd, ha1, hb1]
    exact ⟨a, off + b, rfl, ⟨fun h => absurd h hd, fun _ => ⟨ha2, b, by rw [hoffe], by rw [hoffe]; exact hb2⟩⟩⟩

theorem hi_lt (l : List (ℚ × ℚ)) (w : ℕ) (d : ℤ) (lo hi : ℕ) (hl : l.length = 2 * w + 1) (h : Edge l w d lo hi) : hi < 2 * w + 1 := by
  by_cases hd : d = 1
  · obtain ⟨-, m, rfl, h1, -⟩ := h.rise hd
    rw [List.length_take, List.length_drop, List.length_map, hl] at h1
    omega
  · obtain ⟨-, m, rfl, h1, -⟩ := h.fall hd
    rw [List.length_take, List.length_drop, List.length_map, hl] at h1
    omega

theorem samples_ok (ys : List ℚ) (T δ : ℚ) (hT : 0 < T) (hδ : 0 < δ) (c : Center) (hc : Inside T δ ys.length c) (lo hi : ℕ)
    (hh : hi < 2 * halfWidth T δ + 1) :
    ((List.range' lo (hi + 1 - lo)).mapM fun ii => do
      let t ← pyGet (gridT T δ) ii
      let y ← pyGetZ ys (c.i - iWidth T δ + ii)
      return ((t + c.t / T, y) : Pt)) = .ok (((around ys T δ c).take (hi + 1)).drop lo) := by
  have e := mapM_ok (fun ii => do
      let t ← pyGet (gridT T δ) ii
      let y ← pyGetZ ys (c.i - iWidth T δ + ii)
      return ((t + c.t / T, y) : Pt)) (fun ii => ((around ys T δ c).getD ii (0, 0))) (List.range' lo (hi + 1 - lo)) (by
    intro k hk
    rw [List.mem_range'_1] at hk
    have hk2 : k < 2 * halfWidth T δ + 1 := by omega
    obtain ⟨h1, h2⟩ := hc
    rw [halfWidth_eq T δ hT hδ] at h1 h2 ⊢
    have e : c.i - halfWidth T δ + (k : ℤ) = ((c.i.toNat - halfWidth T δ + k : ℕ) : ℤ) := by omega
    have hl : c.i.toNat - halfWidth T δ + k < ys.length := by omega
    have hg : pyGet (gridT T δ) k = .ok (1 / 2 + ((k : ℚ) - halfWidth T δ) * δ / T) := by
      rw [grid_eq T δ hT hδ]
      unfold pyGet
      rw [List.getElem?_eq_getElem (by simpa using hk2)]
      simp only [List.getElem_map, List.getElem_range]
    have hy : pyGetZ ys (c.i - halfWidth T δ + (k : ℤ)) = .ok (ys.getD (c.i.toNat - halfWidth T δ + k) 0) := by
      unfold pyGetZ pyGet
      rw [e, if_pos (by omega), Int.toNat_natCast, List.getElem?_eq_getElem hl, List.getD_eq_getElem?_getD, List.getElem?_eq_getElem hl]
      rfl
    rw [hg, hy]
    have hal : k < (around ys T δ c).length := by simpa [around] using hk2
    have hga : (around ys T δ c).getD k (0, 0) = (around ys T δ c)[k] := by
      rw [List.getD_eq_getElem?_getD, List.getElem?_eq_getElem hal, Option.getD_some]
    rw [hga]
    simp only [bind, Except.bind, pure, Except.pure, around, List.getElem_map, List.getElem_range, Except.ok.injEq, Prod.mk.injEq, and_true]
    have e3 : ((c.i.toNat - halfWidth T δ + k : ℕ) : ℚ) - c.i = (k : ℚ) - halfWidth T δ := by
      have : ((c.i.toNat - halfWidth T δ + k : ℕ) : ℤ) - c.i = (k : ℤ) - halfWidth T δ := by omega
      exact_mod_cast this
    rw [e3]
    ring)
  rw [e, Except.ok.injEq]
  have hal : (around ys T δ c).length = 2 * halfWidth T δ + 1 := by simp [around]
  apply List.ext_getElem
  · simp only [List.length_map, List.length_range', List.length_drop, List.length_take, hal]
    omega
  · intro k k1 k2
    simp only [List.length_map, List.length_range'] at k1
    simp only [List.getElem_map, List.getElem_range', List.getElem_drop, List.getElem_take, Nat.one_mul]
    rw [List.getD_eq_getElem?_getD, List.getElem?_eq_getElem (by omega)]
    rfl

theorem hStep_ok (ys : List ℚ) (T δ : ℚ) (hT : 0 < T) (hδ : 0 < δ) (h : HWin) (c : Center) (hc : Inside T δ ys.length c) (d : ℤ) :
    ∃ lo hi, Edge (around ys T δ c) (halfWidth T δ) d lo hi ∧
      ∀ v, hStep ys T δ h v (c, d) = .ok (symOut h (around ys T δ c) (((around ys T δ c).take (hi + 1)).drop lo) d v) := by
  obtain ⟨lo, hi, h1, h2⟩ := range_ok ys T δ hT hδ c hc d
  refine ⟨lo, hi, h2, fun v => ?_⟩
  have h3 := samples_ok ys T δ hT hδ c hc lo hi (hi_lt _ _ d lo hi (by simp [around]) h2)
  unfold hStep symOut
  rw [points_eq ys T δ hT hδ c hc]
  simp only [bind, Except.bind, pure, Except.pure]
  by_cases hd : d = 0
  · rw [if_pos hd, if_pos hd]
  · rw [if_neg hd, if_neg hd, h1]
    simp only [bind, Except.bind, pure, Except.pure] at h3
    simp only [h3]

/-! ### C45 -/

/-- C45: what `sample_horizontal` returns.  `lo` and `hi` delimit the samples of each edge: from the first extreme sample before the middle of the
symbol to the first opposite one in its centre.  All times of rising (falling) edges are of such samples, of symbols with a rising (falling) edge,
whose values are within the respective window; the crossing times are those of all samples of all symbols within the window, on the left and on the
right. -/
theorem C45_samples (ys : List ℚ) (syms : List (Center × ℤ)) (T δ yZero yUa : ℚ) (yCross : Option ℚ) (height lower upper : ℚ) (hT : 0 < T)
    (hδ : 0 < δ) (hc : ∀ s ∈ syms, Inside T δ ys.length s.1) :
    ∃ (v : HOut) (lo hi : Center × ℤ → ℕ),
      sampleHorizontal ys (syms.map Prod.fst) (syms.map Prod.snd) δ T yZero yUa yCross height lower upper = .ok v ∧
      (∀ s ∈ syms, Edge (scaledAround ys T δ yZero yUa s.1) (halfWidth T δ) s.2 (lo s) (hi s)) ∧
      let all := fun s : Center × ℤ => scaledAround ys T δ yZero yUa s.1
      let edge := fun s : Center × ℤ => ((all s).take (hi s + 1)).drop (lo s)
      let rising := syms.filter fun s => s.2 == 1
      let falling := syms.filter fun s => s.2 != 1 && s.2 != 0
      v.riseLower = rising.flatMap (fun s => timesAt (edge s) lower height) ∧
      v.riseUpper = rising.flatMap (fun s => timesAt (edge s) upper height) ∧
      v.riseHalf = rising.flatMap (fun s => timesAt (edge s) (1 / 2) height) ∧
      v.fallLower = falling.flatMap (fun s => timesAt (edge s) lower height) ∧
      v.fallUpper = falling.flatMap (fun s => timesAt (edge s) upper height) ∧
      v.fallHalf = falling.flatMap (fun s => timesAt (edge s) (1 / 2) height) ∧
      (∀ y, yCross = some y →
        v.crossLeft = syms.flatMap (fun s => (timesAt (all s) ((y - yZero) / yUa) height).filter fun t => decide (-1 / 2 ≤ t ∧ t ≤ 1 / 2)) ∧
        v.crossRight = syms.flatMap (fun s => (timesAt (all s) ((y - yZero) / yUa) height).filter fun t => decide (1 / 2 < t ∧ t ≤ 3 / 2))) ∧
      (yCross = none → v.crossLeft = [] ∧ v.crossRight = []) := by
  have hn : ∀ s ∈ syms, Inside T δ (normalise ys yZero yUa).length s.1 := by
    intro s hs
    have := hc s hs
    unfold normalise
    rwa [List.length_map]
  have hex : ∀ s : Center × ℤ, ∃ lohi : ℕ × ℕ, s ∈ syms → Edge (around (normalise ys yZero yUa) T δ s.1) (halfWidth T δ) s.2 lohi.1 lohi.2 ∧
      ∀ v, hStep (normalise ys yZero yUa) T δ (hWin yZero yUa yCross height lower upper) v (s.1, s.2) =
        .ok (symOut (hWin yZero yUa yCross height lower upper) (around (normalise ys yZero yUa) T δ s.1)
          (((around (normalise ys yZero yUa) T δ s.1).take (lohi.2 + 1)).drop lohi.1) s.2 v) := by
    intro s
    by_cases hs : s ∈ syms
    · obtain ⟨lo, hi, h1, h2⟩ := hStep_ok (normalise ys yZero yUa) T δ hT hδ (hWin yZero yUa yCross height lower upper) s.1 (hn s hs) s.2
      exact ⟨(lo, hi), fun _ => ⟨h1, h2⟩⟩
    · exact ⟨(0, 0), fun h => absurd h hs⟩
  choose lohi hl using hex
  have ha : ∀ s ∈ syms, around (normalise ys yZero yUa) T δ s.1 = scaledAround ys T δ yZero yUa s.1 := fun s hs =>
    around_normalise ys T δ yZero yUa hT hδ s.1 (hc s hs)
  have e := foldlM_ok (hStep (normalise ys yZero yUa) T δ (hWin yZero yUa yCross height lower upper))
    (fun v s => symOut (hWin yZero yUa yCross height lower upper) (scaledAround ys T δ yZero yUa s.1)
      (((scaledAround ys T δ yZero yUa s.1).take ((lohi s).2 + 1)).drop (lohi s).1) s.2 v) syms (by
        intro s hs v
        rw [← ha s hs]
        exact (hl s hs).2 v) HOut.empty
  have hzip : (syms.map Prod.fst).zip (syms.map Prod.snd) = syms := by
    rw [List.zip_map]
    clear e hl ha hn hc
    induction syms with
    | nil => rfl
    | cons s l ih => simp only [List.zip_cons_cons, List.map_cons, ih, Prod.map_apply]
  obtain ⟨f1, f2, f3, f4, f5, f6, f7, f8⟩ := symFold (hWin yZero yUa yCross height lower upper)
    (fun s : Center × ℤ => scaledAround ys T δ yZero yUa s.1)
    (fun s => ((scaledAround ys T δ yZero yUa s.1).take ((lohi s).2 + 1)).drop (lohi s).1) (fun s => s.2) syms HOut.empty
  refine ⟨_, fun s => (lohi s).1, fun s => (lohi s).2, ?_, ?_, f1, f2, f3, f4, f5, f6, ?_, ?_⟩
  · unfold sampleHorizontal
    rw [hzip]
    exact e
  · intro s hs
    rw [← ha s hs]
    exact (hl s hs).1
  · rintro y rfl
    rw [f7, f8]
    simp only [HOut.empty, List.nil_append]
    constructor
    · congr 1
      funext s
      unfold timesAt
      rw [List.filter_map, List.filter_filter]
      congr 1
      apply List.filter_congr
      intro p _
      simp only [atCross, hWin, Option.map_some, within_abs, Function.comp]
      rw [Bool.and_comm]
    · congr 1
      funext s
      unfold timesAt
      rw [List.filter_map, List.filter_filter]
      congr 1
      apply List.filter_congr
      intro p _
      simp only [atCross, hWin, Option.map_some, within_abs, Function.comp]
      rw [Bool.and_comm]
  · rintro rfl
    rw [f7, f8]
    simp [HOut.empty, atCross, hWin]

/-! ### C12, C45: the compiled version -/

theorem hStepC_ok (mem : ℤ → ℚ) (ys : List ℚ) (T δ : ℚ) (hT : 0 < T) (hδ : 0 < δ) (h : HWin) (c : Center) (hc : Inside T δ ys.length c) (d : ℤ)
    (v : HOut) : hStepC mem ys T δ h v (c, d) = symOut h (around ys T δ c) ((around ys T δ c).filter fun p => decide (p.1 ≤ 1 / 2)) d v := by
  unfold hStepC
  rw [pointsC_eq mem ys T δ hT hδ c hc]
  generalize around ys T δ c = l
  have hcom : ∀ (p q : Pt) (v : HOut), crossStep h (edgeStep h d v q) p = edgeStep h d (crossStep h v p) q := by
    intro p q v
    unfold crossStep Pam2.edgeStep
    cases atCross h p.2
    · simp
    · by_cases hw : within (-1 / 2) (1 / 2) p.1 = true
      · simp only [hw, if_true]
        by_cases hd : d = 1 <;> simp only [hd, if_true, if_false] <;> split <;> split <;> split <;> rfl
      · simp only [if_true, if_neg hw]
        by_cases hw2 : 1 / 2 < p.1 ∧ p.1 ≤ 3 / 2
        · simp only [if_pos hw2]
          by_cases hd : d = 1 <;> simp only [hd, if_true, if_false] <;> split <;> split <;> split <;> rfl
        · simp only [if_neg hw2]
  have hcom2 : ∀ (l : List Pt) (q : Pt) (v : HOut), l.foldl (crossStep h) (edgeStep h d v q) = edgeStep h d (l.foldl (crossStep h) v) q := by
    intro l q
    induction l with
    | nil => intro v; rfl
    | cons p l ih =>
      intro v
      rw [List.foldl_cons, List.foldl_cons, hcom, ih]
  unfold symOut
  simp only
  by_cases hd : d = 0
  · simp only [hd, true_or, if_true]
  · simp only [hd, false_or, if_false]
    induction l generalizing v with
    | nil => rfl
    | cons p l ih =>
      rw [List.foldl_cons, ih, List.foldl_cons, List.filter_cons]
      by_cases hp : p.1 ≤ 1 / 2
      · rw [if_neg (not_lt.2 hp), hcom2, if_pos (by simpa using hp), List.foldl_cons]
      · rw [if_pos (not_le.1 hp), if_neg (by simpa using hp)]

/-- C45, compiled version: as `C45_samples`, but the times of edges are those of all samples up to the middle of the symbol. -/
theorem C45_compiled (mem : ℤ → ℚ) (ys : List ℚ) (syms : List (Center × ℤ)) (T δ yZero yUa : ℚ) (yCross : Option ℚ) (height lower upper : ℚ)
    (hT : 0 < T) (hδ : 0 < δ) (hc : ∀ s ∈ syms, Inside T δ ys.length s.1) :
    let v := sampleHorizontalC mem ys (syms.map Prod.fst) (syms.map Prod.snd) δ T yZero yUa yCross height lower upper
    let all := fun s : Center × ℤ => scaledAround ys T δ yZero yUa s.1
    let edge := fun s : Center × ℤ => (all s).filter fun p => decide (p.1 ≤ 1 / 2)
    let rising := syms.filter fun s => s.2 == 1
    let falling := syms.filter fun s => s.2 != 1 && s.2 != 0
    v.riseLower = rising.flatMap (fun s => timesAt (edge s) lower height) ∧
    v.riseUpper = rising.flatMap (fun s => timesAt (edge s) upper height) ∧
    v.riseHalf = rising.flatMap (fun s => timesAt (edge s) (1 / 2) height) ∧
    v.fallLower = falling.flatMap (fun s => timesAt (edge s) lower height) ∧
    v.fallUpper = falling.flatMap (fun s => timesAt (edge s) upper height) ∧
    v.fallHalf = falling.flatMap (fun s => timesAt (edge s) (1 / 2) height) ∧
    -- C12: the crossing times are those of the fallback
    ∀ r, sampleHorizontal ys (syms.map Prod.fst) (syms.map Prod.snd) δ T yZero yUa yCross height lower upper = .ok r →
      v.crossLeft = r.crossLeft ∧ v.crossRight = r.crossRight := by
  intro v all edge rising falling
  have hn : ∀ s ∈ syms, Inside T δ (normalise ys yZero yUa).length s.1 := by
    intro s hs
    have := hc s hs
    unfold normalise
    rwa [List.length_map]
  have ha : ∀ s ∈ syms, around (normalise ys yZero yUa) T δ s.1 = scaledAround ys T δ yZero yUa s.1 := fun s hs =>
    around_normalise ys T δ yZero yUa hT hδ s.1 (hc s hs)
  have hzip : (syms.map Prod.fst).zip (syms.map Prod.snd) = syms := by
    rw [List.zip_map]
    clear ha hn hc
    induction syms with
    | nil => rfl
    | cons s l ih => simp only [List.zip_cons_cons, List.map_cons, ih, Prod.map_apply]
  have e : ∀ (l : List (Center × ℤ)) (x : HOut), (∀ s ∈ l, s ∈ syms) →
      l.foldl (hStepC mem (normalise ys yZero yUa) T δ (hWin yZero yUa yCross height lower upper)) x =
      l.foldl (fun v s => symOut (hWin yZero yUa yCross height lower upper) (all s) (edge s) s.2 v) x := by
    intro l
    induction l with
    | nil => intro x _; rfl
    | cons s l ih =>
      intro x hm
      rw [List.foldl_cons, List.foldl_cons, ih _ fun y hy => hm y (List.mem_cons_of_mem _ hy)]
      have := hStepC_ok mem (normalise ys yZero yUa) T δ hT hδ (hWin yZero yUa yCross height lower upper) s.1 (hn s (hm s (by simp))) s.2 x
      rw [ha s (hm s (by simp))] at this
      rw [this]
  have hv : v = syms.foldl (fun v s => symOut (hWin yZero yUa yCross height lower upper) (all s) (edge s) s.2 v) HOut.empty := by
    show sampleHorizontalC mem ys (syms.map Prod.fst) (syms.map Prod.snd) δ T yZero yUa yCross height lower upper = _
    unfold sampleHorizontalC
    rw [hzip, e syms _ fun s hs => hs]
  obtain ⟨f1, f2, f3, f4, f5, f6, f7, f8⟩ := symFold (hWin yZero yUa yCross height lower upper) all edge (fun s => s.2) syms HOut.empty
  rw [hv]
  refine ⟨f1, f2, f3, f4, f5, f6, ?_⟩
  intro r hr
  obtain ⟨r', lo, hi, hr', -, -, -, -, -, -, -, hs, hs'⟩ := C45_samples ys syms T δ yZero yUa yCross height lower upper hT hδ hc
  obtain rfl : r' = r := by rw [hr'] at hr; exact Except.ok.inj hr
  rw [f7, f8]
  simp only [HOut.empty, List.nil_append]
  cases hy : yCross with
  | none =>
    obtain ⟨g1, g2⟩ := hs' hy
    rw [g1, g2]
    simp [atCross, hWin]
  | some y =>
    obtain ⟨g1, g2⟩ := hs y hy
    rw [g1, g2]
    constructor
    · congr 1
      funext s
      unfold timesAt
      rw [List.filter_map, List.filter_filter]
      congr 1
      apply List.filter_congr
      intro p _
      simp only [atCross, hWin, Option.map_some, within_abs, Function.comp]
      rw [Bool.and_comm]
    · congr 1
      funext s
      unfold timesAt
      rw [List.filter_map, List.filter_filter]
      congr 1
      apply List.filter_congr
      intro p _
      simp only [atCross, hWin, Option.map_some, within_abs, Function.comp]
      rw [Bool.and_comm]

/-- A rising edge of 4 samples per symbol that crosses the middle of the amplitude shortly after the clock edge, with ringing before. -/
def exYs : List ℚ := [1 / 4, 1 / 2, 0, 0, 0, 0, 0, 1 / 2, 1, 1, 1, 1, 1]

/-- C12 fails for `sample_horizontal`: for the same symbol with a rising edge the fallback reports the sample of the edge (after the middle of the
symbol), the compiled version an earlier one (before the edge starts). -/
theorem C12_horizontal_fails : ∃ (ys : List ℚ) (c : Center) (T δ : ℚ) (v : HOut), 0 < T ∧ 0 < δ ∧ Inside T δ ys.length c ∧
    sampleHorizontal ys [c] [1] δ T 0 1 (some (1 / 2)) (1 / 10) (1 / 5) (4 / 5) = .ok v ∧ v.riseHalf = [3 / 4] ∧
    ∀ mem, (sampleHorizontalC mem ys [c] [1] δ T 0 1 (some (1 / 2)) (1 / 10) (1 / 5) (4 / 5)).riseHalf = [-3 / 4] := by
  have hi : ∀ s ∈ ([(⟨6, 0⟩, 1)] : List (Center × ℤ)), Inside 4 1 exYs.length s.1 := by unfold Inside; decide +kernel
  refine ⟨exYs, ⟨6, 0⟩, 4, 1, _, by norm_num, by norm_num, by unfold Inside; decide +kernel,
    (by decide +kernel : _ = Except.ok ⟨[], [], [3 / 4], [], [], [], [], [3 / 4]⟩), rfl, ?_⟩
  intro mem
  obtain ⟨-, -, h, -⟩ := C45_compiled mem exYs [(⟨6, 0⟩, 1)] 4 1 0 1 (some (1 / 2)) (1 / 10) (1 / 5) (4 / 5) (by norm_num) (by norm_num) hi
  exact h.trans (by decide +kernel)

/-- The hypotheses of the C45 theorems are met: the symbols of the example of C44. -/
example : ∀ s ∈ exCenters.zip ([0, 1, 0, -1] : List ℤ), Inside 4 1 Pam2Vertical.exYs.length s.1 := by
  intro s hs
  exact (sampled_ok 4 1 0 (by norm_num) _ exEdges s.1 (List.of_mem_zip hs).1).1

/-- ... for which there are times of the rising edge. -/
example : (sampleHorizontalC (fun _ => 0) Pam2Vertical.exYs exCenters [0, 1, 0, -1] 1 4 2 10 (some 7) (1 / 2) (1 / 5) (4 / 5)).riseUpper ≠ [] := by
  decide +kernel

end Verif.Props.Pam2Horizontal
