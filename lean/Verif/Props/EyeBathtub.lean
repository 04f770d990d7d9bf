import Verif.Props.EyeMask

/-!
C47: bathtub curves.
-/

namespace Verif.Props.EyeBathtub

open Verif Verif.Lines Verif.Eye Verif.Props.Intersect Verif.Props.EyeWindow Verif.Props.EyeMask

theorem sort_perm (l : List ℚ) : (sort l).Perm l := List.mergeSort_perm _ _

theorem sort_sorted (l : List ℚ) : (sort l).Pairwise (· ≤ ·) := by
  have h := List.pairwise_mergeSort (le := fun a b : ℚ => decide (a ≤ b))
    (fun a b c h1 h2 => by simp only [decide_eq_true_eq] at *; exact h1.trans h2)
    (fun a b => by simp only [Bool.or_eq_true, decide_eq_true_eq]; exact le_total a b) l
  unfold sort
  exact h.imp (by intro a b h; simpa using h)

/-! ### Counting in a sorted list -/

theorem count_split (l : List ℚ) (k : ℕ) (p : ℚ → Bool) : l.countP p = (l.take k).countP p + (l.drop k).countP p := by
  rw [← List.countP_append, List.take_append_drop]

theorem count_le_len (l : List ℚ) (p : ℚ → Bool) : l.countP p ≤ l.length := List.countP_le_length

theorem sorted_get (l : List ℚ) (hs : l.Pairwise (· ≤ ·)) (i j : ℕ) (hi : i < l.length) (hj : j < l.length) (h : i ≤ j) : l[i] ≤ l[j] := by
  rcases h.lt_or_eq with h | h
  · exact List.pairwise_iff_getElem.1 hs i j hi hj h
  · subst h; exact le_refl _

theorem mem_take_get (l : List ℚ) (k : ℕ) (x : ℚ) (h : x ∈ l.take k) : ∃ i, ∃ hi : i < l.length, i < k ∧ l[i] = x := by
  obtain ⟨i, hi, rfl⟩ := List.getElem_of_mem h
  rw [List.length_take] at hi
  exact ⟨i, by omega, by omega, by rw [List.getElem_take]⟩

theorem mem_drop_get (l : List ℚ) (k : ℕ) (x : ℚ) (h : x ∈ l.drop k) : ∃ i, ∃ hi : i < l.length, k ≤ i ∧ l[i] = x := by
  obtain ⟨i, hi, rfl⟩ := List.getElem_of_mem h
  rw [List.length_drop] at hi
  exact ⟨k + i, by omega, by omega, by rw [List.getElem_drop]⟩

/-- At least `n - k` values are at or above the one at `k`, and at most `n - k - 1` above. -/
theorem count_from (l : List ℚ) (hs : l.Pairwise (· ≤ ·)) (k : ℕ) (hk : k < l.length) :
    l.length - k ≤ l.countP (fun u => decide (l[k] ≤ u)) ∧ l.countP (fun u => decide (l[k] < u)) ≤ l.length - k - 1 := by
  constructor
  · rw [count_split l k]
    have : (l.drop k).countP (fun u => decide (l[k] ≤ u)) = (l.drop k).length := by
      rw [List.countP_eq_length]
      intro x hx
      obtain ⟨i, hi, hki, rfl⟩ := mem_drop_get l k x hx
      simpa using sorted_get l hs k i hk hi hki
    rw [this, List.length_drop]
    omega
  · rw [count_split l (k + 1)]
    have h1 : (l.take (k + 1)).countP (fun u => decide (l[k] < u)) = 0 := by
      rw [List.countP_eq_zero]
      intro x hx
      obtain ⟨i, hi, hki, rfl⟩ := mem_take_get l (k + 1) x hx
      simpa using sorted_get l hs i k hi hk (by omega)
    have h2 := count_le_len (l.drop (k + 1)) (fun u => decide (l[k] < u))
    rw [List.length_drop] at h2
    omega

/-- At least `k + 1` values are at or below the one at `k`, and at most `k` below. -/
theorem count_to (l : List ℚ) (hs : l.Pairwise (· ≤ ·)) (k : ℕ) (hk : k < l.length) :
    k + 1 ≤ l.countP (fun u => decide (u ≤ l[k])) ∧ l.countP (fun u => decide (u < l[k])) ≤ k := by
  constructor
  · rw [count_split l (k + 1)]
    have : (l.take (k + 1)).countP (fun u => decide (u ≤ l[k])) = (l.take (k + 1)).length := by
      rw [List.countP_eq_length]
      intro x hx
      obtain ⟨i, hi, hki, rfl⟩ := mem_take_get l (k + 1) x hx
      simpa using sorted_get l hs i k hi hk (by omega)
    rw [this, List.length_take]
    omega
  · rw [count_split l k]
    have h1 : (l.drop k).countP (fun u => decide (u < l[k])) = 0 := by
      rw [List.countP_eq_zero]
      intro x hx
      obtain ⟨i, hi, hki, rfl⟩ := mem_drop_get l k x hx
      simpa using sorted_get l hs k i hk hi hki
    have h2 := count_le_len (l.take k) (fun u => decide (u < l[k]))
    rw [List.length_take] at h2
    omega

/-- The first of equal values. -/
theorem first_equal (l : List ℚ) (hs : l.Pairwise (· ≤ ·)) (t : ℚ) (ht : t ∈ l) :
    ∃ k, ∃ hk : k < l.length, l[k] = t ∧ l.countP (fun u => decide (t ≤ u)) = l.length - k := by
  classical
  have hex : ∃ k, ∃ hk : k < l.length, l[k] = t := by
    obtain ⟨i, hi, h⟩ := List.getElem_of_mem ht
    exact ⟨i, hi, h⟩
  obtain ⟨hk, e⟩ := Nat.find_spec hex
  have hmin := fun j (hj : j < Nat.find hex) => Nat.find_min hex hj
  generalize Nat.find hex = k at hk e hmin
  refine ⟨k, hk, e, le_antisymm ?_ (e ▸ (count_from l hs k hk).1)⟩
  rw [count_split l k]
  have h1 : (l.take k).countP (fun u => decide (t ≤ u)) = 0 := by
    rw [List.countP_eq_zero]
    intro x hx
    obtain ⟨i, hi, hki, rfl⟩ := mem_take_get l k x hx
    have := sorted_get l hs i k hi hk hki.le
    have hne : l[i] ≠ t := fun h => hmin i hki ⟨hi, h⟩
    simp only [decide_eq_true_eq, not_le]
    rw [e] at this
    exact lt_of_le_of_ne this hne
  have h2 := count_le_len (l.drop k) (fun u => decide (t ≤ u))
  rw [List.length_drop] at h2
  omega

/-- The last of equal values. -/
theorem last_equal (l : List ℚ) (hs : l.Pairwise (· ≤ ·)) (t : ℚ) (ht : t ∈ l) :
    ∃ k, ∃ hk : k < l.length, l[k] = t ∧ l.countP (fun u => decide (u ≤ t)) = k + 1 := by
  classical
  have hex : ∃ j, ∃ hk : j < l.length, l[l.length - 1 - j] = t := by
    obtain ⟨i, hi, h⟩ := List.getElem_of_mem ht
    refine ⟨l.length - 1 - i, by omega, ?_⟩
    have : l.length - 1 - (l.length - 1 - i) = i := by omega
    simp only [this]
    exact h
  obtain ⟨hj, e⟩ := Nat.find_spec hex
  have hmin := fun j (hj : j < Nat.find hex) => Nat.find_min hex hj
  generalize Nat.find hex = j at hj e hmin
  refine ⟨l.length - 1 - j, by omega, e, le_antisymm ?_ ?_⟩
  · rw [count_split l (l.length - 1 - j + 1)]
    have h1 : (l.drop (l.length - 1 - j + 1)).countP (fun u => decide (u ≤ t)) = 0 := by
      rw [List.countP_eq_zero]
      intro x hx
      obtain ⟨i, hi, hki, rfl⟩ := mem_drop_get l _ x hx
      have := sorted_get l hs (l.length - 1 - j) i (by omega) hi (by omega)
      have hne : l[i] ≠ t := by
        intro h
        refine hmin (l.length - 1 - i) (by omega) ⟨by omega, ?_⟩
        have : l.length - 1 - (l.length - 1 - i) = i := by omega
        simp only [this]
        exact h
      simp only [decide_eq_true_eq, not_le]
      rw [e] at this
      exact lt_of_le_of_ne this (Ne.symm hne)
    have h2 := count_le_len (l.take (l.length - 1 - j + 1)) (fun u => decide (u ≤ t))
    rw [List.length_take] at h2
    omega
  · have := (count_to l hs (l.length - 1 - j) (by omega)).1
    rw [e] at this
    exact this

/-! ### The curve -/

theorem zip_get (l : List ℚ) (f : ℕ → ℚ) : l.zip ((List.range l.length).map f) = (List.range l.length).map fun k => (l.getD k 0, f k) := by
  apply List.ext_getElem
  · simp
  · intro k h1 h2
    simp only [List.length_map, List.length_range] at h2
    simp only [List.getElem_zip, List.getElem_map, List.getElem_range, Prod.mk.injEq, and_true]
    rw [List.getD_eq_getElem?_getD, List.getElem?_eq_getElem h2]
    rfl

theorem range_rev (n : ℕ) (f : ℕ → ℚ) : (List.range n).reverse.map f = (List.range n).map fun k => f (n - 1 - k) := by
  apply List.ext_getElem
  · simp
  · intro k h1 h2
    simp

theorem map_fst_get (l : List ℚ) (f : ℕ → ℚ) : ((List.range l.length).map fun k => (l.getD k 0, f k)).map Prod.fst = l := by
  apply List.ext_getElem
  · simp
  · intro k h1 h2
    simp only [List.getElem_map, List.getElem_range]
    rw [List.getD_eq_getElem?_getD, List.getElem?_eq_getElem h2]
    rfl

/-- C47 for all lists of hits between 0 and 1: the curve starts at (0, 1), goes down through the hits of the left half, up through those of the
right half, and ends at (1, 1).  The value at a hit is the fraction of its half's hits that are at it or further in (up to 0.5 from the left,
down to 0.5 from the right); of several hits at the same time this is the outermost point, and the others are still above the fraction of those
further in. -/
theorem C47_curve (hits : List ℚ) (h01 : ∀ t ∈ hits, 0 ≤ t ∧ t ≤ 1) :
    ∃ l r : List (ℚ × ℚ), bathtub hits = (0, 1) :: (l ++ r ++ [(1, 1)]) ∧
      (l.map Prod.fst).Perm (hits.filter (· ≤ 1 / 2)) ∧ (r.map Prod.fst).Perm (hits.filter (· > 1 / 2)) ∧
      ((bathtub hits).map Prod.fst).Pairwise (· ≤ ·) ∧ (∀ p ∈ bathtub hits, 0 < p.2 ∧ p.2 ≤ 1) ∧
      (((0, 1) :: l).map Prod.snd).Pairwise (· ≥ ·) ∧ ((r ++ [(1, 1)]).map Prod.snd).Pairwise (· ≤ ·) ∧
      (∀ p ∈ l, (hits.countP (fun u => decide (p.1 < u ∧ u ≤ 1 / 2)) : ℚ) / hits.countP (fun u => decide (u ≤ 1 / 2)) < p.2 ∧
        p.2 ≤ (hits.countP (fun u => decide (p.1 ≤ u ∧ u ≤ 1 / 2)) : ℚ) / hits.countP (fun u => decide (u ≤ 1 / 2)) ∧
        (p.1, (hits.countP (fun u => decide (p.1 ≤ u ∧ u ≤ 1 / 2)) : ℚ) / hits.countP (fun u => decide (u ≤ 1 / 2))) ∈ l) ∧
      (∀ p ∈ r, (hits.countP (fun u => decide (1 / 2 < u ∧ u < p.1)) : ℚ) / hits.countP (fun u => decide (1 / 2 < u)) < p.2 ∧
        p.2 ≤ (hits.countP (fun u => decide (1 / 2 < u ∧ u ≤ p.1)) : ℚ) / hits.countP (fun u => decide (1 / 2 < u)) ∧
        (p.1, (hits.countP (fun u => decide (1 / 2 < u ∧ u ≤ p.1)) : ℚ) / hits.countP (fun u => decide (1 / 2 < u))) ∈ r) := by
  set L := (sort hits).filter (fun u => decide (u ≤ 1 / 2)) with hL
  set R := (sort hits).filter (fun u => decide (u > 1 / 2)) with hR
  have pL : L.Perm (hits.filter fun u => decide (u ≤ 1 / 2)) := (sort_perm hits).filter _
  have pR : R.Perm (hits.filter fun u => decide (u > 1 / 2)) := (sort_perm hits).filter _
  have sL : L.Pairwise (· ≤ ·) := (sort_sorted hits).filter _
  have sR : R.Pairwise (· ≤ ·) := (sort_sorted hits).filter _
  have mL : ∀ t ∈ L, 0 ≤ t ∧ t ≤ 1 / 2 := by
    intro t ht
    have := List.mem_filter.1 (pL.mem_iff.1 ht)
    exact ⟨(h01 t this.1).1, by simpa using this.2⟩
  have mR : ∀ t ∈ R, 1 / 2 < t ∧ t ≤ 1 := by
    intro t ht
    have := List.mem_filter.1 (pR.mem_iff.1 ht)
    exact ⟨by simpa using this.2, (h01 t this.1).2⟩
  set l := (List.range L.length).map (fun k : ℕ => (L.getD k 0, 1 - (k : ℚ) / L.length)) with hl
  set r := (List.range R.length).map (fun k : ℕ => (R.getD k 0, 1 - ((R.length - 1 - k : ℕ) : ℚ) / R.length)) with hr
  have hb : bathtub hits = (0, 1) :: (l ++ r ++ [(1, 1)]) := by
    unfold bathtub
    simp only
    rw [← hL, ← hR, zip_get L, range_rev, zip_get R]
  have fl : l.map Prod.fst = L := map_fst_get L _
  have fr : r.map Prod.fst = R := map_fst_get R _
  have cL : ∀ p : ℚ → Bool, L.countP p = hits.countP fun u => p u && decide (u ≤ 1 / 2) := by
    intro p
    rw [pL.countP_eq, List.countP_filter]
  have cR : ∀ p : ℚ → Bool, R.countP p = hits.countP fun u => p u && decide (u > 1 / 2) := by
    intro p
    rw [pR.countP_eq, List.countP_filter]
  have nL : L.length = hits.countP fun u => decide (u ≤ 1 / 2) := by rw [pL.length_eq, List.countP_eq_length_filter]
  have nR : R.length = hits.countP fun u => decide (1 / 2 < u) := by rw [pR.length_eq, List.countP_eq_length_filter]
  have gL : ∀ p ∈ l, ∃ k, ∃ hk : k < L.length, p = (L[k], ((L.length - k : ℕ) : ℚ) / L.length) := by
    intro p hp
    obtain ⟨k, hk, rfl⟩ := List.mem_map.1 hp
    rw [List.mem_range] at hk
    refine ⟨k, hk, ?_⟩
    have h0 : (L.length : ℚ) ≠ 0 := by
      have : 0 < L.length := by omega
      positivity
    rw [List.getD_eq_getElem?_getD, List.getElem?_eq_getElem hk, Nat.cast_sub hk.le, sub_div, div_self h0]
    rfl
  have gR : ∀ p ∈ r, ∃ k, ∃ hk : k < R.length, p = (R[k], ((k + 1 : ℕ) : ℚ) / R.length) := by
    intro p hp
    obtain ⟨k, hk, rfl⟩ := List.mem_map.1 hp
    rw [List.mem_range] at hk
    refine ⟨k, hk, ?_⟩
    have h0 : (R.length : ℚ) ≠ 0 := by
      have : 0 < R.length := by omega
      positivity
    have e : R.length - 1 - k = R.length - (k + 1) := by omega
    rw [List.getD_eq_getElem?_getD, List.getElem?_eq_getElem hk, e, Nat.cast_sub (by omega), sub_div, div_self h0]
    simp
  have vL : ∀ k, ∀ hk : k < L.length, (L[k], ((L.length - k : ℕ) : ℚ) / L.length) ∈ l := by
    intro k hk
    refine List.mem_map.2 ⟨k, List.mem_range.2 hk, ?_⟩
    have h0 : (L.length : ℚ) ≠ 0 := by
      have : 0 < L.length := by omega
      positivity
    rw [List.getD_eq_getElem?_getD, List.getElem?_eq_getElem hk, Nat.cast_sub hk.le, sub_div, div_self h0]
    rfl
  have vR : ∀ k, ∀ hk : k < R.length, (R[k], ((k + 1 : ℕ) : ℚ) / R.length) ∈ r := by
    intro k hk
    refine List.mem_map.2 ⟨k, List.mem_range.2 hk, ?_⟩
    have h0 : (R.length : ℚ) ≠ 0 := by
      have : 0 < R.length := by omega
      positivity
    have e : R.length - 1 - k = R.length - (k + 1) := by omega
    rw [List.getD_eq_getElem?_getD, List.getElem?_eq_getElem hk, e, Nat.cast_sub (by omega), sub_div, div_self h0]
    simp
  refine ⟨l, r, hb, ?_, ?_, ?_, ?_, ?_, ?_, ?_, ?_⟩
  · rw [fl]; exact pL
  · rw [fr]; exact pR
  · rw [hb]
    simp only [List.map_cons, List.map_append, List.map_nil, fl, fr]
    rw [List.pairwise_cons]
    constructor
    · intro t ht
      rcases List.mem_append.1 ht with h | h
      · rcases List.mem_append.1 h with h | h
        · exact (mL t h).1
        · exact le_trans (by norm_num) (mR t h).1.le
      · rw [List.mem_singleton.1 h]; norm_num
    · rw [List.pairwise_append, List.pairwise_append]
      refine ⟨⟨sL, sR, fun a ha b hb => (mL a ha).2.trans (mR b hb).1.le⟩, List.pairwise_singleton _ _, ?_⟩
      intro a ha b hb
      rw [List.mem_singleton.1 hb]
      rcases List.mem_append.1 ha with h | h
      · exact (mL a h).2.trans (by norm_num)
      · exact (mR a h).2
  · intro p hp
    rw [hb] at hp
    have h1 : (0 : ℚ) < 1 := by norm_num
    rcases List.mem_cons.1 hp with rfl | hp
    · exact ⟨h1, le_refl _⟩
    · rcases List.mem_append.1 hp with hp | hp
      · rcases List.mem_append.1 hp with hp | hp
        · obtain ⟨k, hk, rfl⟩ := gL p hp
          have h0 : (0 : ℚ) < L.length := by exact_mod_cast (by omega : 0 < L.length)
          have h2 : (0 : ℚ) < (L.length - k : ℕ) := by exact_mod_cast (by omega : 0 < L.length - k)
          have h3 : ((L.length - k : ℕ) : ℚ) ≤ L.length := by exact_mod_cast (by omega : L.length - k ≤ L.length)
          exact ⟨div_pos h2 h0, (div_le_one h0).2 h3⟩
        · obtain ⟨k, hk, rfl⟩ := gR p hp
          have h0 : (0 : ℚ) < R.length := by exact_mod_cast (by omega : 0 < R.length)
          have h2 : (0 : ℚ) < (k + 1 : ℕ) := by exact_mod_cast (by omega : 0 < k + 1)
          have h3 : ((k + 1 : ℕ) : ℚ) ≤ R.length := by exact_mod_cast (by omega : k + 1 ≤ R.length)
          exact ⟨div_pos h2 h0, (div_le_one h0).2 h3⟩
      · rw [List.mem_singleton.1 hp]; exact ⟨h1, le_refl _⟩
  · rw [List.map_cons, List.pairwise_cons]
    constructor
    · intro v hv
      obtain ⟨p, hp, rfl⟩ := List.mem_map.1 hv
      obtain ⟨k, hk, rfl⟩ := gL p hp
      have h0 : (0 : ℚ) < L.length := by exact_mod_cast (by omega : 0 < L.length)
      have h3 : ((L.length - k : ℕ) : ℚ) ≤ L.length := by exact_mod_cast (by omega : L.length - k ≤ L.length)
      exact (div_le_one h0).2 h3
    · rw [hl, List.map_map, List.pairwise_map]
      refine List.pairwise_lt_range.imp ?_
      intro a b hab
      simp only [Function.comp]
      have : (a : ℚ) / L.length ≤ (b : ℚ) / L.length := by
        apply div_le_div_of_nonneg_right _ (Nat.cast_nonneg _)
        exact_mod_cast hab.le
      show _ ≤ _
      linarith
  · rw [List.map_append, List.pairwise_append]
    refine ⟨?_, by simp, ?_⟩
    · rw [hr, List.map_map, List.pairwise_map]
      refine List.pairwise_lt_range.imp ?_
      intro a b hab
      simp only [Function.comp]
      have : ((R.length - 1 - b : ℕ) : ℚ) / R.length ≤ ((R.length - 1 - a : ℕ) : ℚ) / R.length := by
        apply div_le_div_of_nonneg_right _ (Nat.cast_nonneg _)
        exact_mod_cast (by omega)
      linarith
    · intro v hv u hu
      simp only [List.map_cons, List.map_nil, List.mem_singleton] at hu
      subst hu
      obtain ⟨p, hp, rfl⟩ := List.mem_map.1 hv
      obtain ⟨k, hk, rfl⟩ := gR p hp
      have h0 : (0 : ℚ) < R.length := by exact_mod_cast (by omega : 0 < R.length)
      have h3 : ((k + 1 : ℕ) : ℚ) ≤ R.length := by exact_mod_cast (by omega : k + 1 ≤ R.length)
      exact (div_le_one h0).2 h3
  · intro p hp
    obtain ⟨k, hk, rfl⟩ := gL p hp
    have h0 : (0 : ℚ) < L.length := by exact_mod_cast (by omega : 0 < L.length)
    obtain ⟨c1, c2⟩ := count_from L sL k hk
    obtain ⟨k', hk', e', c3⟩ := first_equal L sL L[k] (List.getElem_mem hk)
    have e1 := cL fun u => decide (L[k] ≤ u)
    have e2 := cL fun u => decide (L[k] < u)
    simp only [← Bool.decide_and] at e1 e2
    simp only
    rw [← nL, ← e1, ← e2]
    refine ⟨?_, ?_, ?_⟩
    · rw [div_lt_div_iff_of_pos_right h0]
      exact_mod_cast (by omega)
    · rw [div_le_div_iff_of_pos_right h0]
      exact_mod_cast c1
    · rw [c3, ← e']
      exact vL k' hk'
  · intro p hp
    obtain ⟨k, hk, rfl⟩ := gR p hp
    have h0 : (0 : ℚ) < R.length := by exact_mod_cast (by omega : 0 < R.length)
    obtain ⟨c1, c2⟩ := count_to R sR k hk
    obtain ⟨k', hk', e', c3⟩ := last_equal R sR R[k] (List.getElem_mem hk)
    have e1 := cR fun u => decide (u ≤ R[k])
    have e2 := cR fun u => decide (u < R[k])
    simp only [← Bool.decide_and, gt_iff_lt, and_comm] at e1 e2
    simp only
    rw [← nR]
    simp only [and_comm (a := (1 / 2 : ℚ) < _)] at e1 e2 ⊢
    rw [← e1, ← e2]
    refine ⟨?_, ?_, ?_⟩
    · rw [div_lt_div_iff_of_pos_right h0]
      exact_mod_cast (by omega)
    · rw [div_le_div_iff_of_pos_right h0]
      exact_mod_cast c1
    · rw [c3, ← e']
      exact vR k' hk'

/-! ### The hits -/

/-- The line across the eye at a level. -/
def across (level : ℚ) : List Pt := [(0, level), (1, level)]

theorem across_range (w : List Pt) (level : ℚ) : ∀ z ∈ allHits w [across level], 0 ≤ z.1 ∧ z.1 ≤ 1 ∧ z.2 = level := by
  intro z hz
  simp only [allHits, List.flatMap_cons, List.flatMap_nil, List.append_nil, allHitsPath, List.mem_flatMap, List.mem_filterMap] at hz
  obtain ⟨a, -, b, hb, e⟩ := hz
  have : b = ((0, level), (1, level)) := by simpa [across, pairs] using hb
  subst this
  obtain ⟨-, -, s, h0, h1, hx, hy⟩ := (C08_segments _ _ _ _ _).1 e
  simp only [sub_zero, mul_one, zero_add, sub_self, mul_zero, add_zero] at hx hy
  rw [hx, hy]
  exact ⟨h0, h1, rfl⟩

theorem ySlice_eq (w : Wf) (T δ yZero yUa level : ℚ) (hT : 0 < T) (hδ : 0 < δ) (hin : ∀ c ∈ w.centers, Inside T δ w.y.length c) :
    ySlice w δ T yZero yUa level = .ok ((wfWindows T δ yZero yUa w).flatMap fun v => (allHits v [across level]).map Prod.fst) := by
  obtain ⟨y, cs⟩ := w
  unfold ySlice wfWindows windows
  simp only at hin ⊢
  have key : ∀ acc : List ℚ, cs.foldlM (fun acc c => do
      let h ← hits (window (normalise y yZero yUa) T δ c) [[(0, level), (1, level)]]
      return acc ++ h.map Prod.fst) acc =
      (.ok (acc ++ (cs.map (window (normalise y yZero yUa) T δ)).flatMap fun v => (allHits v [across level]).map Prod.fst) : Except PyErr _) := by
    induction cs with
    | nil => intro acc; simp [pure, Except.pure]
    | cons c cs ih =>
      intro acc
      have hw := window_mono (normalise y yZero yUa) T δ hT hδ c (by simpa [normalise] using hin c (by simp))
      rw [List.foldlM_cons, C09_hits _ _ hw (by simp)]
      simp only [bind, Except.bind, pure, Except.pure]
      have := ih (fun c hc => hin c (List.mem_cons_of_mem _ hc)) (acc ++ (allHits (window (normalise y yZero yUa) T δ c) [across level]).map Prod.fst)
      simp only [bind, Except.bind, pure, Except.pure] at this
      simp only [List.map_cons, List.flatMap_cons, ← List.append_assoc]
      exact this
  have := key []
  simpa using this

/-- C47: the curve is that of all times in [0, 1] UI at which a symbol of any waveform crosses the level. -/
theorem C47_hits (wfs : List Wf) (T δ yZero yUa level : ℚ) (hT : 0 < T) (hδ : 0 < δ)
    (hin : ∀ w ∈ wfs, ∀ c ∈ w.centers, Inside T δ w.y.length c) :
    ∃ h, bathtubCurve wfs δ T yZero yUa level = .ok (bathtub h) ∧ (∀ t ∈ h, 0 ≤ t ∧ t ≤ 1) ∧
      h = (wfs.flatMap (wfWindows T δ yZero yUa)).flatMap fun w => (allHits w [across level]).map Prod.fst := by
  refine ⟨_, ?_, ?_, rfl⟩
  · unfold bathtubCurve
    rw [mapM_ok _ (fun w => (wfWindows T δ yZero yUa w).flatMap fun v => (allHits v [across level]).map Prod.fst) wfs
      (fun w hw => ySlice_eq w T δ yZero yUa level hT hδ (hin w hw))]
    simp only [bind, Except.bind, pure, Except.pure]
    rw [List.flatMap_assoc]
    rfl
  · intro t ht
    obtain ⟨w, -, hw⟩ := List.mem_flatMap.1 ht
    obtain ⟨z, hz, rfl⟩ := List.mem_map.1 hw
    have := across_range w level z hz
    exact ⟨this.1, this.2.1⟩

/-- The hypotheses of the C47 theorems are met; two hits at the same time, and an empty right half. -/
example : bathtub [1 / 4, 1 / 8, 1 / 4, 1 / 2] = [(0, 1), (1 / 8, 1), (1 / 4, 3 / 4), (1 / 4, 1 / 2), (1 / 2, 1 / 4), (1, 1)] ∧
    ∀ t ∈ [(1 : ℚ) / 4, 1 / 8, 1 / 4, 1 / 2], 0 ≤ t ∧ t ≤ 1 := by
  constructor
  · have : sort [1 / 4, 1 / 8, 1 / 4, 1 / 2] = [1 / 8, 1 / 4, 1 / 4, 1 / 2] := by
      refine ((sort_perm _).trans ?_).eq_of_pairwise (le := (· ≤ ·)) ?_ (sort_sorted _) ?_
      · decide +kernel
      · intro a b _ _ h1 h2; exact le_antisymm h1 h2
      · decide +kernel
    unfold bathtub
    rw [this]
    decide +kernel
  · decide +kernel

end Verif.Props.EyeBathtub
