import Verif.Model.Stats
import Mathlib.Tactic.Linarith
import Mathlib.Tactic.FieldSimp
import Mathlib.Tactic.Positivity
import Mathlib.Algebra.Order.BigOperators.Group.List
import Mathlib.Algebra.BigOperators.Ring.List

/-!
C13, C14, C15: binning and downsampling.
-/

namespace Verif.Props.Stats

open Verif Verif.Stats

/-! ### C13 exact binning -/

section exact
variable {α : Type} [LinearOrder α]

theorem lookup_bump (b e : α) (d : List (α × ℕ)) :
    lookup b (bump e d) =
      if b = e then (match lookup b d with | .ok c => .ok (c + 1) | .error _ => .ok 1) else lookup b d := by
  induction d with
  | nil =>
    by_cases h : b = e
    · simp [h, lookup, bump]
    · simp [lookup, bump, h, Ne.symm h]
  | cons kc d ih =>
    obtain ⟨k, c⟩ := kc
    unfold bump
    by_cases hk : k = e
    · rw [if_pos hk]
      by_cases hb : b = e
      · simp [lookup, hk, hb]
      · have : ¬ k = b := fun h => hb (by rw [← h, hk])
        simp [lookup, this, hb]
    · rw [if_neg hk]
      simp only [lookup]
      by_cases hb : k = b
      · have : ¬ b = e := fun h => hk (by rw [hb, h])
        simp [hb, this]
      · rw [if_neg hb, if_neg hb, ih]

theorem keys_bump (e : α) (d : List (α × ℕ)) :
    (bump e d).map Prod.fst = if e ∈ d.map Prod.fst then d.map Prod.fst else d.map Prod.fst ++ [e] := by
  induction d with
  | nil => simp [bump]
  | cons kc d ih =>
    obtain ⟨k, c⟩ := kc
    unfold bump
    by_cases hk : k = e
    · simp [hk]
    · rw [if_neg hk]
      simp only [List.map_cons, ih, List.mem_cons]
      have : ¬ e = k := fun h => hk h.symm
      by_cases hm : e ∈ d.map Prod.fst
      · rw [if_pos hm, if_pos (Or.inr hm)]
      · rw [if_neg hm, if_neg (by simp only [not_or]; exact ⟨this, hm⟩)]; rfl

theorem fold_spec (y : List α) :
    ((y.foldl (fun d e => bump e d) []).map Prod.fst).Nodup ∧
    (∀ b, b ∈ (y.foldl (fun d e => bump e d) []).map Prod.fst ↔ b ∈ y) ∧
    (∀ b, lookup b (y.foldl (fun d e => bump e d) []) =
      if b ∈ y then .ok (y.count b) else .error .keyError) := by
  induction y using List.reverseRecOn with
  | nil => simp [lookup]
  | append_singleton y e ih =>
    obtain ⟨h1, h2, h3⟩ := ih
    rw [List.foldl_append]
    simp only [List.foldl_cons, List.foldl_nil]
    generalize (y.foldl (fun d e => bump e d) []) = d at h1 h2 h3
    refine ⟨?_, ?_, ?_⟩
    · rw [keys_bump]
      split_ifs with h
      · exact h1
      · exact List.Nodup.append h1 (List.nodup_singleton e) (by simpa using h)
    · intro b
      rw [keys_bump]
      split_ifs with h
      · rw [h2, List.mem_append, List.mem_singleton]
        constructor
        · exact Or.inl
        · rintro (h' | rfl)
          · exact h'
          · exact (h2 _).1 h
      · rw [List.mem_append, List.mem_append, h2]
    · intro b
      rw [lookup_bump, h3 b]
      by_cases hb : b = e
      · subst hb
        rw [if_pos rfl, if_pos (List.mem_append.2 (Or.inr (List.mem_singleton.2 rfl)))]
        by_cases hy : b ∈ y
        · rw [if_pos hy]; simp
        · rw [if_neg hy]; simp [List.count_eq_zero_of_not_mem hy]
      · rw [if_neg hb]
        have hc : (y ++ [e]).count b = y.count b := by
          rw [List.count_append, List.count_singleton]
          simp [Ne.symm hb]
        have hm : b ∈ y ++ [e] ↔ b ∈ y := by simp [hb]
        simp only [hm, hc]

omit [LinearOrder α] in
theorem mapM_ok {β : Type} (f : α → Except PyErr β) (g : α → β) (l : List α) (h : ∀ a ∈ l, f a = .ok (g a)) :
    l.mapM f = .ok (l.map g) := by
  induction l with
  | nil => rfl
  | cons a l ih =>
    rw [List.mapM_cons, h a (by simp), ih (fun b hb => h b (by simp [hb]))]
    rfl

/-- **C13.** `bin_exact` never fails; the bins are the distinct samples in strictly increasing order, and the counts
are their numbers of occurrences. -/
theorem C13_bin_exact (y : List α) :
    ∃ counts bins, binExact y = .ok (counts, bins) ∧ bins.Pairwise (· < ·) ∧ (∀ b, b ∈ bins ↔ b ∈ y) ∧
      counts = bins.map (fun b => y.count b) ∧ (∀ c ∈ counts, 0 < c) ∧ counts.sum = y.length := by
  obtain ⟨h1, h2, h3⟩ := fold_spec y
  unfold binExact
  simp only
  set d := y.foldl (fun d e => bump e d) [] with hd
  set bins := (d.map Prod.fst).insertionSort (· ≤ ·) with hbins
  have hmem : ∀ b, b ∈ bins ↔ b ∈ y := by
    intro b; rw [hbins, List.mem_insertionSort, h2]
  have hnd : bins.Nodup := (List.perm_insertionSort _ _).nodup_iff.2 h1
  have hlt : bins.Pairwise (· < ·) := by
    have hs : bins.Pairwise (· ≤ ·) := List.pairwise_insertionSort (· ≤ ·) _
    have := hs.and hnd
    exact this.imp fun h => lt_of_le_of_ne h.1 h.2
  refine ⟨bins.map (fun b => y.count b), bins, ?_, hlt, hmem, rfl, ?_, ?_⟩
  · rw [mapM_ok (g := fun b => y.count b)]
    · rfl
    · intro b hb
      rw [h3, if_pos ((hmem b).1 hb)]
  · intro c hc
    obtain ⟨b, hb, rfl⟩ := List.mem_map.1 hc
    exact List.count_pos_iff.2 ((hmem b).1 hb)
  · -- the counts of the distinct elements sum to the length
    have hperm : bins.Perm y.dedup := by
      rw [List.perm_ext_iff_of_nodup hnd (List.nodup_dedup y)]
      intro b; rw [hmem, List.mem_dedup]
    rw [(hperm.map _).sum_eq]
    have := List.sum_map_count_dedup_eq_length y
    exact this

/-- **C13.** The summary does not depend on the order of the samples. -/
theorem C13_order_independent (y y' : List α) (h : y.Perm y') : binExact y = binExact y' := by
  obtain ⟨c, b, e, hlt, hm, hc, -⟩ := C13_bin_exact y
  obtain ⟨c', b', e', hlt', hm', hc', -⟩ := C13_bin_exact y'
  have hp : b.Perm b' := by
    rw [List.perm_ext_iff_of_nodup (hlt.imp fun h => ne_of_lt h) (hlt'.imp fun h => ne_of_lt h)]
    intro a; rw [hm, hm', h.mem_iff]
  have hb : b = b' := List.Perm.eq_of_pairwise' hlt hlt' hp
  subst hb
  rw [e, e', hc, hc']
  congr 2
  apply List.map_congr_left
  intro a _
  exact h.count_eq a

/-- **C13.** The summary determines the samples up to their order. -/
theorem C13_faithful (y y' : List α) (h : binExact y = binExact y') : y.Perm y' := by
  obtain ⟨c, b, e, hlt, hm, hc, -⟩ := C13_bin_exact y
  obtain ⟨c', b', e', hlt', hm', hc', -⟩ := C13_bin_exact y'
  rw [e, e'] at h
  obtain ⟨rfl, rfl⟩ := Prod.mk.inj (Except.ok.inj h)
  rw [List.perm_iff_count]
  intro a
  by_cases ha : a ∈ b
  · rw [hc] at hc'
    exact List.map_inj_left.1 hc' a ha
  · rw [List.count_eq_zero_of_not_mem (fun h => ha ((hm a).2 h)),
      List.count_eq_zero_of_not_mem (fun h => ha ((hm' a).2 h))]

end exact

example : binExact [(3 : ℕ), 1, 3, 2, 1, 3] = .ok ([2, 1, 3], [1, 2, 3]) := by decide +kernel

/-! ### C14 linear binning -/

theorem diff_range (n : ℕ) (g : ℕ → ℤ) :
    diff ((List.range (n + 1)).map g) = (List.range n).map fun i => g (i + 1) - g i := by
  induction n generalizing g with
  | zero => rfl
  | succ n ih =>
    rw [List.range_succ_eq_map, List.range_succ_eq_map, List.map_cons, List.map_cons, List.map_cons]
    have e : diff (g 0 :: g (Nat.succ 0) :: List.map g (List.map Nat.succ (List.map Nat.succ (List.range n)))) =
        (g 1 - g 0) :: diff (g 1 :: List.map g (List.map Nat.succ (List.map Nat.succ (List.range n)))) := rfl
    rw [e]
    have e2 : (g 1 :: List.map g (List.map Nat.succ (List.map Nat.succ (List.range n)))) =
        (List.range (n + 1)).map (fun i => g (i + 1)) := by
      rw [List.range_succ_eq_map, List.map_cons, List.map_map, List.map_map, List.map_map]; rfl
    rw [e2, ih]
    rw [List.map_cons, List.map_map]
    rfl

theorem count_between (y : List ℚ) (p q : ℚ → Prop) [DecidablePred p] [DecidablePred q] (h : ∀ v, p v → q v) :
    ((y.countP (fun v => decide (q v)) : ℕ) : ℤ) - (y.countP (fun v => decide (p v)) : ℕ) =
      (y.countP (fun v => decide (q v ∧ ¬ p v)) : ℕ) := by
  induction y with
  | nil => simp
  | cons a y ih =>
    simp only [List.countP_cons]
    by_cases hp : p a
    · have hq := h a hp
      simp [hp, hq] at ih ⊢
      linarith
    · by_cases hq : q a
      · simp [hp, hq] at ih ⊢
        linarith
      · simp [hp, hq] at ih ⊢
        linarith

/-- Bin `i` of `n` bins with edges `E`: half open, the last one closed. -/
def InBin (E : ℕ → ℚ) (n i : ℕ) (v : ℚ) : Prop := E i ≤ v ∧ (v < E (i + 1) ∨ (i + 1 = n ∧ v = E (i + 1)))

instance (E : ℕ → ℚ) (n i : ℕ) (v : ℚ) : Decidable (InBin E n i v) := by unfold InBin; infer_instance

theorem histogram_spec (y : List ℚ) (E : ℕ → ℚ) (n : ℕ) (hE : ∀ i < n, E i ≤ E (i + 1)) :
    histogram y ((List.range (n + 1)).map E) =
      (List.range n).map fun i => ((y.countP (fun v => decide (InBin E n i v)) : ℕ) : ℤ) := by
  unfold histogram
  have hl : ((List.range (n + 1)).map E).dropLast = (List.range n).map E := by
    rw [List.range_succ, List.map_append]; simp
  have hg : ((List.range (n + 1)).map E).getLast? = some (E n) := by
    rw [List.range_succ, List.map_append]; simp
  rw [hl, hg]
  simp only
  set g : ℕ → ℤ := fun i => if i < n then ((y.countP (fun v => decide (v < E i)) : ℕ) : ℤ)
    else ((y.countP (fun v => decide (v ≤ E n)) : ℕ) : ℤ) with hgd
  have hc : (List.map (fun e => ((y.countP (fun v => decide (v < e)) : ℕ) : ℤ)) (List.map E (List.range n)) ++
      [((y.countP (fun v => decide (v ≤ E n)) : ℕ) : ℤ)]) = (List.range (n + 1)).map g := by
    rw [List.range_succ, List.map_append, List.map_map]
    congr 1
    · apply List.map_congr_left
      intro i hi
      simp only [Function.comp, hgd]
      rw [if_pos (List.mem_range.1 hi)]
    · simp [hgd]
  rw [hc, diff_range]
  apply List.map_congr_left
  intro i hi
  have hi := List.mem_range.1 hi
  simp only [hgd]
  rw [if_pos hi]
  by_cases hn : i + 1 < n
  · rw [if_pos hn, count_between y (fun v => v < E i) (fun v => v < E (i + 1)) (fun v h => h.trans_le (hE i hi))]
    congr 2
    funext v
    congr 1
    unfold InBin
    apply propext
    constructor
    · rintro ⟨h1, h2⟩; exact ⟨not_lt.1 h2, Or.inl h1⟩
    · rintro ⟨h1, h2 | h2⟩
      · exact ⟨h2, not_lt.2 h1⟩
      · omega
  · have hin : i + 1 = n := by omega
    rw [if_neg hn, count_between y (fun v => v < E i) (fun v => v ≤ E n) (fun v h => (h.trans_le (by
      rw [← hin]; exact hE i hi)).le)]
    congr 2
    funext v
    congr 1
    unfold InBin
    apply propext
    rw [hin]
    constructor
    · rintro ⟨h1, h2⟩; exact ⟨not_lt.1 h2, (lt_or_eq_of_le h1).imp id fun h => ⟨rfl, h⟩⟩
    · rintro ⟨h1, h2 | h2⟩
      · exact ⟨h2.le, not_lt.2 h1⟩
      · exact ⟨h2.2.le, not_lt.2 h1⟩

theorem foldl_min_le (l : List ℚ) (a : ℚ) : l.foldl min a ≤ a ∧ (∀ v ∈ l, l.foldl min a ≤ v) ∧
    (l.foldl min a = a ∨ l.foldl min a ∈ l) := by
  induction l generalizing a with
  | nil => simp
  | cons b l ih =>
    obtain ⟨h1, h2, h3⟩ := ih (min a b)
    simp only [List.foldl_cons]
    refine ⟨h1.trans (min_le_left _ _), ?_, ?_⟩
    · intro v hv
      rcases List.mem_cons.1 hv with rfl | hv
      · exact h1.trans (min_le_right _ _)
      · exact h2 v hv
    · rcases h3 with h3 | h3
      · rcases min_choice a b with h | h
        · left; rw [h3, h]
        · right; rw [h3, h]; exact List.mem_cons.2 (Or.inl rfl)
      · right; exact List.mem_cons_of_mem _ h3

theorem le_foldl_max (l : List ℚ) (a : ℚ) : a ≤ l.foldl max a ∧ (∀ v ∈ l, v ≤ l.foldl max a) ∧
    (l.foldl max a = a ∨ l.foldl max a ∈ l) := by
  induction l generalizing a with
  | nil => simp
  | cons b l ih =>
    obtain ⟨h1, h2, h3⟩ := ih (max a b)
    simp only [List.foldl_cons]
    refine ⟨(le_max_left _ _).trans h1, ?_, ?_⟩
    · intro v hv
      rcases List.mem_cons.1 hv with rfl | hv
      · exact (le_max_right _ _).trans h1
      · exact h2 v hv
    · rcases h3 with h3 | h3
      · rcases max_choice a b with h | h
        · left; rw [h3, h]
        · right; rw [h3, h]; exact List.mem_cons.2 (Or.inl rfl)
      · right; exact List.mem_cons_of_mem _ h3

theorem min_spec (y : List ℚ) (hy : y ≠ []) :
    ∃ m, minimum y = .ok m ∧ m ∈ y ∧ ∀ v ∈ y, m ≤ v := by
  cases y with
  | nil => exact absurd rfl hy
  | cons a l =>
    obtain ⟨h1, h2, h3⟩ := foldl_min_le l a
    refine ⟨_, rfl, ?_, ?_⟩
    · rcases h3 with h | h
      · rw [h]; exact List.mem_cons.2 (Or.inl rfl)
      · exact List.mem_cons_of_mem _ h
    · intro v hv
      rcases List.mem_cons.1 hv with rfl | hv
      · exact h1
      · exact h2 v hv

theorem max_spec (y : List ℚ) (hy : y ≠ []) :
    ∃ m, maximum y = .ok m ∧ m ∈ y ∧ ∀ v ∈ y, v ≤ m := by
  cases y with
  | nil => exact absurd rfl hy
  | cons a l =>
    obtain ⟨h1, h2, h3⟩ := le_foldl_max l a
    refine ⟨_, rfl, ?_, ?_⟩
    · rcases h3 with h | h
      · rw [h]; exact List.mem_cons.2 (Or.inl rfl)
      · exact List.mem_cons_of_mem _ h
    · intro v hv
      rcases List.mem_cons.1 hv with rfl | hv
      · exact h1
      · exact h2 v hv

theorem linearRange_spec (y : List ℚ) (hy : y ≠ []) :
    ∃ lo hi, linearRange y = .ok (lo, hi) ∧ lo < hi ∧ (∀ v ∈ y, lo ≤ v ∧ v ≤ hi) ∧
      ((∃ a ∈ y, ∃ b ∈ y, a ≠ b) → lo ∈ y ∧ hi ∈ y) := by
  obtain ⟨a, ea, ha, hal⟩ := min_spec y hy
  obtain ⟨b, eb, hb, hbl⟩ := max_spec y hy
  unfold linearRange
  rw [ea, eb]
  simp only [bind, Except.bind, pure, Except.pure]
  by_cases hab : a = b
  · subst hab
    have hall : ∀ v ∈ y, v = a := fun v hv => le_antisymm (hbl v hv) (hal v hv)
    have hno : (∃ a ∈ y, ∃ b ∈ y, a ≠ b) → False := by
      rintro ⟨u, hu, w, hw, hne⟩
      exact hne (by rw [hall u hu, hall w hw])
    rw [if_pos rfl]
    by_cases h0 : a = 0
    · rw [if_pos h0]
      refine ⟨-1, 1, rfl, by norm_num, ?_, fun h => (hno h).elim⟩
      intro v hv
      rw [hall v hv, h0]; norm_num
    · rw [if_neg h0]
      have hp : 0 < |a| := abs_pos.2 h0
      refine ⟨_, _, rfl, by linarith, ?_, fun h => (hno h).elim⟩
      intro v hv
      rw [hall v hv]
      constructor <;> linarith
  · rw [if_neg hab]
    refine ⟨a, b, rfl, lt_of_le_of_ne (hal b hb) hab, fun v hv => ⟨hal v hv, hbl v hv⟩, fun _ => ⟨ha, hb⟩⟩

theorem sum_telescope (n : ℕ) (g : ℕ → ℤ) :
    ((List.range n).map fun i => g (i + 1) - g i).sum = g n - g 0 := by
  induction n with
  | zero => simp
  | succ n ih => rw [List.range_succ, List.map_append, List.sum_append, ih]; simp

/-- every value between the first and the last edge is in exactly one bin -/
theorem inBin_unique (E : ℕ → ℚ) (n : ℕ) (hE : ∀ i < n, E i ≤ E (i + 1)) (v : ℚ) (hn : 0 < n) (h0 : E 0 ≤ v)
    (h1 : v ≤ E n) : ∃! i, i < n ∧ InBin E n i v := by
  have mono : ∀ i j, i ≤ j → j ≤ n → E i ≤ E j := by
    intro i j hij
    induction j, hij using Nat.le_induction with
    | base => intro _; exact le_refl _
    | succ j hij ih => intro hj; exact (ih (by omega)).trans (hE j (by omega))
  have ex : ∀ m, m ≤ n → v < E m → ∃ i < m, E i ≤ v ∧ v < E (i + 1) := by
    intro m
    induction m with
    | zero => intro _ h; exact absurd h0 (not_le.2 h)
    | succ m ih =>
      intro hm hv
      by_cases hmv : v < E m
      · obtain ⟨i, hi, h⟩ := ih (by omega) hmv
        exact ⟨i, by omega, h⟩
      · exact ⟨m, by omega, not_lt.1 hmv, hv⟩
  have uniq : ∀ i j, i < n → j < n → InBin E n i v → InBin E n j v → i ≤ j := by
    intro i j hi hj hbi hbj
    by_contra hc
    push Not at hc
    have h2 := mono (j + 1) i (by omega) hi.le
    rcases hbj.2 with h | ⟨h, _⟩
    · linarith [hbi.1]
    · omega
  by_cases hv : v < E n
  · obtain ⟨i, hi, h2, h3⟩ := ex n (le_refl _) hv
    refine ⟨i, ⟨hi, h2, Or.inl h3⟩, ?_⟩
    rintro j ⟨hj, hb⟩
    exact le_antisymm (uniq j i hj hi hb ⟨h2, Or.inl h3⟩) (uniq i j hi hj ⟨h2, Or.inl h3⟩ hb)
  · have hve : v = E n := le_antisymm h1 (not_lt.1 hv)
    have hb : InBin E n (n - 1) v := by
      have e : n - 1 + 1 = n := by omega
      unfold InBin
      rw [e]
      exact ⟨by rw [hve]; exact mono _ _ (by omega) (le_refl _), Or.inr ⟨rfl, hve⟩⟩
    refine ⟨n - 1, ⟨by omega, hb⟩, ?_⟩
    rintro j ⟨hj, hbj⟩
    exact le_antisymm (uniq j _ hj (by omega) hbj hb) (uniq _ j (by omega) hj hb hbj)

/-- The counts of all bins together are the number of samples. -/
theorem counts_sum (y : List ℚ) (E : ℕ → ℚ) (n : ℕ) (hn : 0 < n) (hE : ∀ i < n, E i ≤ E (i + 1))
    (hcov : ∀ v ∈ y, E 0 ≤ v ∧ v ≤ E n) :
    ((List.range n).map (fun i => y.countP (fun v => decide (InBin E n i v)))).sum = y.length := by
  induction y with
  | nil => simp
  | cons a y ih =>
    have iha := ih (fun v hv => hcov v (List.mem_cons_of_mem _ hv))
    have ha := hcov a (List.mem_cons.2 (Or.inl rfl))
    obtain ⟨k, ⟨hk, hbk⟩, huk⟩ := inBin_unique E n hE a hn ha.1 ha.2
    simp only [List.countP_cons, List.length_cons]
    have : ∀ m, m ≤ n → ((List.range m).map (fun i => y.countP (fun v => decide (InBin E n i v)) +
        (if decide (InBin E n i a) = true then 1 else 0))).sum =
        ((List.range m).map (fun i => y.countP (fun v => decide (InBin E n i v)))).sum + (if k < m then 1 else 0) := by
      intro m
      induction m with
      | zero => intro _; simp
      | succ m ihm =>
        intro hm
        rw [List.range_succ, List.map_append, List.map_append, List.sum_append, List.sum_append, ihm (by omega)]
        simp only [List.map_cons, List.map_nil, List.sum_cons, List.sum_nil, decide_eq_true_eq]
        by_cases hmk : m = k
        · subst hmk
          rw [if_pos hbk, if_neg (lt_irrefl _), if_pos (Nat.lt_succ_self _)]
          omega
        · rw [if_neg (fun h => hmk (huk m ⟨by omega, h⟩))]
          by_cases hkm : k < m
          · rw [if_pos hkm, if_pos (by omega)]; omega
          · rw [if_neg hkm, if_neg (by omega)]; omega
    rw [this n (le_refl _), iha, if_pos hk]

/-- **C14.** `bin_linear` of a non-empty list into `n > 0` bins: `n + 1` strictly increasing, equally spaced edges that
cover all samples (and are attained by samples unless all samples are equal); count `i` is the number of samples in
bin `i`; the counts sum to the number of samples. -/
theorem C14_bin_linear (y : List ℚ) (hy : y ≠ []) (n : ℕ) (hn : 0 < n) :
    ∃ (E : ℕ → ℚ) (w : ℚ), 0 < w ∧ (∀ i, E (i + 1) = E i + w) ∧
      binLinear y n = .ok ((List.range n).map (fun i => ((y.countP (fun v => decide (InBin E n i v)) : ℕ) : ℤ)),
        (List.range (n + 1)).map E) ∧
      (∀ v ∈ y, E 0 ≤ v ∧ v ≤ E n) ∧
      ((∃ a ∈ y, ∃ b ∈ y, a ≠ b) → E 0 ∈ y ∧ E n ∈ y) ∧
      ((List.range n).map (fun i => y.countP (fun v => decide (InBin E n i v)))).sum = y.length := by
  obtain ⟨lo, hi, er, hlt, hall, hatt⟩ := linearRange_spec y hy
  have hn' : (0 : ℚ) < n := by exact_mod_cast hn
  set E : ℕ → ℚ := fun i => lo + i * ((hi - lo) / n) with hEd
  have hw : 0 < (hi - lo) / n := div_pos (by linarith) hn'
  have hE : ∀ i < n, E i < E (i + 1) := by
    intro i _
    simp only [hEd]; push_cast; linarith
  have hE0 : E 0 = lo := by simp [hEd]
  have hEn : E n = hi := by simp only [hEd]; field_simp; ring
  refine ⟨E, (hi - lo) / n, hw, ?_, ?_, ?_, ?_, ?_⟩
  · intro i; simp only [hEd]; push_cast; ring
  · unfold binLinear
    rw [er]
    simp only [bind, Except.bind, pure, Except.pure]
    unfold linspace
    rw [histogram_spec y E n (fun i hi => (hE i hi).le)]
  · rw [hE0, hEn]; exact hall
  · rw [hE0, hEn]; exact hatt
  · exact counts_sum y E n hn (fun i hi => (hE i hi).le) (by rw [hE0, hEn]; exact hall)

/-- **C14.** Every sample is in exactly one of the bins. -/
theorem C14_exactly_one_bin (E : ℕ → ℚ) (n : ℕ) (hn : 0 < n) (w : ℚ) (hw : 0 < w) (hE : ∀ i, E (i + 1) = E i + w)
    (v : ℚ) (h0 : E 0 ≤ v) (h1 : v ≤ E n) : ∃! i, i < n ∧ InBin E n i v :=
  inBin_unique E n (fun i _ => by rw [hE]; linarith) v hn h0 h1

/-- **C14.** No samples is an error. -/
theorem C14_empty (n : ℕ) : binLinear [] n = .error .valueError := rfl

/-- Equal samples and zero samples. -/
example : binLinear [7, 7, 7] 2 = .ok ([0, 3], [133 / 20, 7, 147 / 20]) ∧
    binLinear [0] 2 = .ok ([0, 1], [-1, 0, 1]) ∧
    binLinear [1, 2, 4, 5] 2 = .ok ([2, 2], [1, 3, 5]) := by decide +kernel

/-! ### C15 downsampling -/

theorem expand_length (scale : ℚ) (hs : 0 ≤ scale) (cb : List (ℤ × ℚ)) (hc : ∀ p ∈ cb, 0 ≤ p.1) :
    (((cb.flatMap fun p => List.replicate ⌊(p.1 : ℚ) * scale⌋.toNat p.2).length : ℕ) : ℚ) ≤
      ((cb.map Prod.fst).sum : ℤ) * scale := by
  induction cb with
  | nil => simp
  | cons p cb ih =>
    have ih := ih (fun q hq => hc q (List.mem_cons_of_mem _ hq))
    have hp := hc p (List.mem_cons.2 (Or.inl rfl))
    rw [List.flatMap_cons, List.length_append, List.length_replicate, List.map_cons, List.sum_cons]
    rw [Int.cast_add, Nat.cast_add]
    have h0 : (0 : ℚ) ≤ (p.1 : ℚ) * scale := mul_nonneg (by exact_mod_cast hp) hs
    have h1 : ((⌊(p.1 : ℚ) * scale⌋.toNat : ℕ) : ℚ) ≤ (p.1 : ℚ) * scale := by
      have : ((⌊(p.1 : ℚ) * scale⌋.toNat : ℕ) : ℤ) = ⌊(p.1 : ℚ) * scale⌋ := Int.toNat_of_nonneg (Int.floor_nonneg.2 h0)
      calc ((⌊(p.1 : ℚ) * scale⌋.toNat : ℕ) : ℚ) = ((⌊(p.1 : ℚ) * scale⌋ : ℤ) : ℚ) := by exact_mod_cast this
        _ ≤ _ := Int.floor_le _
    rw [add_mul]
    linarith

theorem expand_sorted (scale : ℚ) (cb : List (ℤ × ℚ)) (hs : (cb.map Prod.snd).Pairwise (· < ·)) :
    (cb.flatMap fun p => List.replicate ⌊(p.1 : ℚ) * scale⌋.toNat p.2).Pairwise (· ≤ ·) := by
  induction cb with
  | nil => simp
  | cons p cb ih =>
    rw [List.map_cons, List.pairwise_cons] at hs
    rw [List.flatMap_cons, List.pairwise_append]
    refine ⟨?_, ih hs.2, ?_⟩
    · rw [List.pairwise_replicate]; right; exact le_refl _
    · intro a ha b hb
      obtain rfl := List.eq_of_mem_replicate ha
      obtain ⟨q, hq, hbq⟩ := List.mem_flatMap.1 hb
      obtain rfl := List.eq_of_mem_replicate hbq
      exact (hs.1 _ (List.mem_map.2 ⟨q, hq, rfl⟩)).le

theorem expand_count (scale : ℚ) (cb : List (ℤ × ℚ)) (hs : (cb.map Prod.snd).Nodup) (c : ℤ) (b : ℚ)
    (h : (c, b) ∈ cb) :
    (cb.flatMap fun p => List.replicate ⌊(p.1 : ℚ) * scale⌋.toNat p.2).count b = ⌊(c : ℚ) * scale⌋.toNat := by
  induction cb with
  | nil => simp at h
  | cons p cb ih =>
    rw [List.map_cons, List.nodup_cons] at hs
    rw [List.flatMap_cons, List.count_append, List.count_replicate]
    rcases List.mem_cons.1 h with rfl | h
    · have : (cb.flatMap fun p => List.replicate ⌊(p.1 : ℚ) * scale⌋.toNat p.2).count b = 0 := by
        rw [List.count_eq_zero]
        intro hb
        obtain ⟨q, hq, hbq⟩ := List.mem_flatMap.1 hb
        have := List.eq_of_mem_replicate hbq
        exact hs.1 (List.mem_map.2 ⟨q, hq, this.symm⟩)
      rw [this]; simp
    · have hne : p.2 ≠ b := fun e => hs.1 (List.mem_map.2 ⟨_, h, e.symm⟩)
      rw [ih hs.2 h]
      simp [hne]

theorem expand_mem (scale : ℚ) (cb : List (ℤ × ℚ)) (b : ℚ)
    (h : b ∈ cb.flatMap fun p => List.replicate ⌊(p.1 : ℚ) * scale⌋.toNat p.2) : b ∈ cb.map Prod.snd := by
  obtain ⟨q, hq, hbq⟩ := List.mem_flatMap.1 h
  rw [List.eq_of_mem_replicate hbq]
  exact List.mem_map.2 ⟨q, hq, rfl⟩

/-- **C15.** Short inputs are returned unchanged. -/
theorem C15_short (y : List ℚ) (hy : y ≠ []) (nMax : ℚ) (bc : Option ℕ) (h : (y.length : ℚ) ≤ nMax) :
    downsample y nMax bc = .ok y := by
  have hl : y.length ≠ 0 := fun h => hy (List.length_eq_zero_iff.1 h)
  have hp : (0 : ℚ) < y.length := by exact_mod_cast Nat.pos_of_ne_zero hl
  unfold downsample
  rw [if_neg hl]
  simp only
  rw [if_pos (by rw [le_div_iff₀ hp]; linarith)]

/-- **C15.** No samples is an error. -/
theorem C15_empty (nMax : ℚ) (bc : Option ℕ) : downsample [] nMax bc = .error .zeroDivision := rfl

/-- **C15.** With exact binning the result has at most `nMax` samples, is sorted and each value occurs exactly
`floor(count * nMax / len)` times, so never more often than in the input and not at all if it is not in the input. -/
theorem C15_exact (y : List ℚ) (hy : y ≠ []) (nMax : ℚ) (h0 : 0 ≤ nMax) (h : nMax < (y.length : ℚ)) :
    ∃ d, downsample y nMax none = .ok d ∧ (d.length : ℚ) ≤ nMax ∧ d.Pairwise (· ≤ ·) ∧
      (∀ b, (d.count b : ℤ) = ⌊(y.count b : ℚ) * (nMax / y.length)⌋) ∧ (∀ b, d.count b ≤ y.count b) := by
  have hl : y.length ≠ 0 := fun h => hy (List.length_eq_zero_iff.1 h)
  have hp : (0 : ℚ) < y.length := by exact_mod_cast Nat.pos_of_ne_zero hl
  obtain ⟨counts, bins, e, hlt, hm, hc, -, hsum⟩ := C13_bin_exact y
  set scale := nMax / (y.length : ℚ) with hsc
  have hs0 : 0 ≤ scale := div_nonneg h0 hp.le
  have hs1 : scale < 1 := by rw [hsc, div_lt_one hp]; exact h
  have hnd : bins.Nodup := hlt.imp fun h => ne_of_lt h
  have hzip : (List.zip (counts.map Int.ofNat) bins) = bins.map fun b => ((y.count b : ℤ), b) := by
    rw [hc, List.map_map]
    induction bins with
    | nil => rfl
    | cons a l ih => simp only [List.map_cons, List.zip_cons_cons]; congr 1; exact List.zip_map_left .. |>.symm ▸ (by
        clear * -
        induction l with
        | nil => rfl
        | cons a l ih => simp only [List.map_cons, List.zip_cons_cons] at ih ⊢; rw [ih]; rfl)
  have hfst : ((bins.map fun b => ((y.count b : ℤ), b)).map Prod.fst).sum = (y.length : ℤ) := by
    rw [List.map_map, ← hsum, hc, Nat.cast_list_sum, List.map_map]; rfl
  have hsnd : (bins.map fun b => ((y.count b : ℤ), b)).map Prod.snd = bins := by
    rw [List.map_map]; exact List.map_id _
  have key : ∀ b, (((bins.map fun b => ((y.count b : ℤ), b)).flatMap fun p =>
      List.replicate ⌊(p.1 : ℚ) * scale⌋.toNat p.2).count b : ℤ) = ⌊(y.count b : ℚ) * scale⌋ := by
    intro b
    by_cases hb : b ∈ bins
    · rw [expand_count scale (bins.map fun b => ((y.count b : ℤ), b)) (by rw [hsnd]; exact hnd) (y.count b) b (List.mem_map.2 ⟨b, hb, rfl⟩)]
      rw [Int.toNat_of_nonneg (Int.floor_nonneg.2 (mul_nonneg (by positivity) hs0))]
      rfl
    · rw [List.count_eq_zero_of_not_mem (fun h => hb (by rw [← hsnd]; exact expand_mem scale _ b h)),
        List.count_eq_zero_of_not_mem (fun h => hb ((hm b).2 h))]
      simp
  refine ⟨(bins.map fun b => ((y.count b : ℤ), b)).flatMap fun p => List.replicate ⌊(p.1 : ℚ) * scale⌋.toNat p.2,
    ?_, ?_, ?_, key, ?_⟩
  · unfold downsample
    rw [if_neg hl]
    simp only
    rw [if_neg (not_le.2 hs1), e]
    simp only [bind, Except.bind, pure, Except.pure]
    unfold expand
    rw [hzip]
  · refine (expand_length scale hs0 _ ?_).trans ?_
    · intro p hp
      obtain ⟨b, _, rfl⟩ := List.mem_map.1 hp
      exact Int.natCast_nonneg _
    · rw [hfst, hsc]; push_cast; rw [mul_div_cancel₀ _ hp.ne']
  · exact expand_sorted scale _ (by rw [hsnd]; exact hlt)
  · intro b
    have h1 : ⌊(y.count b : ℚ) * scale⌋ ≤ (y.count b : ℤ) := by
      have : (y.count b : ℚ) * scale ≤ (y.count b : ℤ) := by
        have : (0 : ℚ) ≤ y.count b := by positivity
        push_cast
        nlinarith
      have := Int.floor_le_floor this
      rwa [Int.floor_intCast] at this
    have := key b
    have h2 := h1
    rw [← this] at h2
    exact_mod_cast h2

theorem midpoints_range (n : ℕ) (E : ℕ → ℚ) :
    midpoints ((List.range (n + 1)).map E) = (List.range n).map fun i => (E i + E (i + 1)) / 2 := by
  induction n generalizing E with
  | zero => rfl
  | succ n ih =>
    rw [List.range_succ_eq_map, List.range_succ_eq_map, List.map_cons, List.map_cons, List.map_cons]
    have e : midpoints (E 0 :: E (Nat.succ 0) :: List.map E (List.map Nat.succ (List.map Nat.succ (List.range n)))) =
        ((E 0 + E 1) / 2) :: midpoints (E 1 :: List.map E (List.map Nat.succ (List.map Nat.succ (List.range n)))) := rfl
    rw [e]
    have e2 : (E 1 :: List.map E (List.map Nat.succ (List.map Nat.succ (List.range n)))) =
        (List.range (n + 1)).map (fun i => E (i + 1)) := by
      rw [List.range_succ_eq_map, List.map_cons, List.map_map, List.map_map, List.map_map]; rfl
    rw [e2, ih]
    rw [List.map_cons, List.map_map]
    rfl

/-- **C15.** With `n > 0` linear bins the result has at most `nMax` samples, is sorted, and consists of
`floor(count * nMax / len)` copies of each bin's centre.  The bins span the samples exactly, unless these are all equal. -/
theorem C15_linear (y : List ℚ) (hy : y ≠ []) (nMax : ℚ) (h0 : 0 ≤ nMax) (h : nMax < (y.length : ℚ)) (n : ℕ)
    (hn : 0 < n) :
    ∃ (d : List ℚ) (E : ℕ → ℚ) (w : ℚ), downsample y nMax (some n) = .ok d ∧ (d.length : ℚ) ≤ nMax ∧
      d.Pairwise (· ≤ ·) ∧ 0 < w ∧ (∀ i, E (i + 1) = E i + w) ∧ (∀ v ∈ y, E 0 ≤ v ∧ v ≤ E n) ∧
      ((∃ a ∈ y, ∃ b ∈ y, a ≠ b) → E 0 ∈ y ∧ E n ∈ y) ∧
      (∀ b ∈ d, ∃ i < n, b = (E i + E (i + 1)) / 2) ∧
      (∀ i < n, (d.count ((E i + E (i + 1)) / 2) : ℤ) =
        ⌊(y.countP (fun v => decide (InBin E n i v)) : ℚ) * (nMax / y.length)⌋) := by
  have hl : y.length ≠ 0 := fun h => hy (List.length_eq_zero_iff.1 h)
  have hp : (0 : ℚ) < y.length := by exact_mod_cast Nat.pos_of_ne_zero hl
  obtain ⟨E, w, hw, hEw, e, hcov, hatt, hsum⟩ := C14_bin_linear y hy n hn
  set scale := nMax / (y.length : ℚ) with hsc
  have hs0 : 0 ≤ scale := div_nonneg h0 hp.le
  have hs1 : scale < 1 := by rw [hsc, div_lt_one hp]; exact h
  set cb : List (ℤ × ℚ) := (List.range n).map fun i =>
    (((y.countP (fun v => decide (InBin E n i v)) : ℕ) : ℤ), (E i + E (i + 1)) / 2) with hcb
  have hzip : List.zip ((List.range n).map fun i => ((y.countP (fun v => decide (InBin E n i v)) : ℕ) : ℤ))
      ((List.range n).map fun i => (E i + E (i + 1)) / 2) = cb := by
    rw [hcb, List.zip_map']
  have hsnd : cb.map Prod.snd = (List.range n).map fun i => (E i + E (i + 1)) / 2 := by
    rw [hcb, List.map_map]; rfl
  have hmono : ∀ i j, i < j → E i < E j := by
    intro i j hij
    induction j, hij using Nat.le_induction with
    | base => rw [hEw]; linarith
    | succ j _ ih => rw [hEw]; linarith
  have hlt : (cb.map Prod.snd).Pairwise (· < ·) := by
    rw [hsnd, List.pairwise_map]
    refine List.pairwise_lt_range.imp ?_
    intro i j hij
    have h1 := hmono i j hij
    have h2 := hmono (i + 1) (j + 1) (by omega)
    linarith
  refine ⟨cb.flatMap fun p => List.replicate ⌊(p.1 : ℚ) * scale⌋.toNat p.2, E, w, ?_, ?_, ?_, hw, hEw, hcov, hatt, ?_, ?_⟩
  · unfold downsample
    rw [if_neg hl]
    simp only
    rw [if_neg (not_le.2 hs1), e]
    simp only [bind, Except.bind, pure, Except.pure]
    unfold expand
    rw [midpoints_range, hzip]
  · refine (expand_length scale hs0 _ ?_).trans ?_
    · intro p hp
      obtain ⟨b, _, rfl⟩ := List.mem_map.1 hp
      exact Int.natCast_nonneg _
    · have : (cb.map Prod.fst).sum = (y.length : ℤ) := by
        rw [hcb, List.map_map, ← hsum, Nat.cast_list_sum, List.map_map]; rfl
      rw [this, hsc]; push_cast; rw [mul_div_cancel₀ _ hp.ne']
  · exact expand_sorted scale _ hlt
  · intro b hb
    have := expand_mem scale cb b hb
    rw [hsnd] at this
    obtain ⟨i, hi, rfl⟩ := List.mem_map.1 this
    exact ⟨i, List.mem_range.1 hi, rfl⟩
  · intro i hi
    rw [expand_count scale cb (hlt.imp fun h => ne_of_lt h)
      ((y.countP (fun v => decide (InBin E n i v)) : ℕ) : ℤ) _ (List.mem_map.2 ⟨i, List.mem_range.2 hi, rfl⟩)]
    rw [Int.toNat_of_nonneg (Int.floor_nonneg.2 (mul_nonneg (by positivity) hs0))]
    rfl

example : downsample [1, 1, 1, 1, 2, 2, 3, 3] 4 none = .ok [1, 1, 2, 3] ∧
    downsample [1, 1, 1, 1, 2, 2, 3, 3] 4 (some 2) = .ok [3/2, 3/2, 5/2, 5/2] ∧
    downsample [1, 2, 3] 2 none = .ok [] := by decide +kernel

end Verif.Props.Stats
