import Verif.Props.CdrDetrend
import Mathlib.Data.List.Perm.Basic

/-!
C50: the search for a period of the data edges.
-/

namespace Verif.Props.CdrSearch

open Verif Verif.Eye Verif.Cdr Verif.Props.EyeWindow Verif.Props.CdrDetrend

/-! ### Specification -/

/-- The phases of the edges in periods of `t` starting half a period before the first edge. -/
def Phases (t : ℚ) (edges phases : List ℚ) : Prop :=
  phases.length = edges.length ∧
  ∀ i (h : i < edges.length) (h' : i < phases.length), -(t / 2) ≤ phases[i] ∧ phases[i] < t / 2 ∧ ∃ k : ℤ, edges[i] - edges[0] = k * t + phases[i]

/-- The number of consecutive edges whose phases jump by more than half a period. -/
def jumps (t : ℚ) : List ℚ → ℕ
  | p :: q :: l => (if t / 2 < |q - p| then 1 else 0) + jumps t (q :: l)
  | _ => 0

/-- `sort` only reorders. -/
def Reorders (sort : List Scored → List Scored) : Prop := ∀ l, (sort l).Perm l

/-- `sort` puts a best score first, if all are numbers. -/
def BestFirst (sort : List Scored → List Scored) : Prop :=
  ∀ l : List Scored, (∀ s ∈ l, s.2 ≠ none) → ∀ b r, sort l = b :: r → ∀ s ∈ l, ∀ x ∈ s.2, ∃ y ∈ b.2, y ≤ x

/-! ### Lemmas -/

theorem fold_min (l : List ℚ) (a : ℚ) : l.foldl min a ∈ a :: l ∧ ∀ x ∈ a :: l, l.foldl min a ≤ x := by
  induction l generalizing a with
  | nil => simp
  | cons b l ih =>
    obtain ⟨h1, h2⟩ := ih (min a b)
    rw [List.foldl_cons]
    constructor
    · rcases List.mem_cons.1 h1 with h | h
      · rw [h]
        rcases min_choice a b with hm | hm <;> rw [hm] <;> simp
      · exact List.mem_cons_of_mem _ (List.mem_cons_of_mem _ h)
    · intro x hx
      have h0 := h2 (min a b) List.mem_cons_self
      rcases List.mem_cons.1 hx with rfl | hx
      · exact h0.trans (min_le_left _ _)
      · rcases List.mem_cons.1 hx with rfl | hx
        · exact h0.trans (min_le_right _ _)
        · exact h2 x (List.mem_cons_of_mem _ hx)

theorem fold_max (l : List ℚ) (a : ℚ) : l.foldl max a ∈ a :: l ∧ ∀ x ∈ a :: l, x ≤ l.foldl max a := by
  induction l generalizing a with
  | nil => simp
  | cons b l ih =>
    obtain ⟨h1, h2⟩ := ih (max a b)
    rw [List.foldl_cons]
    constructor
    · rcases List.mem_cons.1 h1 with h | h
      · rw [h]
        rcases max_choice a b with hm | hm <;> rw [hm] <;> simp
      · exact List.mem_cons_of_mem _ (List.mem_cons_of_mem _ h)
    · intro x hx
      have h0 := h2 (max a b) List.mem_cons_self
      rcases List.mem_cons.1 hx with rfl | hx
      · exact (le_max_left _ _).trans h0
      · rcases List.mem_cons.1 hx with rfl | hx
        · exact (le_max_right _ _).trans h0
        · exact h2 x (List.mem_cons_of_mem _ hx)

theorem mem_linspace (lo hi : ℚ) (n : ℕ) (h : lo ≤ hi) (x : ℚ) (hx : x ∈ Stats.linspace lo hi n) : lo ≤ x ∧ x ≤ hi := by
  unfold Stats.linspace at hx
  obtain ⟨i, hi', rfl⟩ := List.mem_map.1 hx
  rw [List.mem_range] at hi'
  by_cases hn : n = 0
  · subst hn
    simp
    exact h
  · have h0 : (0 : ℚ) < n := by exact_mod_cast Nat.pos_of_ne_zero hn
    have h1 : (i : ℚ) ≤ n := by exact_mod_cast Nat.lt_succ_iff.1 hi'
    have h2 : 0 ≤ (hi - lo) / n := div_nonneg (by linarith) h0.le
    refine ⟨by nlinarith [(Nat.cast_nonneg i : (0 : ℚ) ≤ i)], ?_⟩
    have h3 : (i : ℚ) * ((hi - lo) / n) ≤ n * ((hi - lo) / n) := mul_le_mul_of_nonneg_right h1 h2
    rw [mul_div_cancel₀ _ h0.ne'] at h3
    linarith

theorem scores_mem (sort : List Scored → List Scored) (hs : Reorders sort) (edges span : List ℚ) (s : Scored) (h : s ∈ tieScores sort edges span) :
    s.1 ∈ span ∧ s.2 = tieScore edges s.1 := by
  unfold tieScores at h
  have := (hs _).mem_iff.1 h
  obtain ⟨t, ht, rfl⟩ := List.mem_map.1 this
  exact ⟨ht, rfl⟩

/-- The bounds of the next round are within those of this one. -/
theorem nextBounds_spec (sort : List Scored → List Scored) (hs : Reorders sort) (edges : List ℚ) (tMin tMax : ℚ) (h : tMin ≤ tMax) (fs : List Finer) :
    (∃ lo hi, nextBounds sort edges tMin tMax fs = .ok (lo, hi) ∧ tMin ≤ lo ∧ lo ≤ hi ∧ hi ≤ tMax) ∨
      nextBounds sort edges tMin tMax fs = .error .arithmeticError := by
  induction fs with
  | nil => exact Or.inr rfl
  | cons f fs ih =>
    unfold nextBounds
    simp only
    obtain ⟨lower, hl⟩ : ∃ lower, ((tieScores sort (edges.take f.edges) (Stats.linspace tMin tMax (f.points - 1))).filter
      fun s => scoreLt s.2 1).map Prod.fst = lower := ⟨_, rfl⟩
    rw [hl]
    cases lower with
    | nil => exact ih
    | cons a l =>
      left
      have hm : ∀ x ∈ a :: l, tMin ≤ x ∧ x ≤ tMax := by
        intro x hx
        rw [← hl] at hx
        obtain ⟨s, hs', rfl⟩ := List.mem_map.1 hx
        exact mem_linspace _ _ _ h _ (scores_mem sort hs _ _ s (List.mem_filter.1 hs').1).1
      have hstep : 0 ≤ (tMax - tMin) / (f.steps : ℚ) := div_nonneg (by linarith) (Nat.cast_nonneg _)
      obtain ⟨m1, m2⟩ := fold_min l a
      obtain ⟨M1, M2⟩ := fold_max l a
      have b1 := hm _ m1
      have b2 := hm _ M1
      have b3 := m2 _ M1
      simp only [Stats.minimum, Stats.maximum, bind, Except.bind, pure, Except.pure]
      refine ⟨_, _, rfl, le_max_left _ _, ?_, min_le_left _ _⟩
      apply max_le
      · exact le_min h (by linarith)
      · exact le_min (by linarith) (by linarith)

theorem disjoints_jumps (t c : ℚ) (l : List ℚ) : disjoints l t = jumps t (l.map fun x => x - c) := by
  induction l with
  | nil => rfl
  | cons p l ih =>
    cases l with
    | nil => rfl
    | cons q l =>
      have hd : diffs (p :: q :: l) = (q - p) :: diffs (q :: l) := rfl
      unfold disjoints at ih ⊢
      rw [hd, List.countP_cons, ih]
      simp only [List.map_cons, jumps, decide_eq_true_eq, sub_sub_sub_cancel_right]
      rw [add_comm]

/-- A score below the tolerance means fewer jumps than that. -/
theorem score_spec (first t tol : ℚ) (rest : List ℚ) (ht : 0 < t) (htol : 1 ≤ tol)
    (h : scoreLt (tieScore ((first :: rest).map fun e => e - first) t) tol = true) :
    ∃ phases, Phases t (first :: rest) phases ∧ (jumps t phases : ℚ) < tol := by
  refine ⟨((first :: rest).map fun e => pyMod (e - first + t / 2) t).map fun x => x - t / 2, ⟨by simp, ?_⟩, ?_⟩
  · intro i h1 h2
    simp only [List.getElem_map]
    obtain ⟨p1, p2, k, p3⟩ := pyMod_spec ((first :: rest)[i] - first + t / 2) t ht
    refine ⟨by linarith, by linarith, k, ?_⟩
    simp only [List.getElem_cons_zero]
    linarith
  · rw [← disjoints_jumps]
    unfold tieScore at h
    simp only [List.map_map, Function.comp_def] at h
    split at h
    · rename_i hd
      have : disjoints (List.map (fun e => pyMod (e - first + t / 2) t) (first :: rest)) t = 0 := by omega
      rw [this]
      push_cast
      linarith
    · simpa [scoreLt] using h

theorem firstPoints_pos (n : ℕ) : 20 ≤ firstPoints n := le_max_left _ _

/-- The first round. -/
theorem search_eq (sort : List Scored → List Scored) (hs : Reorders sort) (finer : List Finer) (first : ℚ) (rest : List ℚ) (tol tMin tMax : ℚ)
    (left : ℕ) :
    ∃ best r, tieScores sort ((first :: rest).map fun e => e - first) (Stats.linspace tMin tMax (firstPoints (first :: rest).length - 1)) = best :: r ∧
      search sort finer (first :: rest) tol left tMin tMax =
        if scoreLt best.2 tol then .ok best.1
        else match left with
          | 0 => .error .arithmeticError
          | left + 1 => (nextBounds sort ((first :: rest).map fun e => e - first) tMin tMax finer).bind
              fun b => search sort finer (first :: rest) tol left b.1 b.2 := by
  obtain ⟨sc, hsc⟩ : ∃ sc, tieScores sort ((first :: rest).map fun e => e - first)
    (Stats.linspace tMin tMax (firstPoints (first :: rest).length - 1)) = sc := ⟨_, rfl⟩
  have hp := firstPoints_pos (first :: rest).length
  cases sc with
  | nil =>
    exfalso
    have h := (hs ((Stats.linspace tMin tMax (firstPoints (first :: rest).length - 1)).map fun t =>
      (t, tieScore ((first :: rest).map fun e => e - first) t))).length_eq
    unfold tieScores at hsc
    rw [hsc] at h
    simp [Stats.linspace] at h
  | cons best r =>
    refine ⟨best, r, hsc, ?_⟩
    have hg : pyGet (first :: rest) 0 = .ok first := rfl
    conv_lhs => unfold search
    simp only [hg, bind, Except.bind, List.length_map, hsc]
    split
    · rfl
    · cases left with
      | zero => rfl
      | succ left => rfl

/-! ### C50 -/

theorem search_found (sort : List Scored → List Scored) (hs : Reorders sort) (finer : List Finer) (edges : List ℚ) (hne : edges ≠ []) (tol : ℚ)
    (htol : 1 ≤ tol) (left : ℕ) (tMin tMax : ℚ) (h0 : 0 < tMin) (h : tMin ≤ tMax) :
    (∃ t, search sort finer edges tol left tMin tMax = .ok t ∧ tMin ≤ t ∧ t ≤ tMax ∧ ∃ phases, Phases t edges phases ∧ (jumps t phases : ℚ) < tol) ∨
      search sort finer edges tol left tMin tMax = .error .arithmeticError := by
  obtain ⟨first, rest, rfl⟩ := List.exists_cons_of_ne_nil hne
  induction left generalizing tMin tMax with
  | zero =>
    obtain ⟨best, r, h1, h2⟩ := search_eq sort hs finer first rest tol tMin tMax 0
    rw [h2]
    split
    · rename_i hb
      obtain ⟨m1, m2⟩ := scores_mem sort hs _ _ best (by rw [h1]; exact List.mem_cons_self)
      obtain ⟨m3, m4⟩ := mem_linspace _ _ _ h _ m1
      rw [m2] at hb
      exact Or.inl ⟨_, rfl, m3, m4, score_spec first _ tol rest (by linarith) htol hb⟩
    · exact Or.inr rfl
  | succ left ih =>
    obtain ⟨best, r, h1, h2⟩ := search_eq sort hs finer first rest tol tMin tMax (left + 1)
    rw [h2]
    split
    · rename_i hb
      obtain ⟨m1, m2⟩ := scores_mem sort hs _ _ best (by rw [h1]; exact List.mem_cons_self)
      obtain ⟨m3, m4⟩ := mem_linspace _ _ _ h _ m1
      rw [m2] at hb
      exact Or.inl ⟨_, rfl, m3, m4, score_spec first _ tol rest (by linarith) htol hb⟩
    · rcases nextBounds_spec sort hs ((first :: rest).map fun e => e - first) tMin tMax h finer with ⟨lo, hi, hb, b1, b2, b3⟩ | hb
      · simp only [hb, Except.bind]
        rcases ih lo hi (by linarith) b2 with ⟨t, t1, t2, t3, t4⟩ | he
        · exact Or.inl ⟨t, t1, by linarith, by linarith, t4⟩
        · exact Or.inr he
      · simp only [hb, Except.bind]
        exact Or.inr trivial

/-- C50: the search returns a period between the bounds for which the phases of the edges jump fewer times than the tolerance, or ArithmeticError;
for every way to sort the scores and every list of finer searches, so for the fallback and the compiled version.  That it stops is part of the
definition: each round uses one of the `max_iter` iterations. -/
theorem C50_found (sort : List Scored → List Scored) (hs : Reorders sort) (finer : List Finer) (edges : List ℚ) (hne : edges ≠ []) (tol : ℚ)
    (htol : 1 ≤ tol) (maxIter : ℤ) (tMin tMax : ℚ) (h0 : 0 < tMin) (h : tMin ≤ tMax) :
    (∃ t, minimizeTieDisjoints sort finer edges none (some tMin) (some tMax) tol maxIter = .ok t ∧ tMin ≤ t ∧ t ≤ tMax ∧
      ∃ phases, Phases t edges phases ∧ (jumps t phases : ℚ) < tol) ∨
    minimizeTieDisjoints sort finer edges none (some tMin) (some tMax) tol maxIter = .error .arithmeticError :=
  search_found sort hs finer edges hne tol htol _ tMin tMax h0 h

/-- C50: with a period instead of bounds, the result is within 10 % of it, whatever bounds are given. -/
theorem C50_t_sym (sort : List Scored → List Scored) (hs : Reorders sort) (finer : List Finer) (edges : List ℚ) (hne : edges ≠ []) (tol : ℚ)
    (htol : 1 ≤ tol) (maxIter : ℤ) (tSym : ℚ) (lo hi : Option ℚ) (h0 : 0 < tSym) :
    (∃ t, minimizeTieDisjoints sort finer edges (some tSym) lo hi tol maxIter = .ok t ∧ |t - tSym| ≤ tSym / 10 ∧
      ∃ phases, Phases t edges phases ∧ (jumps t phases : ℚ) < tol) ∨
    minimizeTieDisjoints sort finer edges (some tSym) lo hi tol maxIter = .error .arithmeticError := by
  rcases search_found sort hs finer edges hne tol htol maxIter.toNat (tSym * (9 / 10)) (tSym * (11 / 10)) (by linarith) (by linarith) with
    ⟨t, t1, t2, t3, t4⟩ | he
  · exact Or.inl ⟨t, t1, by rw [abs_le]; constructor <;> linarith, t4⟩
  · exact Or.inr he

/-- C50: missing bounds raise ValueError. -/
theorem C50_missing (sort : List Scored → List Scored) (finer : List Finer) (edges : List ℚ) (tol : ℚ) (maxIter : ℤ) (lo hi : Option ℚ)
    (h : lo = none ∨ hi = none) : minimizeTieDisjoints sort finer edges none lo hi tol maxIter = .error .valueError := by
  rcases h with rfl | rfl
  · rfl
  · cases lo <;> rfl

/-- C50: without edges there is an IndexError. -/
theorem C50_no_edges (sort : List Scored → List Scored) (finer : List Finer) (tol : ℚ) (maxIter : ℤ) (lo hi : ℚ) :
    minimizeTieDisjoints sort finer [] none (some lo) (some hi) tol maxIter = .error .indexError := by
  show search sort finer [] tol maxIter.toNat lo hi = _
  unfold search
  rfl

/-! ### Edges without jitter are found -/

/-- A tested period is within half a step of each period between the bounds. -/
theorem linspace_near (lo hi T : ℚ) (n : ℕ) (hn : 0 < n) (h1 : lo ≤ T) (h2 : T ≤ hi) :
    ∃ t ∈ Stats.linspace lo hi n, |T - t| ≤ (hi - lo) / n / 2 := by
  have h0 : (0 : ℚ) < n := by exact_mod_cast hn
  unfold Stats.linspace
  by_cases hh : hi = lo
  · refine ⟨lo, List.mem_map.2 ⟨0, by simp, by simp⟩, ?_⟩
    have : T = lo := by linarith
    rw [this, hh]
    simp
  · have hpos : 0 < hi - lo := by
      rcases lt_or_eq_of_le (h1.trans h2) with h | h
      · linarith
      · exact absurd h.symm hh
    have hst : 0 < (hi - lo) / n := div_pos hpos h0
    obtain ⟨st, hst'⟩ : ∃ st, (hi - lo) / n = st := ⟨_, rfl⟩
    rw [hst'] at hst ⊢
    have hn' : st * n = hi - lo := by rw [← hst']; exact div_mul_cancel₀ _ h0.ne'
    have hf1 := Int.floor_le ((T - lo) / st + 1 / 2)
    have hf2 := Int.lt_floor_add_one ((T - lo) / st + 1 / 2)
    have hnn : 0 ≤ ⌊(T - lo) / st + 1 / 2⌋ := by
      apply Int.floor_nonneg.2
      have : 0 ≤ (T - lo) / st := div_nonneg (by linarith) hst.le
      linarith
    have hle : (T - lo) / st ≤ n := by rw [div_le_iff₀ hst]; linarith
    have hln : ⌊(T - lo) / st + 1 / 2⌋ ≤ n := by
      have : (⌊(T - lo) / st + 1 / 2⌋ : ℚ) < (n : ℤ) + 1 := by push_cast; linarith
      exact Int.lt_add_one_iff.1 (by exact_mod_cast this)
    obtain ⟨i, hi'⟩ := Int.eq_ofNat_of_zero_le hnn
    rw [hi'] at hf1 hf2 hln
    refine ⟨lo + i * st, List.mem_map.2 ⟨i, List.mem_range.2 (by omega), rfl⟩, ?_⟩
    have e : (T - lo) / st * st = T - lo := div_mul_cancel₀ _ hst.ne'
    simp only [Int.cast_natCast] at hf1 hf2
    generalize (T - lo) / st = q at *
    rw [abs_le]
    constructor <;> nlinarith

theorem phase_exact (t y : ℚ) (k : ℤ) (ht : 0 < t) (h1 : -(t / 2) ≤ y) (h2 : y < t / 2) :
    pyMod (k * t + y + t / 2) t = y + t / 2 ∧ floorDiv (k * t + y + t / 2) t = k := by
  have hf : ⌊(k * t + y + t / 2) / t⌋ = k := by
    rw [Int.floor_eq_iff, le_div_iff₀ ht, div_lt_iff₀ ht]
    constructor <;> linarith
  refine ⟨?_, hf⟩
  show (k * t + y + t / 2) - t * ⌊(k * t + y + t / 2) / t⌋ = _
  rw [hf]
  ring

theorem diffs_map_small (m : List ℤ) (c b B : ℚ) (h : m.Pairwise fun x y => x ≤ y ∧ |((y - x : ℤ) : ℚ) * c| ≤ B) :
    ∀ d ∈ diffs (m.map fun x : ℤ => x * c + b), |d| ≤ B := by
  induction m with
  | nil => intro d hd; cases hd
  | cons x m ih =>
    cases m with
    | nil => intro d hd; cases hd
    | cons y m =>
      rw [List.pairwise_cons] at h
      intro d hd
      have e : diffs ((x :: y :: m).map fun x : ℤ => x * c + b) = ((y * c + b) - (x * c + b)) :: diffs ((y :: m).map fun x : ℤ => x * c + b) := rfl
      rw [e] at hd
      rcases List.mem_cons.1 hd with rfl | hd
      · have := (h.1 y List.mem_cons_self).2
        push_cast at this
        rwa [show (y : ℚ) * c + b - (x * c + b) = ((y : ℚ) - x) * c by ring]
      · exact ih h.2 d hd

/-- C50: edges without jitter, with a period between the bounds, are found in the first round if the steps are fine enough: `n` symbols drift by less
than half a period over half a step.  The score of a period without jumps is the remaining drift per symbol less one, so it depends on the unit of
time: `hunit` holds for times in seconds and periods up to two seconds. -/
theorem C50_finds (sort : List Scored → List Scored) (hs : Reorders sort) (hb : BestFirst sort) (finer : List Finer) (m : List ℤ) (a T tMin tMax : ℚ)
    (h0 : 0 < tMin) (h1 : tMin ≤ T) (h2 : T ≤ tMax) (tol : ℚ) (maxIter : ℤ) (n : ℤ)
    (hm : (0 :: m).Pairwise (· ≤ ·)) (hn : (0 :: m).getLast? = some n)
    (hspan : tMax ≤ 2 * (n * T)) (hunit : tMax ≤ 2 * (1 + tol))
    (hstep : n * ((tMax - tMin) / (firstPoints (0 :: m).length - 1 : ℕ)) < tMin) :
    ∃ t, minimizeTieDisjoints sort finer ((0 :: m).map fun x : ℤ => a + x * T) none (some tMin) (some tMax) tol maxIter = .ok t := by
  obtain ⟨best, r, hsc, hse⟩ := search_eq sort hs finer (a + (0 : ℤ) * T) (m.map fun x : ℤ => a + x * T) tol tMin tMax maxIter.toNat
  have hlen : ((a + (0 : ℤ) * T) :: m.map fun x : ℤ => a + x * T).length = (0 :: m).length := by simp
  rw [hlen] at hsc
  have hed : ((a + (0 : ℤ) * T) :: m.map fun x : ℤ => a + x * T).map (fun e => e - (a + (0 : ℤ) * T)) = (0 :: m).map fun x : ℤ => (x : ℚ) * T := by
    rw [List.map_cons, List.map_cons, List.map_map]
    congr 1
    · ring
    · apply List.map_congr_left
      intro x _
      simp only [Function.comp]
      push_cast
      ring
  rw [hed] at hsc
  have hT : 0 < T := by linarith
  have hmem : n ∈ (0 :: m) := List.mem_of_getLast? hn
  have hnn : ∀ x ∈ (0 :: m), 0 ≤ x ∧ x ≤ n := by
    intro x hx
    constructor
    · rcases List.mem_cons.1 hx with rfl | hx
      · exact le_refl _
      · exact (List.pairwise_cons.1 hm).1 x hx
    · obtain ⟨l, hl⟩ : ∃ l, (0 :: m) = l ++ [n] := ⟨_, (List.dropLast_append_getLast? n hn).symm⟩
      rw [hl] at hx hm
      rcases List.mem_append.1 hx with hx | hx
      · exact (List.pairwise_append.1 hm).2.2 x hx n List.mem_cons_self
      · rw [List.mem_singleton.1 hx]
  have hn0 : 0 ≤ n := (hnn n hmem).1
  have hfp := firstPoints_pos (0 :: m).length
  -- no nan
  have hnan : ∀ t ∈ Stats.linspace tMin tMax (firstPoints (0 :: m).length - 1), tieScore ((0 :: m).map fun x : ℤ => (x : ℚ) * T) t ≠ none := by
    intro t ht
    obtain ⟨t1, t2⟩ := mem_linspace _ _ _ (h1.trans h2) _ ht
    have ht0 : 0 < t := by linarith
    unfold tieScore
    simp only
    split
    · intro hc
      rw [Option.map_eq_none_iff] at hc
      rw [List.map_map] at hc
      -- both bits and phases come from one list
      have hpair := CdrDetrend.slope_pairs ((0 :: m).map fun x : ℤ => ((floorDiv ((x : ℚ) * T + t / 2) t : ℚ), pyMod ((x : ℚ) * T + t / 2) t)) (by simp)
      simp only [List.map_map, List.length_map, Function.comp_def] at hpair hc
      rw [hc] at hpair
      split at hpair
      · rename_i hD
        have hvar : ∀ l : List ℚ, l.length * (l.map fun x => x * x).sum - l.sum ^ 2 = 0 → ∀ x ∈ l, ∀ y ∈ l, x = y := by
          intro l hl x hx y hy
          have key : ∀ (l : List ℚ) (c : ℚ), (l.map fun x => (x - c) * (x - c)).sum = (l.map fun x => x * x).sum - 2 * c * l.sum + c * c * l.length := by
            intro l c
            induction l with
            | nil => simp
            | cons a l ih =>
              simp only [List.map_cons, List.sum_cons, List.length_cons, ih]
              push_cast
              ring
          have hlpos : (0 : ℚ) < l.length := by exact_mod_cast List.length_pos_of_mem hx
          have hz : (l.map fun x => (x - l.sum / l.length) * (x - l.sum / l.length)).sum = 0 := by
            have e1 : (l.length : ℚ) * (l.map fun x => (x - l.sum / l.length) * (x - l.sum / l.length)).sum = 0 := by
              rw [key, ← hl]
              field_simp
              ring
            exact (mul_eq_zero.1 e1).resolve_left hlpos.ne'
          have hall : ∀ (l : List ℚ) (c : ℚ), (l.map fun x => (x - c) * (x - c)).sum = 0 → 0 ≤ (l.map fun x => (x - c) * (x - c)).sum ∧ ∀ x ∈ l, x = c := by
            intro l c
            have hnn : ∀ l : List ℚ, 0 ≤ (l.map fun x => (x - c) * (x - c)).sum := by
              intro l
              induction l with
              | nil => simp
              | cons a l ih =>
                simp only [List.map_cons, List.sum_cons]
                nlinarith [mul_self_nonneg (a - c)]
            induction l with
            | nil => simp
            | cons a l ih =>
              intro h
              refine ⟨hnn _, ?_⟩
              simp only [List.map_cons, List.sum_cons] at h
              have s1 := mul_self_nonneg (a - c)
              have s2 := hnn l
              intro x hx
              rcases List.mem_cons.1 hx with rfl | hx
              · have := mul_self_eq_zero.1 (show (x - c) * (x - c) = 0 by linarith)
                linarith
              · exact (ih (by linarith)).2 x hx
          have := (hall l _ hz).2
          rw [this x hx, this y hy]
        have hmap : (0 :: m).map (fun x : ℤ => (floorDiv ((x : ℚ) * T + t / 2) t : ℚ) * (floorDiv ((x : ℚ) * T + t / 2) t : ℚ)) =
            ((0 :: m).map fun x : ℤ => (floorDiv ((x : ℚ) * T + t / 2) t : ℚ)).map fun x => x * x := by rw [List.map_map]; rfl
        rw [hmap] at hD
        have hD' := hvar ((0 :: m).map fun x : ℤ => (floorDiv ((x : ℚ) * T + t / 2) t : ℚ)) (by rw [List.length_map]; exact hD)
        have := hD' _ (List.mem_map.2 ⟨0, List.mem_cons_self, rfl⟩) _ (List.mem_map.2 ⟨n, hmem, rfl⟩)
        have e0 : floorDiv (((0 : ℤ) : ℚ) * T + t / 2) t = 0 := by
          unfold floorDiv
          rw [Int.floor_eq_iff, le_div_iff₀ ht0, div_lt_iff₀ ht0]
          push_cast
          constructor <;> linarith
        have e1 : 1 ≤ floorDiv ((n : ℚ) * T + t / 2) t := by
          unfold floorDiv
          rw [Int.le_floor, le_div_iff₀ ht0]
          push_cast
          linarith
        rw [e0] at this
        have : (0 : ℤ) = floorDiv ((n : ℚ) * T + t / 2) t := by exact_mod_cast this
        omega
      · cases hpair
    · simp
  -- a tested period near T
  have hfp' : 0 < firstPoints (0 :: m).length - 1 := by omega
  obtain ⟨t, htm, htn⟩ := linspace_near tMin tMax T _ hfp' h1 h2
  obtain ⟨t1, t2⟩ := mem_linspace _ _ _ (h1.trans h2) _ htm
  have ht0 : 0 < t := by linarith
  have hdrift : ∀ x : ℤ, 0 ≤ x → x ≤ n → |(x : ℚ) * (T - t)| < t / 2 := by
    intro x hx0 hxn
    rw [abs_mul]
    have c1 : |(x : ℚ)| ≤ n := by
      rw [abs_of_nonneg (by exact_mod_cast hx0)]
      exact_mod_cast hxn
    have c2 : |(x : ℚ)| * |T - t| ≤ n * ((tMax - tMin) / (firstPoints (0 :: m).length - 1 : ℕ) / 2) :=
      mul_le_mul c1 htn (abs_nonneg _) (by exact_mod_cast hn0)
    linarith
  have hphase : ∀ x ∈ (0 :: m), pyMod ((x : ℚ) * T + t / 2) t = x * (T - t) + t / 2 := by
    intro x hx
    obtain ⟨x1, x2⟩ := hnn x hx
    have hd := abs_lt.1 (hdrift x x1 x2)
    have := (phase_exact t ((x : ℚ) * (T - t)) x ht0 hd.1.le hd.2).1
    rwa [show (x : ℚ) * t + x * (T - t) + t / 2 = x * T + t / 2 by ring] at this
  have hgood : ∃ y ∈ tieScore ((0 :: m).map fun x : ℤ => (x : ℚ) * T) t, y < tol := by
    have hsome := hnan t htm
    unfold tieScore at hsome ⊢
    simp only [List.map_map, Function.comp_def] at hsome ⊢
    have hzero : disjoints ((0 :: m).map fun x : ℤ => pyMod ((x : ℚ) * T + t / 2) t) t = 0 := by
      rw [List.map_congr_left hphase]
      unfold disjoints
      rw [List.countP_eq_zero]
      have hpw : (0 :: m).Pairwise fun x y => x ≤ y ∧ |((y - x : ℤ) : ℚ) * (T - t)| ≤ t / 2 := by
        apply List.Pairwise.imp_of_mem _ hm
        intro x y hx hy hxy
        obtain ⟨x1, x2⟩ := hnn x hx
        obtain ⟨y1, y2⟩ := hnn y hy
        exact ⟨hxy, (hdrift (y - x) (by omega) (by omega)).le⟩
      intro d hd
      have := diffs_map_small (0 :: m) (T - t) (t / 2) (t / 2) hpw d hd
      simp only [decide_eq_true_eq]
      linarith
    rw [if_pos (by omega)] at hsome ⊢
    obtain ⟨s, hs'⟩ := Option.ne_none_iff_exists'.1 hsome
    rw [hs']
    refine ⟨s, rfl, ?_⟩
    -- the slope of the phases over the numbers is T - t
    obtain ⟨sl, hsl, rfl⟩ := Option.map_eq_some_iff.1 hs'
    have hbits : ∀ x ∈ (0 :: m), ((floorDiv ((x : ℚ) * T + t / 2) t : ℤ) : ℚ) = x := by
      intro x hx
      obtain ⟨x1, x2⟩ := hnn x hx
      have hd := abs_lt.1 (hdrift x x1 x2)
      have := (phase_exact t ((x : ℚ) * (T - t)) x ht0 hd.1.le hd.2).2
      rw [show (x : ℚ) * t + x * (T - t) + t / 2 = x * T + t / 2 by ring] at this
      rw [this]
    rw [List.map_congr_left hphase, List.map_congr_left hbits] at hsl
    have hsh := CdrDetrend.slope_shift ((0 :: m).map fun x : ℤ => ((x : ℚ), (x : ℚ) * (T - t) + t / 2)) (by simp) (t / 2) (T - t)
    simp only [List.map_map, Function.comp_def] at hsh
    rw [hsl] at hsh
    have hz : ((0 :: m).map fun x : ℤ => (x : ℚ) * (T - t) + t / 2 - t / 2 - x * (T - t)) = (0 :: m).map fun _ : ℤ => (0 : ℚ) := by
      apply List.map_congr_left
      intro x _
      ring
    rw [hz] at hsh
    have hp := CdrDetrend.slope_pairs ((0 :: m).map fun x : ℤ => ((x : ℚ), (0 : ℚ))) (by simp)
    simp only [List.map_map, Function.comp_def, mul_zero, List.length_map] at hp
    have hsum0 : ((0 :: m).map fun _ : ℤ => (0 : ℚ)).sum = 0 := by simp
    rw [hsum0] at hp
    rw [hp] at hsh
    have hsl' : sl = T - t := by
      split at hsh
      · cases hsh
      · simp at hsh
        exact hsh.symm
    rw [hsl']
    have hn1 : 1 ≤ n := by
      by_contra hc
      have : n ≤ 0 := by omega
      have : (n : ℚ) ≤ 0 := by exact_mod_cast this
      nlinarith
    have := hdrift 1 (by omega) hn1
    rw [Int.cast_one, one_mul] at this
    linarith
  obtain ⟨y, hy, hyt⟩ := hgood
  obtain ⟨z, hz, hzy⟩ := hb _ (by
      intro s hs'
      obtain ⟨u, hu, rfl⟩ := List.mem_map.1 hs'
      exact hnan u hu) best r hsc (t, tieScore _ t) (List.mem_map.2 ⟨t, htm, rfl⟩) y hy
  refine ⟨best.1, ?_⟩
  have : search sort finer ((0 :: m).map fun x : ℤ => a + (x : ℚ) * T) tol maxIter.toNat tMin tMax = .ok best.1 := by
    rw [List.map_cons, hse, if_pos]
    have hz' : best.2 = some z := hz
    rw [hz']
    simp only [scoreLt, decide_eq_true_eq]
    linarith
  exact this

/-- The hypotheses of `C50_finds` are met: 500 symbols of 1 ns, bounds 1 % around it. -/
example : let m : List ℤ := [1, 3, 4, 500]
    (0 : ℚ) < 99 / 100000000000 ∧ (0 :: m).Pairwise (· ≤ ·) ∧ (0 :: m).getLast? = some 500 ∧ (101 / 100000000000 : ℚ) ≤ 2 * (500 * (1 / 1000000000)) ∧
    (101 / 100000000000 : ℚ) ≤ 2 * (1 + 100) ∧
    (500 : ℚ) * ((101 / 100000000000 - 99 / 100000000000) / (firstPoints (0 :: m).length - 1 : ℕ)) < 99 / 100000000000 := by
  refine ⟨by norm_num, by decide, rfl, by norm_num, by norm_num, ?_⟩
  norm_num [firstPoints]

/-- The order of scores. -/
def byScore (a b : Scored) : Bool := match a.2, b.2 with
  | some x, some y => decide (x ≤ y)
  | some _, none => true
  | none, none => true
  | none, some _ => false

/-- Sorting by score is one of the ways the theorems are about. -/
theorem mergeSort_sorts : Reorders (fun l => l.mergeSort byScore) ∧ BestFirst (fun l => l.mergeSort byScore) := by
  refine ⟨fun l => List.mergeSort_perm l byScore, ?_⟩
  intro l hl b r hb s hs x hx
  have hp := List.pairwise_mergeSort (le := byScore)
    (by
      rintro ⟨_, a⟩ ⟨_, b⟩ ⟨_, c⟩ h1 h2
      cases a <;> cases b <;> cases c <;> simp_all [byScore]
      linarith)
    (by
      rintro ⟨_, a⟩ ⟨_, b⟩
      cases a <;> cases b <;> simp [byScore]
      exact le_total _ _) l
  simp only at hb
  rw [hb, List.pairwise_cons] at hp
  have hm : ∀ q, q ∈ b :: r ↔ q ∈ l := by
    intro q
    rw [← hb]
    exact (List.mergeSort_perm l byScore).mem_iff
  have hbl : b ∈ l := (hm b).1 List.mem_cons_self
  obtain ⟨y, hy⟩ := Option.ne_none_iff_exists'.1 (hl b hbl)
  refine ⟨y, hy, ?_⟩
  have hx' : s.2 = some x := hx
  rcases List.mem_cons.1 ((hm s).2 hs) with rfl | h
  · rw [hy] at hx'
    exact le_of_eq (Option.some.inj hx')
  · have := hp.1 s h
    unfold byScore at this
    rw [hy, hx'] at this
    simpa using this

/-! ### The score -/

/-- The edges in periods of `t`, from half a period before 0: the numbers of the periods and the phases. -/
def Cycles (t : ℚ) (edges : List ℚ) (n : List ℤ) (p : List ℚ) : Prop :=
  n.length = edges.length ∧ p.length = edges.length ∧
    ∀ i < edges.length, edges.getD i 0 = n.getD i 0 * t + p.getD i 0 ∧ -(t / 2) ≤ p.getD i 0 ∧ p.getD i 0 < t / 2

/-- The score of a period: the number of jumps; without jumps one less than the steepness of the line through the phases, for which there must be edges
in different periods. -/
def Score (edges : List ℚ) (t x : ℚ) : Prop :=
  ∃ n p, Cycles t edges n p ∧ (0 < jumps t p ∧ x = jumps t p ∨
    jumps t p = 0 ∧ (∃ i ∈ n, ∃ j ∈ n, i ≠ j) ∧ ∃ s, BestFit (n.map fun k : ℤ => (k : ℚ)) p s ∧ x = |s| - 1)

theorem cycles_map (t : ℚ) (ht : 0 < t) (edges : List ℚ) :
    Cycles t edges (edges.map fun e => floorDiv (e + t / 2) t) (edges.map fun e => pyMod (e + t / 2) t - t / 2) := by
  refine ⟨by simp, by simp, fun i hi => ?_⟩
  simp only [List.getD_eq_getElem?_getD, List.getElem?_map, List.getElem?_eq_getElem hi, Option.map_some, Option.getD_some]
  obtain ⟨h1, h2, -⟩ := pyMod_spec (edges[i] + t / 2) t ht
  refine ⟨?_, by linarith, by linarith⟩
  unfold pyMod floorDiv
  ring

theorem cycles_unique (t : ℚ) (ht : 0 < t) (edges : List ℚ) (n n' : List ℤ) (p p' : List ℚ) (h : Cycles t edges n p) (h' : Cycles t edges n' p') :
    n = n' ∧ p = p' := by
  obtain ⟨a1, a2, a3⟩ := h
  obtain ⟨b1, b2, b3⟩ := h'
  have key : ∀ i < edges.length, n.getD i 0 = n'.getD i 0 ∧ p.getD i 0 = p'.getD i 0 := by
    intro i hi
    obtain ⟨c1, c2, c3⟩ := a3 i hi
    obtain ⟨d1, d2, d3⟩ := b3 i hi
    have e : ((n.getD i 0 - n'.getD i 0 : ℤ) : ℚ) * t = p'.getD i 0 - p.getD i 0 := by push_cast; linarith
    have e1 : ((n.getD i 0 - n'.getD i 0 : ℤ) : ℚ) * t < 1 * t := by linarith
    have e2 : (-1) * t < ((n.getD i 0 - n'.getD i 0 : ℤ) : ℚ) * t := by linarith
    have f1 : n.getD i 0 - n'.getD i 0 < 1 := by exact_mod_cast lt_of_mul_lt_mul_right e1 ht.le
    have f2 : -1 < n.getD i 0 - n'.getD i 0 := by exact_mod_cast lt_of_mul_lt_mul_right e2 ht.le
    have f3 : n.getD i 0 = n'.getD i 0 := by omega
    exact ⟨f3, by rw [f3] at c1; linarith⟩
  constructor
  · apply List.ext_getElem (by omega)
    intro i h1 h2
    have := (key i (by omega)).1
    rwa [List.getD_eq_getElem?_getD, List.getD_eq_getElem?_getD, List.getElem?_eq_getElem h1, List.getElem?_eq_getElem h2] at this
  · apply List.ext_getElem (by omega)
    intro i h1 h2
    have := (key i (by omega)).2
    rwa [List.getD_eq_getElem?_getD, List.getD_eq_getElem?_getD, List.getElem?_eq_getElem h1, List.getElem?_eq_getElem h2] at this

theorem form_eq (l : List (ℚ × ℚ)) (x y : ℚ) :
    l.length * x ^ 2 + 2 * x * y * (l.map Prod.fst).sum + y ^ 2 * (l.map fun p => p.1 * p.1).sum = (l.map fun p => (x + p.1 * y) ^ 2).sum := by
  induction l with
  | nil => simp
  | cons p l ih =>
    simp only [List.map_cons, List.sum_cons, List.length_cons, ← ih]
    push_cast
    ring

theorem sum_sq_zero (l : List (ℚ × ℚ)) (f : ℚ × ℚ → ℚ) (h : (l.map fun p => f p ^ 2).sum = 0) : ∀ p ∈ l, f p = 0 := by
  have hn : ∀ m : List (ℚ × ℚ), 0 ≤ (m.map fun p => f p ^ 2).sum := by
    intro m
    induction m with
    | nil => simp
    | cons a m ih => simp only [List.map_cons, List.sum_cons]; positivity
  induction l with
  | nil => simp
  | cons a l ih =>
    simp only [List.map_cons, List.sum_cons] at h
    have h1 := hn l
    have h2 := sq_nonneg (f a)
    intro p hp
    rcases List.mem_cons.1 hp with rfl | hp
    · have h3 : f p ^ 2 = 0 := by linarith
      exact (pow_eq_zero_iff (by norm_num)).1 h3
    · exact ih (by linarith) p hp

/-- There is a slope if and only if the numbers are not all the same. -/
theorem slope_none (l : List (ℚ × ℚ)) (h : l ≠ []) : slope (l.map Prod.fst) (l.map Prod.snd) = none ↔ ∀ p ∈ l, ∀ q ∈ l, p.1 = q.1 := by
  have hl : (0 : ℚ) < l.length := by exact_mod_cast List.length_pos_iff.2 h
  rw [slope_pairs l h]
  constructor
  · intro hn
    split at hn
    · rename_i hD
      have hf := form_eq l (-(l.map Prod.fst).sum) l.length
      have : (l.map fun p => (-(l.map Prod.fst).sum + p.1 * l.length) ^ 2).sum = 0 := by
        rw [← hf]
        linear_combination (l.length : ℚ) * hD
      have hz := sum_sq_zero l _ this
      intro p hp q hq
      have e1 := hz p hp
      have e2 := hz q hq
      have : p.1 * (l.length : ℚ) = q.1 * l.length := by linarith
      exact mul_right_cancel₀ hl.ne' this
    · cases hn
  · intro hc
    obtain ⟨a, ha⟩ := List.exists_mem_of_ne_nil l h
    have e1 : l.map Prod.fst = List.replicate l.length a.1 := List.eq_replicate_iff.2 ⟨by simp, by
      intro x hx
      obtain ⟨p, hp, rfl⟩ := List.mem_map.1 hx
      exact hc p hp a ha⟩
    have e2 : l.map (fun p => p.1 * p.1) = List.replicate l.length (a.1 * a.1) := List.eq_replicate_iff.2 ⟨by simp, by
      intro x hx
      obtain ⟨p, hp, rfl⟩ := List.mem_map.1 hx
      rw [hc p hp a ha]⟩
    rw [if_pos]
    rw [e1, e2, List.sum_replicate, List.sum_replicate, nsmul_eq_mul, nsmul_eq_mul]
    ring

/-- A best fit has the slope of the regression. -/
theorem best_slope (l : List (ℚ × ℚ)) (h : l ≠ []) (s T : ℚ) (hs : slope (l.map Prod.fst) (l.map Prod.snd) = some s)
    (hb : ∃ a, ∀ a' T', (l.map fun p => (p.2 - a - p.1 * T) ^ 2).sum ≤ (l.map fun p => (p.2 - a' - p.1 * T') ^ 2).sum) : T = s := by
  obtain ⟨a, ha⟩ := hb
  obtain ⟨b, hb⟩ := slope_best l h s hs
  have hm := le_antisymm (ha ((a + b) / 2) ((T + s) / 2)) (by
    have h1 := hb ((a + b) / 2) ((T + s) / 2)
    have h2 := ha b s
    have h3 : (l.map fun p => (p.2 - (a + b) / 2 - p.1 * ((T + s) / 2)) ^ 2).sum * 2 ≤
        (l.map fun p => (p.2 - a - p.1 * T) ^ 2).sum + (l.map fun p => (p.2 - b - p.1 * s) ^ 2).sum := by
      clear h1 h2 ha hb hs h
      induction l with
      | nil => simp
      | cons p l ih =>
        simp only [List.map_cons, List.sum_cons]
        nlinarith [sq_nonneg ((p.2 - a - p.1 * T) - (p.2 - b - p.1 * s))]
    linarith)
  have h2 := le_antisymm (ha b s) (hb a T)
  have hsum : (l.map fun p => ((a - b) + p.1 * (T - s)) ^ 2).sum = 0 := by
    have h3 : (l.map fun p => ((a - b) + p.1 * (T - s)) ^ 2).sum + 4 * (l.map fun p => (p.2 - (a + b) / 2 - p.1 * ((T + s) / 2)) ^ 2).sum =
        2 * (l.map fun p => (p.2 - a - p.1 * T) ^ 2).sum + 2 * (l.map fun p => (p.2 - b - p.1 * s) ^ 2).sum := by
      clear h2 hm ha hb hs h
      induction l with
      | nil => simp
      | cons p l ih =>
        simp only [List.map_cons, List.sum_cons]
        linear_combination ih
    linarith
  have hz := sum_sq_zero l _ hsum
  by_contra hne
  have : slope (l.map Prod.fst) (l.map Prod.snd) = none := by
    rw [slope_none l h]
    intro p hp q hq
    have e1 := hz p hp
    have e2 := hz q hq
    have : p.1 * (T - s) = q.1 * (T - s) := by linarith
    exact mul_right_cancel₀ (sub_ne_zero.2 hne) this
  rw [this] at hs
  cases hs

/-- The score of the model is the one specified. -/
theorem score_iff (edges : List ℚ) (hne : edges ≠ []) (t : ℚ) (ht : 0 < t) (x : ℚ) : tieScore edges t = some x ↔ Score edges t x := by
  obtain ⟨l, hl⟩ : ∃ l : List (ℚ × ℚ), l = edges.map fun e => ((floorDiv (e + t / 2) t : ℚ), pyMod (e + t / 2) t) := ⟨_, rfl⟩
  have hlne : l ≠ [] := by rw [hl]; simpa using hne
  have f1 : edges.map (fun e => (floorDiv (e + t / 2) t : ℚ)) = l.map Prod.fst := by rw [hl, List.map_map]; rfl
  have f2 : edges.map (fun e => pyMod (e + t / 2) t) = l.map Prod.snd := by rw [hl, List.map_map]; rfl
  have f3 : (edges.map fun e => floorDiv (e + t / 2) t).map (fun k : ℤ => (k : ℚ)) = l.map Prod.fst := by rw [hl, List.map_map, List.map_map]; rfl
  have f4 : edges.map (fun e => pyMod (e + t / 2) t - t / 2) = (l.map Prod.snd).map fun x => x - t / 2 := by rw [hl, List.map_map, List.map_map]; rfl
  have hj : jumps t (edges.map fun e => pyMod (e + t / 2) t - t / 2) = disjoints (l.map Prod.snd) t := by rw [f4, ← disjoints_jumps]
  have hconst : (∃ i ∈ edges.map fun e => floorDiv (e + t / 2) t, ∃ j ∈ edges.map fun e => floorDiv (e + t / 2) t, i ≠ j) ↔
      slope (l.map Prod.fst) (l.map Prod.snd) ≠ none := by
    rw [Ne, slope_none l hlne]
    push Not
    constructor
    · rintro ⟨i, hi, j, hj, hij⟩
      obtain ⟨e, he, rfl⟩ := List.mem_map.1 hi
      obtain ⟨e', he', rfl⟩ := List.mem_map.1 hj
      exact ⟨_, by rw [hl]; exact List.mem_map.2 ⟨e, he, rfl⟩, _, by rw [hl]; exact List.mem_map.2 ⟨e', he', rfl⟩, fun h => hij (by simpa using h)⟩
    · rintro ⟨p, hp, q, hq, hpq⟩
      rw [hl] at hp hq
      obtain ⟨e, he, rfl⟩ := List.mem_map.1 hp
      obtain ⟨e', he', rfl⟩ := List.mem_map.1 hq
      exact ⟨_, List.mem_map.2 ⟨e, he, rfl⟩, _, List.mem_map.2 ⟨e', he', rfl⟩, fun h => hpq (by simpa using h)⟩
  have hsse : ∀ a s : ℚ, sse (l.map Prod.fst) ((l.map Prod.snd).map fun x => x - t / 2) a s = (l.map fun p => (p.2 - (a + t / 2) - p.1 * s) ^ 2).sum := by
    intro a s
    unfold sse
    clear hl f1 f2 f3 f4 hj hconst hlne
    induction l with
    | nil => rfl
    | cons p l ih =>
      simp only [List.map_cons, List.zip_cons_cons, List.sum_cons, ih]
      ring
  have hfit : ∀ s, BestFit ((edges.map fun e => floorDiv (e + t / 2) t).map fun k : ℤ => (k : ℚ)) (edges.map fun e => pyMod (e + t / 2) t - t / 2) s ↔
      ∃ a, ∀ a' T', (l.map fun p => (p.2 - a - p.1 * s) ^ 2).sum ≤ (l.map fun p => (p.2 - a' - p.1 * T') ^ 2).sum := by
    intro s
    unfold BestFit
    rw [f3, f4]
    constructor
    · rintro ⟨a, ha⟩
      refine ⟨a + t / 2, fun a' T' => ?_⟩
      have := ha (a' - t / 2) T'
      rwa [hsse, hsse, sub_add_cancel] at this
    · rintro ⟨a, ha⟩
      refine ⟨a - t / 2, fun a' T' => ?_⟩
      rw [hsse, hsse, sub_add_cancel]
      exact ha _ _
  have hscore : Score edges t x ↔ (0 < disjoints (l.map Prod.snd) t ∧ x = disjoints (l.map Prod.snd) t ∨
      disjoints (l.map Prod.snd) t = 0 ∧ slope (l.map Prod.fst) (l.map Prod.snd) ≠ none ∧
        ∃ s, (∃ a, ∀ a' T', (l.map fun p => (p.2 - a - p.1 * s) ^ 2).sum ≤ (l.map fun p => (p.2 - a' - p.1 * T') ^ 2).sum) ∧ x = |s| - 1) := by
    unfold Score
    constructor
    · rintro ⟨n, p, hc, h⟩
      obtain ⟨rfl, rfl⟩ := cycles_unique t ht edges _ _ _ _ hc (cycles_map t ht edges)
      rw [hj, hconst] at h
      simpa only [hfit] using h
    · intro h
      refine ⟨_, _, cycles_map t ht edges, ?_⟩
      rw [hj, hconst]
      simpa only [hfit] using h
  rw [hscore]
  unfold tieScore
  simp only
  rw [f1, f2]
  by_cases hd : disjoints (l.map Prod.snd) t < 1
  · have hd0 : disjoints (l.map Prod.snd) t = 0 := by omega
    rw [if_pos hd, hd0]
    simp only [lt_irrefl, false_and, true_and, false_or]
    cases hs : slope (l.map Prod.fst) (l.map Prod.snd) with
    | none => simp
    | some s =>
      simp only [Option.map_some, Option.some.injEq, ne_eq, reduceCtorEq, not_false_eq_true, true_and]
      constructor
      · rintro rfl
        exact ⟨s, slope_best l hlne s hs, by ring⟩
      · rintro ⟨T, hT, rfl⟩
        rw [best_slope l hlne s T hs hT]
        ring
  · rw [if_neg hd]
    have h0 : 0 < disjoints (l.map Prod.snd) t := by omega
    have h1 : ¬ disjoints (l.map Prod.snd) t = 0 := by omega
    simp only [h0, h1, true_and, false_and, or_false, Option.some.injEq]
    exact eq_comm

/-! ### C50, the refinement -/

/-- The `i`-th of `K` evenly spaced periods from `lo` to `hi`. -/
def spaced (lo hi : ℚ) (K i : ℕ) : ℚ := lo + (hi - lo) * i / ((K : ℚ) - 1)

/-- The finer searches: how many of the first edges are used, how many periods are tested. -/
def rounds : List (ℕ × ℕ) := [(100000, 20), (10000, 100), (1000, 1000), (100, 10000)]

/-- The tested period counts as good for these edges: its score is less than 1, that is, there is no jump and the line is not too steep. -/
def Good (edges : List ℚ) (t : ℚ) : Prop := ∃ x, Score edges t x ∧ x < 1

theorem good_iff (edges : List ℚ) (hne : edges ≠ []) (t : ℚ) (ht : 0 < t) : scoreLt (tieScore edges t) 1 = true ↔ Good edges t := by
  unfold Good
  simp only [← score_iff edges hne t ht]
  cases tieScore edges t with
  | none => simp [scoreLt]
  | some x => simp [scoreLt]

/-- The new bounds are the neighbours of the outermost good ones among `K` tested periods, or the old bounds. -/
def Zoomed (edges : List ℚ) (tMin tMax : ℚ) (N K : ℕ) (lo hi : ℚ) : Prop :=
  ∃ i j : ℕ, i ≤ j ∧ j < K ∧ Good (edges.take N) (spaced tMin tMax K i) ∧ Good (edges.take N) (spaced tMin tMax K j) ∧
    (∀ k < K, Good (edges.take N) (spaced tMin tMax K k) → i ≤ k ∧ k ≤ j) ∧
    lo = spaced tMin tMax K (i - 1) ∧ hi = spaced tMin tMax K (min (j + 1) (K - 1))

theorem linspace_spaced (lo hi : ℚ) (K : ℕ) (hK : 2 ≤ K) (x : ℚ) :
    x ∈ Stats.linspace lo hi (K - 1) ↔ ∃ i < K, x = spaced lo hi K i := by
  have e : ((K - 1 : ℕ) : ℚ) = (K : ℚ) - 1 := by rw [Nat.cast_sub (by omega)]; simp
  unfold Stats.linspace spaced
  rw [List.mem_map]
  constructor
  · rintro ⟨i, hi, rfl⟩
    rw [List.mem_range] at hi
    exact ⟨i, by omega, by rw [e]; ring⟩
  · rintro ⟨i, hi, rfl⟩
    exact ⟨i, List.mem_range.2 (by omega), by rw [e]; ring⟩

theorem spaced_mono (lo hi : ℚ) (h : lo < hi) (K : ℕ) (hK : 2 ≤ K) (i j : ℕ) : spaced lo hi K i ≤ spaced lo hi K j ↔ i ≤ j := by
  have h1 : (0 : ℚ) < (K : ℚ) - 1 := by
    have : (2 : ℚ) ≤ K := by exact_mod_cast hK
    linarith
  unfold spaced
  rw [add_le_add_iff_left, div_le_div_iff_of_pos_right h1, mul_le_mul_iff_right₀ (by linarith)]
  exact Nat.cast_le

/-- The new bounds are farther than the outermost good ones among `K` tested periods by the `s`-th part of the distance of the old bounds, but not
outside of these. -/
def Widened (edges : List ℚ) (tMin tMax : ℚ) (N K s : ℕ) (lo hi : ℚ) : Prop :=
  ∃ i j : ℕ, i ≤ j ∧ j < K ∧ Good (edges.take N) (spaced tMin tMax K i) ∧ Good (edges.take N) (spaced tMin tMax K j) ∧
    (∀ k < K, Good (edges.take N) (spaced tMin tMax K k) → i ≤ k ∧ k ≤ j) ∧
    lo = max tMin (spaced tMin tMax K i - (tMax - tMin) / s) ∧ hi = min tMax (spaced tMin tMax K j + (tMax - tMin) / s)

theorem nextBounds_wide (sort : List Scored → List Scored) (hs : Reorders sort) (edges : List ℚ) (tMin tMax : ℚ) (h : tMin < tMax) (f : Finer)
    (fs : List Finer) (hK : 2 ≤ f.points) (hE : edges ≠ []) (hf : 0 < f.edges) (hmin : 0 < tMin) :
    (∃ lo hi, nextBounds sort edges tMin tMax (f :: fs) = .ok (lo, hi) ∧ Widened edges tMin tMax f.edges f.points f.steps lo hi) ∨
    ((∀ k < f.points, ¬ Good (edges.take f.edges) (spaced tMin tMax f.points k)) ∧
      nextBounds sort edges tMin tMax (f :: fs) = nextBounds sort edges tMin tMax fs) := by
  have hne : edges.take f.edges ≠ [] := by
    rw [Ne, List.take_eq_nil_iff]
    rintro (h | h)
    · omega
    · exact hE h
  have hmem : ∀ x, x ∈ ((tieScores sort (edges.take f.edges) (Stats.linspace tMin tMax (f.points - 1))).filter
      fun s => scoreLt s.2 1).map Prod.fst ↔ ∃ k < f.points, x = spaced tMin tMax f.points k ∧ Good (edges.take f.edges) x := by
    intro x
    rw [List.mem_map]
    constructor
    · rintro ⟨s, hs', rfl⟩
      obtain ⟨m1, m2⟩ := List.mem_filter.1 hs'
      obtain ⟨m3, m4⟩ := scores_mem sort hs _ _ s m1
      obtain ⟨k, hk, e⟩ := (linspace_spaced _ _ _ hK _).1 m3
      refine ⟨k, hk, e, ?_⟩
      rw [← good_iff _ hne _ (hmin.trans_le (mem_linspace _ _ _ h.le _ m3).1), ← m4]
      exact m2
    · rintro ⟨k, hk, e, hg⟩
      rw [← good_iff _ hne _ (hmin.trans_le (mem_linspace _ _ _ h.le _ ((linspace_spaced _ _ _ hK _).2 ⟨k, hk, e⟩)).1)] at hg
      refine ⟨(x, tieScore (edges.take f.edges) x), List.mem_filter.2 ⟨?_, hg⟩, rfl⟩
      unfold tieScores
      rw [(hs _).mem_iff]
      exact List.mem_map.2 ⟨x, (linspace_spaced _ _ _ hK _).2 ⟨k, hk, e⟩, rfl⟩
  conv in (nextBounds sort edges tMin tMax (f :: fs) = .ok _) => unfold nextBounds
  conv in (nextBounds sort edges tMin tMax (f :: fs) = nextBounds _ _ _ _ _) => lhs; unfold nextBounds
  simp only
  obtain ⟨lower, hl⟩ : ∃ lower, ((tieScores sort (edges.take f.edges) (Stats.linspace tMin tMax (f.points - 1))).filter
    fun s => scoreLt s.2 1).map Prod.fst = lower := ⟨_, rfl⟩
  rw [hl] at hmem ⊢
  cases lower with
  | nil =>
    refine Or.inr ⟨fun k hk hg => ?_, rfl⟩
    exact absurd ((hmem _).2 ⟨k, hk, rfl, hg⟩) (by simp)
  | cons a l =>
    left
    obtain ⟨m1, m2⟩ := fold_min l a
    obtain ⟨M1, M2⟩ := fold_max l a
    obtain ⟨i, hi, ei, gi⟩ := (hmem _).1 m1
    obtain ⟨j, hj, ej, gj⟩ := (hmem _).1 M1
    have mono := spaced_mono tMin tMax h f.points hK
    simp only [Stats.minimum, Stats.maximum, bind, Except.bind, pure, Except.pure]
    refine ⟨_, _, rfl, i, j, ?_, hj, ei ▸ gi, ej ▸ gj, ?_, by rw [ei], by rw [ej]⟩
    · rw [← mono, ← ei, ← ej]
      exact m2 _ M1
    · intro k hk hg
      have hm := (hmem _).2 ⟨k, hk, rfl, hg⟩
      constructor
      · rw [← mono, ← ei]; exact m2 _ hm
      · rw [← mono, ← ej]; exact M2 _ hm

theorem nextBounds_zoom (sort : List Scored → List Scored) (hs : Reorders sort) (edges : List ℚ) (tMin tMax : ℚ) (h : tMin < tMax) (f : Finer)
    (fs : List Finer) (hK : 2 ≤ f.points) (hst : f.steps = f.points - 1) (hE : edges ≠ []) (hf : 0 < f.edges) (hmin : 0 < tMin) :
    (∃ lo hi, nextBounds sort edges tMin tMax (f :: fs) = .ok (lo, hi) ∧ Zoomed edges tMin tMax f.edges f.points lo hi) ∨
    ((∀ k < f.points, ¬ Good (edges.take f.edges) (spaced tMin tMax f.points k)) ∧
      nextBounds sort edges tMin tMax (f :: fs) = nextBounds sort edges tMin tMax fs) := by
  rcases nextBounds_wide sort hs edges tMin tMax h f fs hK hE hf hmin with ⟨lo, hi, e0, i, j, hij, hj, gi, gj, hall, rfl, rfl⟩ | h1
  swap
  · exact Or.inr h1
  · left
    have mono := spaced_mono tMin tMax h f.points hK
    have e : ((f.points - 1 : ℕ) : ℚ) = (f.points : ℚ) - 1 := by rw [Nat.cast_sub (by omega)]; simp
    have hp : (0 : ℚ) < (f.points : ℚ) - 1 := by
      have : (2 : ℚ) ≤ f.points := by exact_mod_cast hK
      linarith
    have h0 : spaced tMin tMax f.points 0 = tMin := by simp [spaced]
    have h1 : spaced tMin tMax f.points (f.points - 1) = tMax := by
      unfold spaced
      rw [e, mul_div_assoc, div_self hp.ne']
      ring
    have step : ∀ k : ℕ, spaced tMin tMax f.points (k + 1) = spaced tMin tMax f.points k + (tMax - tMin) / ((f.points : ℚ) - 1) := by
      intro k
      unfold spaced
      push_cast
      ring
    refine ⟨_, _, e0, i, j, hij, hj, gi, gj, hall, ?_, ?_⟩
    · rw [hst, e]
      cases i with
      | zero =>
        have : 0 ≤ (tMax - tMin) / ((f.points : ℚ) - 1) := div_nonneg (by linarith) hp.le
        rw [Nat.zero_sub, h0]
        exact max_eq_left (by linarith)
      | succ i =>
        rw [step, add_sub_cancel_right, Nat.add_sub_cancel]
        have := (mono 0 i).2 (Nat.zero_le _)
        rw [h0] at this
        exact max_eq_right this
    · rw [hst, e, ← step]
      by_cases hl : j + 1 ≤ f.points - 1
      · rw [min_eq_left (a := j + 1) hl]
        apply min_eq_right
        conv_rhs => rw [← h1]
        exact (mono _ _).2 hl
      · rw [min_eq_right (a := j + 1) (by omega), h1]
        apply min_eq_left
        conv_lhs => rw [← h1]
        exact (mono _ _).2 (by omega)

theorem nextBounds_first (sort : List Scored → List Scored) (hs : Reorders sort) (edges : List ℚ) (hE : edges ≠ []) (tMin tMax : ℚ) (hmin : 0 < tMin)
    (h : tMin < tMax) :
    (∃ before N K after lo hi, rounds = before ++ (N, K) :: after ∧
      (∀ r ∈ before, ∀ k < r.2, ¬ Good (edges.take r.1) (spaced tMin tMax r.2 k)) ∧ Zoomed edges tMin tMax N K lo hi ∧
      nextBounds sort edges tMin tMax finerFb = .ok (lo, hi)) ∨
    ((∀ r ∈ rounds, ∀ k < r.2, ¬ Good (edges.take r.1) (spaced tMin tMax r.2 k)) ∧
      nextBounds sort edges tMin tMax finerFb = .error .arithmeticError) := by
  unfold finerFb rounds
  rcases nextBounds_zoom sort hs edges tMin tMax h ⟨100000, 20, 19⟩ [⟨10000, 100, 99⟩, ⟨1000, 1000, 999⟩, ⟨100, 10000, 9999⟩]
    (by decide) rfl hE (by decide) hmin with ⟨lo, hi, e1, e2⟩ | ⟨n1, e1⟩
  · exact Or.inl ⟨[], _, _, _, lo, hi, rfl, by simp, e2, e1⟩
  rcases nextBounds_zoom sort hs edges tMin tMax h ⟨10000, 100, 99⟩ [⟨1000, 1000, 999⟩, ⟨100, 10000, 9999⟩] (by decide) rfl hE (by decide) hmin with
    ⟨lo, hi, e2, e3⟩ | ⟨n2, e2⟩
  · refine Or.inl ⟨[(100000, 20)], _, _, _, lo, hi, rfl, ?_, e3, e1.trans e2⟩
    intro r hr
    rw [List.mem_singleton] at hr
    subst hr
    exact n1
  rcases nextBounds_zoom sort hs edges tMin tMax h ⟨1000, 1000, 999⟩ [⟨100, 10000, 9999⟩] (by decide) rfl hE (by decide) hmin with
    ⟨lo, hi, e3, e4⟩ | ⟨n3, e3⟩
  · refine Or.inl ⟨[(100000, 20), (10000, 100)], _, _, _, lo, hi, rfl, ?_, e4, e1.trans (e2.trans e3)⟩
    intro r hr
    simp only [List.mem_cons, List.not_mem_nil, or_false] at hr
    rcases hr with rfl | rfl
    · exact n1
    · exact n2
  rcases nextBounds_zoom sort hs edges tMin tMax h ⟨100, 10000, 9999⟩ [] (by decide) rfl hE (by decide) hmin with ⟨lo, hi, e4, e5⟩ | ⟨n4, e4⟩
  · refine Or.inl ⟨[(100000, 20), (10000, 100), (1000, 1000)], _, _, _, lo, hi, rfl, ?_, e5, e1.trans (e2.trans (e3.trans e4))⟩
    intro r hr
    simp only [List.mem_cons, List.not_mem_nil, or_false] at hr
    rcases hr with rfl | rfl | rfl
    · exact n1
    · exact n2
    · exact n3
  · refine Or.inr ⟨?_, (e1.trans (e2.trans (e3.trans e4))).trans rfl⟩
    intro r hr
    simp only [List.mem_cons, List.not_mem_nil, or_false] at hr
    rcases hr with rfl | rfl | rfl | rfl
    · exact n1
    · exact n2
    · exact n3
    · exact n4

/-- C50, how the fallback refines: if the first round finds no period below the tolerance and an iteration is left, the search starts again between
the neighbours of the outermost good periods of the first finer round with a good one; none without jumps is left out of them.  If no finer round has
a good period, or no iteration is left, ArithmeticError is raised. -/
theorem C50_refine (sort : List Scored → List Scored) (hs : Reorders sort) (first : ℚ) (rest : List ℚ) (tol tMin tMax : ℚ)
    (h0 : 0 < tMin) (h : tMin < tMax) (left : ℕ) :
    let edges := (first :: rest).map fun e => e - first
    let K := max 20 (1000000 / edges.length)
    (∀ k < K, ∃ x, Score edges (spaced tMin tMax K k) x ∧ tol ≤ x) →
    search sort finerFb (first :: rest) tol 0 tMin tMax = .error .arithmeticError ∧
    ((∃ before N K after lo hi, rounds = before ++ (N, K) :: after ∧
      (∀ r ∈ before, ∀ k < r.2, ¬ Good (edges.take r.1) (spaced tMin tMax r.2 k)) ∧ Zoomed edges tMin tMax N K lo hi ∧
      search sort finerFb (first :: rest) tol (left + 1) tMin tMax = search sort finerFb (first :: rest) tol left lo hi) ∨
    ((∀ r ∈ rounds, ∀ k < r.2, ¬ Good (edges.take r.1) (spaced tMin tMax r.2 k)) ∧
      search sort finerFb (first :: rest) tol (left + 1) tMin tMax = .error .arithmeticError)) := by
  intro edges K hno
  have hK : K = firstPoints (first :: rest).length := by simp [K, edges, firstPoints]
  have hK2 : 2 ≤ K := le_trans (by norm_num) (le_max_left _ _)
  have hbad : ∀ best r, tieScores sort edges (Stats.linspace tMin tMax (firstPoints (first :: rest).length - 1)) = best :: r →
      scoreLt best.2 tol = false := by
    intro best r he
    obtain ⟨m1, m2⟩ := scores_mem sort hs _ _ best (by rw [he]; exact List.mem_cons_self)
    rw [← hK] at m1
    obtain ⟨k, hk, e⟩ := (linspace_spaced _ _ _ hK2 _).1 m1
    obtain ⟨x, hx, hx2⟩ := hno k hk
    rw [← e, ← score_iff edges (by simp [edges]) _ (h0.trans_le (mem_linspace _ _ _ h.le _ m1).1)] at hx
    rw [m2, hx]
    simp [scoreLt, hx2]
  obtain ⟨b0, r0, s0, q0⟩ := search_eq sort hs finerFb first rest tol tMin tMax 0
  obtain ⟨b1, r1, s1, q1⟩ := search_eq sort hs finerFb first rest tol tMin tMax (left + 1)
  rw [hbad _ _ s0] at q0
  rw [hbad _ _ s1] at q1
  refine ⟨by simpa using q0, ?_⟩
  simp only [Bool.false_eq_true, if_false] at q1
  rcases nextBounds_first sort hs edges (by simp [edges]) tMin tMax h0 h with ⟨be, N, K', af, lo, hi, e1, e2, e3, e4⟩ | ⟨e1, e2⟩
  · refine Or.inl ⟨be, N, K', af, lo, hi, e1, e2, e3, ?_⟩
    rw [q1, show nextBounds sort ((first :: rest).map fun e => e - first) tMin tMax finerFb = _ from e4]
    rfl
  · refine Or.inr ⟨e1, ?_⟩
    rw [q1, show nextBounds sort ((first :: rest).map fun e => e - first) tMin tMax finerFb = _ from e2]
    rfl

/-- The hypothesis of `C50_refine` is met: three edges 0.4 s apart have a jump with every period from 1 s to 1.1 s. -/
example : ∀ t : ℚ, 1 ≤ t → t ≤ 11 / 10 → ∃ x, Score [0, 2 / 5, 4 / 5] t x ∧ 1 ≤ x := by
  intro t h1 h2
  simp only [← score_iff _ (List.cons_ne_nil _ _) t (by linarith)]
  have m : ∀ (x : ℚ) (k : ℤ), k * t ≤ x → x < (k + 1) * t → pyMod x t = x - k * t := by
    intro x k a b
    have : ⌊x / t⌋ = k := by
      rw [Int.floor_eq_iff]
      exact ⟨by rw [le_div_iff₀ (by linarith)]; exact a, by rw [div_lt_iff₀ (by linarith)]; exact b⟩
    unfold pyMod
    rw [this]
    ring
  have e0 := m (0 + t / 2) 0 (by push_cast; linarith) (by push_cast; linarith)
  have e1 := m (2 / 5 + t / 2) 0 (by push_cast; linarith) (by push_cast; linarith)
  have e2 := m (4 / 5 + t / 2) 1 (by push_cast; linarith) (by push_cast; linarith)
  have hd : disjoints [0 + t / 2 - (0 : ℤ) * t, 2 / 5 + t / 2 - (0 : ℤ) * t, 4 / 5 + t / 2 - (1 : ℤ) * t] t = 1 := by
    have a1 : ¬ t / 2 < |2 / 5 + t / 2 - (0 : ℤ) * t - (0 + t / 2 - (0 : ℤ) * t)| := by
      rw [not_lt, abs_le]
      push_cast
      constructor <;> linarith
    have a2 : t / 2 < |4 / 5 + t / 2 - (1 : ℤ) * t - (2 / 5 + t / 2 - (0 : ℤ) * t)| := by
      rw [lt_abs]
      right
      push_cast
      linarith
    unfold disjoints
    rw [show diffs [0 + t / 2 - ((0 : ℤ) : ℚ) * t, 2 / 5 + t / 2 - ((0 : ℤ) : ℚ) * t, 4 / 5 + t / 2 - ((1 : ℤ) : ℚ) * t] =
      [2 / 5 + t / 2 - ((0 : ℤ) : ℚ) * t - (0 + t / 2 - ((0 : ℤ) : ℚ) * t),
        4 / 5 + t / 2 - ((1 : ℤ) : ℚ) * t - (2 / 5 + t / 2 - ((0 : ℤ) : ℚ) * t)] from rfl]
    simp only [List.countP_cons, List.countP_nil, a1, a2, decide_true, decide_false]
    rfl
  refine ⟨1, ?_, le_refl _⟩
  unfold tieScore
  simp only [List.map_cons, List.map_nil, e0, e1, e2, hd]
  simp

/-- Edges without jumps. -/
example : ∃ phases, Phases 1 [0, 1, 3, 4] phases ∧ jumps 1 phases = 0 := by
  refine ⟨[0, 0, 0, 0], ⟨rfl, ?_⟩, by decide +kernel⟩
  intro i h h'
  match i, h, h' with
  | 0, _, _ => exact ⟨by norm_num, by norm_num, 0, by norm_num⟩
  | 1, _, _ => exact ⟨by norm_num, by norm_num, 1, by norm_num⟩
  | 2, _, _ => exact ⟨by norm_num, by norm_num, 3, by norm_num⟩
  | 3, _, _ => exact ⟨by norm_num, by norm_num, 4, by norm_num⟩

end Verif.Props.CdrSearch
