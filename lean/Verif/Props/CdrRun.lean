import Verif.Props.CdrSearch

/-!
C48: the recovered clock.
-/

namespace Verif.Props.CdrRun

open Verif Verif.Eye Verif.Cdr Verif.Props.EyeWindow Verif.Props.CdrDetrend Verif.Props.CdrSearch

/-! ### Specification -/

/-- Clock edges `clk` with period `T` recovered from the data edges: each data edge is its error after a symbol boundary, the clock edges are the
centres of the symbols from the start on, as many as cover the data. -/
structure Recovered (edges : List ℚ) (T : ℚ) (clk ties : List ℚ) : Prop where
  positive : 0 < T
  one_each : ties.length = edges.length
  zero_mean : ties.sum = 0
  small : ∀ x ∈ ties, |x| < T
  steady : ties.IsChain fun x y => |y - x| ≤ T / 2
  boundaries : ∃ start : ℚ, (∀ a ∈ edges.head?, |start - a| ≤ T / 2) ∧
    (∀ i (h : i < edges.length) (h' : i < ties.length), ∃ k : ℤ, edges[i] = start + k * T + ties[i]) ∧
    ∀ a ∈ edges.head?, ∀ b ∈ edges.getLast?, ∃ n : ℕ, ((n : ℚ) - 1) * T < b - a ∧ b - a ≤ n * T ∧
      clk = (List.range n).map fun i : ℕ => start + (i + 1 / 2) * T

/-- The recovered period: the given one if fixed, otherwise the best fit for symbol numbers by some period within 1 % of the given one. -/
def Period (edges : List ℚ) (tSym : ℚ) (fixed : Bool) (T : ℚ) : Prop :=
  if fixed then T = tSym
  else ∃ t, |t - tSym| ≤ tSym / 100 ∧ ∃ k : List ℤ, Numbered t edges k ∧ BestFit (k.map fun x : ℤ => (x : ℚ)) edges T

/-- The error at a clock edge: that of the last data edge not after it. -/
def AtClock (edges ties clk r : List ℚ) : Prop :=
  r.length = clk.length ∧ ∀ i (h : i < clk.length) (h' : i < r.length), ∃ j, ∃ (hj : j < edges.length) (hj' : j < ties.length),
    edges[j] ≤ clk[i] ∧ (∀ l (hl : l < edges.length), edges[l] ≤ clk[i] → l ≤ j) ∧ r[i] = ties[j]

/-! ### The clock -/

theorem sum_sub_const (l : List ℚ) (c : ℚ) : (l.map fun x => x - c).sum = l.sum - c * l.length := by
  induction l with
  | nil => simp
  | cons a l ih =>
    simp only [List.map_cons, List.sum_cons, List.length_cons, ih]
    push_cast
    ring

theorem avg_mul (l : List ℚ) (h : l ≠ []) : avg l * l.length = l.sum :=
  div_mul_cancel₀ _ (by exact_mod_cast (List.length_pos_iff.2 h).ne')

theorem sum_bounds (l : List ℚ) (lo hi : ℚ) (h : ∀ x ∈ l, lo ≤ x ∧ x < hi) (hne : l ≠ []) : lo * l.length ≤ l.sum ∧ l.sum < hi * l.length := by
  induction l with
  | nil => exact absurd rfl hne
  | cons a l ih =>
    obtain ⟨h1, h2⟩ := h a List.mem_cons_self
    simp only [List.sum_cons, List.length_cons]
    push_cast
    by_cases hl : l = []
    · subst hl
      simp
      exact ⟨h1, h2⟩
    · obtain ⟨i1, i2⟩ := ih (fun x hx => h x (List.mem_cons_of_mem _ hx)) hl
      constructor <;> linarith

theorem avg_bounds (l : List ℚ) (lo hi : ℚ) (h : ∀ x ∈ l, lo ≤ x ∧ x < hi) (hne : l ≠ []) : lo ≤ avg l ∧ avg l < hi := by
  have hl : (0 : ℚ) < l.length := by exact_mod_cast List.length_pos_iff.2 hne
  obtain ⟨h1, h2⟩ := sum_bounds l lo hi h hne
  unfold avg
  rw [le_div_iff₀ hl, div_lt_iff₀ hl]
  exact ⟨h1, h2⟩

theorem chain_of_diffs (l : List ℚ) (B : ℚ) (h : (diffs l).any (fun d => decide (B < |d|)) = false) : l.IsChain fun x y => |y - x| ≤ B := by
  induction l with
  | nil => exact List.isChain_nil
  | cons a l ih =>
    cases l with
    | nil => exact List.isChain_singleton _
    | cons b l =>
      have e : diffs (a :: b :: l) = (b - a) :: diffs (b :: l) := rfl
      rw [e, List.any_cons, Bool.or_eq_false_iff] at h
      rw [List.isChain_cons_cons]
      refine ⟨?_, ih h.2⟩
      have := h.1
      simp only [decide_eq_false_iff_not, not_lt] at this
      exact this

/-- The clock for a positive period. -/
theorem clock_spec (first : ℚ) (rest : List ℚ) (last T : ℚ) (hl : (first :: rest).getLast? = some last) (hT : 0 < T) (hfl : first ≤ last) :
    (∃ clk ties, clock (first :: rest) first last (some T) = .ok (clk, ties) ∧ Recovered (first :: rest) T clk ties) ∨
      clock (first :: rest) first last (some T) = .error .arithmeticError := by
  obtain ⟨raw, hraw⟩ : ∃ raw, ((first :: rest).map fun e => pyMod (e - first + T / 2) T - T / 2) = raw := ⟨_, rfl⟩
  have hlen : raw.length = (first :: rest).length := by rw [← hraw, List.length_map]
  have hne : raw ≠ [] := by intro h; rw [h] at hlen; simp at hlen
  have hb : ∀ x ∈ raw, -(T / 2) ≤ x ∧ x < T / 2 := by
    intro x hx
    rw [← hraw] at hx
    obtain ⟨e, -, rfl⟩ := List.mem_map.1 hx
    obtain ⟨p1, p2, -⟩ := pyMod_spec (e - first + T / 2) T hT
    constructor <;> linarith
  obtain ⟨a1, a2⟩ := avg_bounds raw _ _ hb hne
  have hn0 : 0 ≤ ⌈(last - first) / T⌉ := Int.ceil_nonneg (div_nonneg (by linarith) hT.le)
  obtain ⟨n, hn⟩ := Int.eq_ofNat_of_zero_le hn0
  unfold clock
  simp only [if_neg hT.ne', hraw, hn]
  split
  · exact Or.inr rfl
  · rename_i hd
    rw [Bool.not_eq_true] at hd
    left
    rw [if_neg (by omega)]
    refine ⟨_, _, rfl, ?_⟩
    refine ⟨hT, by rw [List.length_map, hlen], ?_, ?_, chain_of_diffs _ _ hd, ?_⟩
    · rw [sum_sub_const, avg_mul raw hne, sub_self]
    · intro x hx
      obtain ⟨y, hy, rfl⟩ := List.mem_map.1 hx
      obtain ⟨y1, y2⟩ := hb y hy
      rw [abs_lt]
      constructor <;> linarith
    · refine ⟨first + avg raw, ?_, ?_, ?_⟩
      · intro a ha
        obtain rfl : first = a := by simpa using ha
        rw [abs_le]
        constructor <;> linarith
      · intro i h h'
        obtain ⟨p1, p2, k, p3⟩ := pyMod_spec ((first :: rest)[i] - first + T / 2) T hT
        refine ⟨k, ?_⟩
        have hi : i < raw.length := by rw [hlen]; exact h
        have : raw[i] = pyMod ((first :: rest)[i] - first + T / 2) T - T / 2 := by
          subst hraw
          rw [List.getElem_map]
        rw [List.getElem_map, this]
        linarith
      · intro a ha b hb'
        obtain rfl : first = a := by simpa using ha
        rw [hl] at hb'
        obtain rfl : last = b := by simpa using hb'
        have c1 := Int.le_ceil ((last - first) / T)
        have c2 := Int.ceil_lt_add_one ((last - first) / T)
        rw [hn] at c1 c2
        push_cast at c1 c2
        rw [div_le_iff₀ hT] at c1
        have c3 : (n : ℚ) - 1 < (last - first) / T := by linarith
        rw [lt_div_iff₀ hT] at c3
        refine ⟨n, c3, c1, ?_⟩
        by_cases hz : n = 0
        · subst hz
          simp
        · rw [if_neg (by exact_mod_cast hz)]
          unfold Stats.linspace
          rw [List.map_map]
          have e1 : (n : ℤ).toNat - 1 + 1 = n := by omega
          rw [e1]
          apply List.map_congr_left
          intro i hi
          rw [List.mem_range] at hi
          simp only [Function.comp]
          by_cases h1 : n = 1
          · subst h1
            have : i = 0 := by omega
            subst this
            simp
            ring
          · have e2 : (((n : ℤ).toNat - 1 : ℕ) : ℚ) = (n : ℚ) - 1 := by
              rw [Nat.cast_sub (by omega)]
              simp
            have h3 : (n : ℚ) - 1 ≠ 0 := by
              intro hc
              have : (n : ℚ) = 1 := by linarith
              exact h1 (by exact_mod_cast this)
            rw [e2]
            push_cast
            rw [sub_zero, mul_div_assoc, div_self h3]
            ring

/-! ### The period -/

theorem diffs_pos (edges : List ℚ) (h : edges.Pairwise (· < ·)) : ∀ d ∈ diffs edges, 0 < d := by
  induction edges with
  | nil => intro d hd; cases hd
  | cons a l ih =>
    cases l with
    | nil => intro d hd; cases hd
    | cons b l =>
      intro d hd
      have e : diffs (a :: b :: l) = (b - a) :: diffs (b :: l) := rfl
      rw [e] at hd
      rw [List.pairwise_cons] at h
      rcases List.mem_cons.1 hd with rfl | hd
      · have := h.1 b List.mem_cons_self
        linarith
      · exact ih h.2 d hd

theorem avg_nonpos (l : List ℚ) (h : ∀ x ∈ l, x ≤ 0) : avg l ≤ 0 := by
  unfold avg
  apply div_nonpos_of_nonpos_of_nonneg _ (Nat.cast_nonneg _)
  induction l with
  | nil => simp
  | cons a l ih =>
    rw [List.sum_cons]
    have := h a List.mem_cons_self
    have := ih fun x hx => h x (List.mem_cons_of_mem _ hx)
    linarith

/-- A period that passes the check is positive. -/
theorem tSym_pos (edges : List ℚ) (hs : edges.Pairwise (· < ·)) (t : ℚ)
    (h : ¬ (avg ((diffs edges).map fun p => (⌊p / t + 1 / 2⌋ : ℚ)) < 9 / 10 ∨ 5 < avg ((diffs edges).map fun p => (⌊p / t + 1 / 2⌋ : ℚ)))) : 0 < t := by
  by_contra hc
  push Not at hc
  apply h
  left
  have : avg ((diffs edges).map fun p => (⌊p / t + 1 / 2⌋ : ℚ)) ≤ 0 := by
    apply avg_nonpos
    intro x hx
    obtain ⟨p, hp, rfl⟩ := List.mem_map.1 hx
    have hp' := diffs_pos edges hs p hp
    have : p / t ≤ 0 := div_nonpos_of_nonneg_of_nonpos hp'.le hc
    have h1 : ⌊p / t + 1 / 2⌋ < 1 := by
      rw [Int.floor_lt]
      push_cast
      linarith
    exact_mod_cast (show ⌊p / t + 1 / 2⌋ ≤ 0 by omega)
  linarith

theorem last_ge (first : ℚ) (rest : List ℚ) (hs : (first :: rest).Pairwise (· < ·)) (last : ℚ) (hl : (first :: rest).getLast? = some last) :
    first ≤ last := by
  have := List.mem_of_getLast? hl
  rcases List.mem_cons.1 this with h | h
  · exact h ▸ le_refl _
  · exact ((List.pairwise_cons.1 hs).1 last h).le

theorem zero_gaps (t : ℚ) (edges : List ℚ) (k : List ℤ) (hn : Numbered t edges k) (hz : ∀ x ∈ k, x = 0) : ∀ d ∈ diffs edges, |d| ≤ t / 2 := by
  obtain ⟨h1, -, h3⟩ := hn
  induction edges generalizing k with
  | nil => intro d hd; cases hd
  | cons a l ih =>
    cases l with
    | nil => intro d hd; cases hd
    | cons b l =>
      obtain ⟨x, k, rfl⟩ : ∃ x k', k = x :: k' := by
        cases k with
        | nil => simp at h1
        | cons x k => exact ⟨x, k, rfl⟩
      obtain ⟨y, k, rfl⟩ : ∃ x k', k = x :: k' := by
        cases k with
        | nil => simp at h1
        | cons x k => exact ⟨x, k, rfl⟩
      simp only [List.zip_cons_cons, List.isChain_cons_cons] at h3
      intro d hd
      have e : diffs (a :: b :: l) = (b - a) :: diffs (b :: l) := rfl
      rw [e] at hd
      rcases List.mem_cons.1 hd with rfl | hd
      · have := h3.1
        rw [hz x (by simp), hz y (by simp)] at this
        simpa using this
      · exact ih (y :: k) (fun z hz' => hz z (List.mem_cons_of_mem _ hz')) (by simpa using h1) (by simpa using h3.2) d hd

/-! ### C48 -/

theorem run_eq (minimize : List ℚ → ℚ → ℚ → ℚ → Except PyErr ℚ) (detrend : List ℚ → ℚ → Except PyErr (Option ℚ)) (c : Config) (first : ℚ)
    (rest : List ℚ) (last : ℚ) (hl : (first :: rest).getLast? = some last) :
    run minimize detrend c (first :: rest) false = (period minimize detrend c (first :: rest)).bind (clock (first :: rest) first last) ∧
    run minimize detrend c (first :: rest) true = (run minimize detrend c (first :: rest) false).map
      fun r => (r.1, r.1.map (previous (first :: rest) r.2)) := by
  have hg : pyGet (first :: rest) 0 = .ok first := rfl
  have hgl : pyGet (first :: rest) ((first :: rest).length - 1) = .ok last := by
    unfold pyGet
    rw [List.getLast?_eq_getElem?] at hl
    rw [hl]
  unfold run
  simp only [hg, hgl, bind, Except.bind]
  cases period minimize detrend c (first :: rest) with
  | error e => exact ⟨rfl, rfl⟩
  | ok t =>
    simp only
    cases clock (first :: rest) first last t with
    | error e => exact ⟨rfl, rfl⟩
    | ok r => exact ⟨rfl, rfl⟩

/-- What the period is. -/
theorem period_spec (sort : List Scored → List Scored) (finer : List Finer) (hsort : Reorders sort) (c : Config) (edges : List ℚ) (hs : edges.Pairwise (· < ·))
    (hne : edges ≠ []) (p : Except PyErr (Option ℚ))
    (hp : period (fun e lo hi tol => minimizeTieDisjoints sort finer e none (some lo) (some hi) tol 10) detrendTies c edges = p) :
    (∃ tSym T, c.tSym = some tSym ∧ 0 < T ∧ p = .ok (some T) ∧ Period edges tSym c.fixedPeriod T) ∨ p = .error .arithmeticError ∨
    (p = .error .valueError ∧ (edges.length < 2 ∨ c.tSym = none)) ∨
    (p = .ok none ∧ ∃ t tSym, c.tSym = some tSym ∧ |t - tSym| ≤ tSym / 100 ∧ ∀ d ∈ diffs edges, d ≤ t / 2) := by
  unfold period at hp
  by_cases hlen : edges.length < 2
  · rw [if_pos hlen] at hp
    exact Or.inr (Or.inr (Or.inl ⟨hp.symm, Or.inl hlen⟩))
  · rw [if_neg hlen] at hp
    cases hts : c.tSym with
    | none =>
      rw [hts] at hp
      exact Or.inr (Or.inr (Or.inl ⟨hp.symm, Or.inr rfl⟩))
    | some t =>
      rw [hts] at hp
      simp only at hp
      split at hp
      · exact Or.inr (Or.inl hp.symm)
      · rename_i havg
        have ht := tSym_pos _ hs t havg
        by_cases hf : c.fixedPeriod = true
        · rw [if_pos hf] at hp
          refine Or.inl ⟨t, t, rfl, ht, hp.symm, ?_⟩
          unfold Period
          rw [if_pos hf]
        · rw [if_neg hf] at hp
          rcases C50_found sort hsort finer edges hne 100 (by norm_num) 10 (t * (1 - 1 / 100)) (t * (1 + 1 / 100)) (by linarith) (by linarith)
            with ⟨u, u1, u2, u3, -⟩ | he
          · simp only [u1, bind, Except.bind] at hp
            have hu : 0 < u := by linarith
            have hut : |u - t| ≤ t / 100 := by rw [abs_le]; constructor <;> linarith
            obtain ⟨k, r, hk, hr, hfit, hnone⟩ := C49_best_fit edges u hu hne
            rw [hr] at hp
            cases r with
            | none =>
              right; right; right
              refine ⟨hp.symm, u, t, rfl, hut, ?_⟩
              intro d hd
              exact (le_abs_self d).trans (zero_gaps u _ k hk (hnone.1 rfl) d hd)
            | some T =>
              refine Or.inl ⟨t, T, rfl, C49_positive edges u T hu hs hr, hp.symm, ?_⟩
              unfold Period
              rw [if_neg hf]
              exact ⟨u, hut, k, hk, hfit T rfl⟩
          · simp only [he, bind, Except.bind] at hp
            exact Or.inr (Or.inl hp.symm)

/-- C48 (for any list of finer searches, so for the fallback and, by `C12_run_partial`, mostly for the compiled helpers): from increasing edges the clock is recovered, or an error is raised: ValueError for fewer than two edges or without an initial period, or if
no gap is longer than half a period, otherwise ArithmeticError. -/
theorem C48_recovered (sort : List Scored → List Scored) (finer : List Finer) (hsort : Reorders sort) (c : Config) (edges : List ℚ) (hs : edges.Pairwise (· < ·))
    (hne : edges ≠ []) :
    (∃ clk ties tSym T, runWith sort finer c edges false = .ok (clk, ties) ∧ c.tSym = some tSym ∧ Period edges tSym c.fixedPeriod T ∧ Recovered edges T clk ties) ∨
    runWith sort finer c edges false = .error .arithmeticError ∨
    (runWith sort finer c edges false = .error .valueError ∧
      (edges.length < 2 ∨ c.tSym = none ∨ ∃ t tSym, c.tSym = some tSym ∧ |t - tSym| ≤ tSym / 100 ∧ ∀ d ∈ diffs edges, d ≤ t / 2)) := by
  obtain ⟨first, rest, rfl⟩ := List.exists_cons_of_ne_nil hne
  obtain ⟨last, hlast⟩ : ∃ last, (first :: rest).getLast? = some last := ⟨_, List.getLast?_eq_some_getLast hne⟩
  have hfl := last_ge first rest hs last hlast
  unfold runWith
  rw [(run_eq _ _ c first rest last hlast).1]
  obtain ⟨p, hp⟩ : ∃ p, period (fun e lo hi tol => minimizeTieDisjoints sort finer e none (some lo) (some hi) tol 10) detrendTies c (first :: rest) = p :=
    ⟨_, rfl⟩
  rw [hp]
  rcases period_spec sort finer hsort c _ hs hne p hp with ⟨tSym, T, h1, h2, rfl, h3⟩ | rfl | ⟨rfl, h⟩ | ⟨rfl, h⟩
  · simp only [Except.bind]
    rcases clock_spec first rest last T hlast h2 hfl with ⟨clk, ties, c1, c2⟩ | c1
    · exact Or.inl ⟨clk, ties, tSym, T, c1, h1, h3, c2⟩
    · exact Or.inr (Or.inl c1)
  · exact Or.inr (Or.inl rfl)
  · refine Or.inr (Or.inr ⟨rfl, ?_⟩)
    rcases h with h | h
    · exact Or.inl h
    · exact Or.inr (Or.inl h)
  · exact Or.inr (Or.inr ⟨rfl, Or.inr (Or.inr h)⟩)

/-- C48: the documented errors. -/
theorem C48_errors (sort : List Scored → List Scored) (finer : List Finer) (c : Config) (edges : List ℚ) (hne : edges ≠ []) (resample : Bool) :
    (edges.length < 2 → runWith sort finer c edges resample = .error .valueError) ∧
    (c.tSym = none → runWith sort finer c edges resample = .error .valueError) ∧
    (∀ t, 2 ≤ edges.length → c.tSym = some t →
      (let gaps := (diffs edges).map fun p => (⌊p / t + 1 / 2⌋ : ℚ)
       gaps.sum < 9 / 10 * gaps.length ∨ 5 * gaps.length < gaps.sum) → runWith sort finer c edges resample = .error .arithmeticError) := by
  obtain ⟨first, rest, rfl⟩ := List.exists_cons_of_ne_nil hne
  have hg : pyGet (first :: rest) 0 = .ok first := rfl
  unfold runWith run
  simp only [hg, bind, Except.bind]
  unfold period
  refine ⟨fun h => ?_, fun h => ?_, fun t hl h hgap => ?_⟩
  · rw [if_pos h]
  · rw [h]
    split <;> rename_i hx <;> split at hx <;> simp_all
  · rw [if_neg (by omega), h]
    have hlen : (0 : ℚ) < ((diffs (first :: rest)).map fun p => (⌊p / t + 1 / 2⌋ : ℚ)).length := by
      cases rest with
      | nil => simp at hl
      | cons b l =>
        rw [List.length_map]
        have e : diffs (first :: b :: l) = (b - first) :: diffs (b :: l) := rfl
        rw [e, List.length_cons]
        push_cast
        positivity
    have : avg ((diffs (first :: rest)).map fun p => (⌊p / t + 1 / 2⌋ : ℚ)) < 9 / 10 ∨ 5 < avg ((diffs (first :: rest)).map fun p => (⌊p / t + 1 / 2⌋ : ℚ)) := by
      unfold avg
      rw [div_lt_iff₀ hlen, lt_div_iff₀ hlen]
      exact hgap
    simp only
    rw [if_pos this]

/-- C48: without any edges the error is not the documented ValueError but IndexError. -/
theorem C48_empty_fails (sort : List Scored → List Scored) (finer : List Finer) (c : Config) (resample : Bool) : runWith sort finer c [] resample = .error .indexError := rfl

theorem countP_sorted (edges : List ℚ) (hs : edges.Pairwise (· < ·)) (x : ℚ) (l : ℕ) (hl : l < edges.length) :
    edges[l] ≤ x ↔ l < edges.countP fun e => decide (e ≤ x) := by
  induction edges generalizing l with
  | nil => simp at hl
  | cons a edges ih =>
    rw [List.pairwise_cons] at hs
    rw [List.countP_cons]
    by_cases ha : a ≤ x
    · rw [if_pos (by simpa using ha)]
      cases l with
      | zero => simpa using ha
      | succ l =>
        have := ih hs.2 l (by simpa using hl)
        simp only [List.getElem_cons_succ]
        rw [this]
        omega
    · rw [if_neg (by simpa using ha)]
      have hz : (edges.countP fun e => decide (e ≤ x)) = 0 := by
        rw [List.countP_eq_zero]
        intro b hb
        have := hs.1 b hb
        simp only [decide_eq_true_eq]
        intro hc
        exact ha (by linarith)
      rw [hz]
      simp only [Nat.add_zero, Nat.not_lt_zero, iff_false]
      intro hc
      cases l with
      | zero => exact ha (by simpa using hc)
      | succ l =>
        have := hs.1 _ (List.getElem_mem (show l < edges.length by simpa using hl))
        simp only [List.getElem_cons_succ] at hc
        exact ha (by linarith)

/-- C48: resampled, the errors are one per clock edge, that of the last data edge not after it. -/
theorem C48_resampled (sort : List Scored → List Scored) (finer : List Finer) (hsort : Reorders sort) (c : Config) (edges : List ℚ) (hs : edges.Pairwise (· < ·))
    (hne : edges ≠ []) :
    (∀ e, runWith sort finer c edges false = .error e → runWith sort finer c edges true = .error e) ∧
    ∀ clk ties, runWith sort finer c edges false = .ok (clk, ties) → ∃ r, runWith sort finer c edges true = .ok (clk, r) ∧ AtClock edges ties clk r := by
  obtain ⟨first, rest, rfl⟩ := List.exists_cons_of_ne_nil hne
  obtain ⟨last, hlast⟩ : ∃ last, (first :: rest).getLast? = some last := ⟨_, List.getLast?_eq_some_getLast hne⟩
  have hm := (run_eq (fun e lo hi tol => minimizeTieDisjoints sort finer e none (some lo) (some hi) tol 10) detrendTies c first rest last hlast).2
  constructor
  · intro e he
    unfold runWith at he ⊢
    rw [hm, he]
    rfl
  · intro clk ties h
    refine ⟨clk.map (previous (first :: rest) ties), ?_, by simp, ?_⟩
    · unfold runWith at h ⊢
      rw [hm, h]
      rfl
    · rcases C48_recovered sort finer hsort c _ hs hne with ⟨clk', ties', tSym, T, h1, -, -, hr⟩ | h1 | h1
      · rw [h] at h1
        have h1' := Except.ok.inj h1
        obtain ⟨rfl, rfl⟩ := Prod.mk.inj h1'
        intro i hi hi'
        obtain ⟨start, s1, -, s3⟩ := hr.boundaries
        obtain ⟨n, -, -, hclk⟩ := s3 first rfl last hlast
        have hT := hr.positive
        have hge : first ≤ clk[i] := by
          subst hclk
          rw [List.getElem_map, List.getElem_range]
          have := abs_le.1 (s1 first rfl)
          have : (0 : ℚ) ≤ (i : ℚ) * T := by positivity
          linarith [this, (abs_le.1 (s1 first rfl)).1, (abs_le.1 (s1 first rfl)).2]
        have hc0 : 0 < (first :: rest).countP fun e => decide (e ≤ clk[i]) := by
          rw [← countP_sorted (first :: rest) hs clk[i] 0 (by simp)]
          exact hge
        have hcl : ((first :: rest).countP fun e => decide (e ≤ clk[i])) ≤ (first :: rest).length := List.countP_le_length
        refine ⟨((first :: rest).countP fun e => decide (e ≤ clk[i])) - 1, by omega, by rw [hr.one_each]; omega, ?_, ?_, ?_⟩
        · rw [countP_sorted (first :: rest) hs]
          omega
        · intro l hl hle
          rw [countP_sorted (first :: rest) hs] at hle
          omega
        · rw [List.getElem_map]
          unfold previous
          rw [List.getD_eq_getElem?_getD, List.getElem?_eq_getElem (by rw [hr.one_each]; omega)]
          rfl
      · rw [h] at h1
        cases h1
      · rw [h] at h1
        cases h1.1

/-! ### Edges without jitter -/

theorem zero_diffs (l : List ℤ) : ∀ d ∈ diffs (l.map fun _ => (0 : ℚ)), d = 0 := by
  induction l with
  | nil => intro d hd; cases hd
  | cons a l ih =>
    cases l with
    | nil => intro d hd; cases hd
    | cons b l =>
      intro d hd
      have e : diffs ((a :: b :: l).map fun _ => (0 : ℚ)) = ((0 : ℚ) - 0) :: diffs ((b :: l).map fun _ => (0 : ℚ)) := rfl
      rw [e] at hd
      rcases List.mem_cons.1 hd with rfl | hd
      · ring
      · exact ih d hd

/-- The clock of edges at symbol boundaries. -/
theorem clock_exact (m : List ℤ) (a T : ℚ) (hT : 0 < T) (n : ℕ) :
    clock ((0 :: m).map fun x : ℤ => a + x * T) a (a + n * T) (some T) =
      .ok ((List.range n).map fun i : ℕ => a + (i + 1 / 2) * T, (0 :: m).map fun _ => 0) := by
  have hties : ((0 :: m).map fun x : ℤ => a + (x : ℚ) * T).map (fun e => pyMod (e - a + T / 2) T - T / 2) = (0 :: m).map fun _ => (0 : ℚ) := by
    rw [List.map_map]
    apply List.map_congr_left
    intro x _
    simp only [Function.comp]
    have := (phase_exact T 0 x hT (by linarith) (by linarith)).1
    rw [show a + (x : ℚ) * T - a + T / 2 = x * T + 0 + T / 2 by ring, this]
    ring
  have havg : avg ((0 :: m).map fun _ : ℤ => (0 : ℚ)) = 0 := by
    unfold avg
    simp
  have hn : ⌈(a + n * T - a) / T⌉ = (n : ℤ) := by
    rw [show a + n * T - a = n * T by ring, mul_div_assoc, div_self hT.ne', mul_one]
    exact Int.ceil_natCast n
  have hsub : ((0 :: m).map fun _ : ℤ => (0 : ℚ)).map (fun x => x - 0) = (0 :: m).map fun _ : ℤ => (0 : ℚ) := by
    rw [List.map_map]
    apply List.map_congr_left
    intro x _
    simp
  unfold clock
  simp only [if_neg hT.ne', hties, havg, hn, hsub]
  have hany : ((diffs ((0 :: m).map fun _ : ℤ => (0 : ℚ))).any fun d => decide (T / 2 < |d|)) = false := by
    rw [List.any_eq_false]
    intro d hd
    rw [zero_diffs _ d hd]
    simp only [abs_zero, decide_eq_true_eq]
    linarith
  rw [hany, if_neg (by simp), if_neg (by omega)]
  congr 1
  refine Prod.ext ?_ rfl
  simp only
  by_cases hz : n = 0
  · subst hz
    simp
  · rw [if_neg (by exact_mod_cast hz)]
    unfold Stats.linspace
    rw [List.map_map]
    have e1 : (n : ℤ).toNat - 1 + 1 = n := by omega
    rw [e1]
    apply List.map_congr_left
    intro i hi
    rw [List.mem_range] at hi
    simp only [Function.comp]
    by_cases h1 : n = 1
    · subst h1
      have : i = 0 := by omega
      subst this
      simp
      ring
    · have e2 : (((n : ℤ).toNat - 1 : ℕ) : ℚ) = (n : ℚ) - 1 := by
        rw [Nat.cast_sub (by omega)]
        simp
      have h3 : (n : ℚ) - 1 ≠ 0 := by
        intro hc
        have : (n : ℚ) = 1 := by linarith
        exact h1 (by exact_mod_cast this)
      rw [e2]
      push_cast
      rw [sub_zero, mul_div_assoc, div_self h3]
      ring

/-- The number of symbols of the gaps. -/
theorem gaps_exact (x : ℤ) (m : List ℤ) (a T t : ℚ) (n : ℤ) (ht : 0 < t) (htT : |T - t| ≤ t / 100)
    (hc : (x :: m).IsChain fun x y => 1 ≤ y - x ∧ y - x ≤ 24) (hn : (x :: m).getLast? = some n) :
    ((diffs ((x :: m).map fun x : ℤ => a + x * T)).map fun p => (⌊p / t + 1 / 2⌋ : ℚ)).sum = n - x ∧
      ((diffs ((x :: m).map fun x : ℤ => a + x * T)).map fun p => (⌊p / t + 1 / 2⌋ : ℚ)).length = m.length := by
  induction m generalizing x with
  | nil =>
    obtain rfl : x = n := by simpa using hn
    simp [diffs]
  | cons y m ih =>
    rw [List.isChain_cons_cons] at hc
    obtain ⟨i1, i2⟩ := ih y hc.2 (by simpa using hn)
    have e : diffs ((x :: y :: m).map fun x : ℤ => a + (x : ℚ) * T) =
        ((a + y * T) - (a + x * T)) :: diffs ((y :: m).map fun x : ℤ => a + (x : ℚ) * T) := rfl
    rw [e, List.map_cons, List.sum_cons, List.length_cons, i1, i2]
    refine ⟨?_, by simp⟩
    have hfl : ⌊((a + y * T) - (a + x * T)) / t + 1 / 2⌋ = y - x := by
      have h1 : (1 : ℚ) ≤ y - x := by exact_mod_cast hc.1.1
      have h2 : (y : ℚ) - x ≤ 24 := by exact_mod_cast hc.1.2
      have h3 := abs_le.1 htT
      rw [Int.floor_eq_iff]
      push_cast
      rw [show a + (y : ℚ) * T - (a + x * T) = (y - x) * T by ring]
      constructor
      · rw [← sub_le_iff_le_add, le_div_iff₀ ht]
        nlinarith
      · rw [← lt_sub_iff_add_lt, div_lt_iff₀ ht]
        nlinarith
    rw [hfl]
    push_cast
    ring

/-- C48: edges without jitter, at most 24 symbols apart and 5 on average, recover exactly: from an initial period within 1 %, each clock edge is the
centre of a symbol and all errors are zero, if the number of symbols is not too large for the number of edges (the search tests at least 20 periods,
1000000 divided by the number of edges).  Periods are in seconds: up to 200 seconds. -/
theorem C48_exact (sort : List Scored → List Scored) (finer : List Finer) (hsort : Reorders sort) (hbest : BestFirst sort) (m : List ℤ) (a T tSym : ℚ) (n : ℕ)
    (ht : 0 < tSym) (hunit : tSym ≤ 200) (htT : |T - tSym| ≤ tSym / 100) (hm : m ≠ [])
    (hc : (0 :: m).IsChain fun x y => 1 ≤ y - x ∧ y - x ≤ 24) (hn : (0 :: m).getLast? = some (n : ℤ)) (havg : n ≤ 5 * m.length)
    (hpts : 2 * n < 99 * (max 20 (1000000 / (m.length + 1)) - 1)) :
    runWith sort finer ⟨some tSym, false⟩ ((0 :: m).map fun x : ℤ => a + x * T) false =
      .ok ((List.range n).map fun i : ℕ => a + (i + 1 / 2) * T, (0 :: m).map fun _ => 0) := by
  have htT' := abs_le.1 htT
  have hT : 0 < T := by linarith
  -- increasing numbers
  have hlt : (0 :: m).Pairwise (· < ·) := by
    apply List.IsChain.pairwise
    exact hc.imp fun x y h => by omega
  have hle : (0 :: m).Pairwise (· ≤ ·) := hlt.imp fun h => le_of_lt h
  obtain ⟨y, m', rfl⟩ := List.exists_cons_of_ne_nil hm
  have hn1 : 1 ≤ n := by
    have h0 := (List.pairwise_cons.1 hlt).1 (n : ℤ) (List.mem_of_getLast? (by simpa using hn))
    omega
  have hn1q : (1 : ℚ) ≤ n := by exact_mod_cast hn1
  have hedges : (0 :: y :: m').map (fun x : ℤ => a + (x : ℚ) * T) = (a + (0 : ℤ) * T) :: (y :: m').map fun x : ℤ => a + (x : ℚ) * T := rfl
  have hlast : ((0 :: y :: m').map fun x : ℤ => a + (x : ℚ) * T).getLast? = some (a + n * T) := by
    rw [List.getLast?_map, hn]
    simp
  unfold runWith
  rw [hedges] at hlast ⊢
  rw [(run_eq _ _ _ _ _ _ hlast).1, ← hedges]
  -- the period
  have hper : period (fun e lo hi tol => minimizeTieDisjoints sort finer e none (some lo) (some hi) tol 10) detrendTies ⟨some tSym, false⟩
      ((0 :: y :: m').map fun x : ℤ => a + x * T) = .ok (some T) := by
    unfold period
    rw [if_neg (by simp)]
    simp only
    obtain ⟨g1, g2⟩ := gaps_exact 0 (y :: m') a T tSym n ht htT hc hn
    have hml : (0 : ℚ) < (y :: m').length := by simp; positivity
    have hav : avg ((diffs ((0 :: y :: m').map fun x : ℤ => a + (x : ℚ) * T)).map fun p => (⌊p / tSym + 1 / 2⌋ : ℚ)) = n / (y :: m').length := by
      unfold avg
      rw [g1, g2]
      simp
    have hge : ((y :: m').length : ℚ) ≤ n := by
      have : ∀ (x : ℤ) (l : List ℤ) (n : ℤ), (x :: l).Pairwise (· < ·) → (x :: l).getLast? = some n → (l.length : ℤ) ≤ n - x := by
        intro x l
        induction l generalizing x with
        | nil =>
          intro n _ h
          obtain rfl : x = n := by simpa using h
          simp
        | cons z l ih =>
          intro n hp h
          rw [List.pairwise_cons] at hp
          have := ih z n hp.2 (by simpa using h)
          have := hp.1 z List.mem_cons_self
          simp only [List.length_cons]
          push_cast
          omega
      have h := this 0 (y :: m') n hlt hn
      rw [sub_zero] at h
      exact_mod_cast h
    rw [hav, if_neg]
    swap
    · push Not
      rw [le_div_iff₀ hml, div_le_iff₀ hml]
      have : (n : ℚ) ≤ 5 * (y :: m').length := by exact_mod_cast havg
      constructor <;> linarith
    simp only [Bool.false_eq_true, if_false]
    have hf := C50_finds sort hsort hbest finer (y :: m') a T (tSym * (1 - 1 / 100)) (tSym * (1 + 1 / 100)) (by linarith) (by linarith)
      (by linarith) 100 10 n hle hn (by push_cast; nlinarith) (by linarith) (by
        have hl : (0 :: y :: m').length = (y :: m').length + 1 := rfl
        rw [hl]
        have hfp : firstPoints ((y :: m').length + 1) = max 20 (1000000 / ((y :: m').length + 1)) := rfl
        rw [hfp]
        obtain ⟨p, hp⟩ : ∃ p, max 20 (1000000 / ((y :: m').length + 1)) - 1 = p := ⟨_, rfl⟩
        rw [hp] at hpts ⊢
        have hp0 : (0 : ℚ) < p := by
          have : 19 ≤ p := by
            have := le_max_left 20 (1000000 / ((y :: m').length + 1))
            omega
          exact_mod_cast (by omega : 0 < p)
        have hq : 2 * (n : ℚ) < 99 * p := by exact_mod_cast hpts
        rw [mul_div_assoc', div_lt_iff₀ hp0]
        push_cast
        nlinarith)
    obtain ⟨t, htf⟩ := hf
    rcases C50_found sort hsort finer ((0 :: y :: m').map fun x : ℤ => a + (x : ℚ) * T) (by simp) 100 (by norm_num) 10 (tSym * (1 - 1 / 100))
      (tSym * (1 + 1 / 100)) (by linarith) (by linarith) with ⟨u, u1, u2, u3, -⟩ | he
    · simp only [u1, bind, Except.bind]
      apply C49_exact
      · linarith
      · exact ⟨0, List.mem_cons_self, y, by simp, by have := (List.pairwise_cons.1 hlt).1 y (by simp); omega⟩
      · apply hc.imp
        intro p q hpq
        have h1 : (1 : ℚ) ≤ ((q - p : ℤ) : ℚ) := by exact_mod_cast hpq.1
        have h2 : ((q - p : ℤ) : ℚ) ≤ 24 := by exact_mod_cast hpq.2
        rw [abs_lt]
        constructor <;> nlinarith
    · rw [he] at htf
      cases htf
  rw [hper]
  have ha : a + ((0 : ℤ) : ℚ) * T = a := by simp
  rw [ha]
  exact clock_exact (y :: m') a T hT n

/-! ### Compiled helpers -/

/-- Not all edges are in the same period. -/
theorem slope_some (edges : List ℚ) (t : ℚ) (ht : 0 < t) (h0 : (0 : ℚ) ∈ edges) (h1 : ∃ e ∈ edges, t / 2 ≤ e) (ties : List ℚ) :
    slope (edges.map fun e => (floorDiv (e + t / 2) t : ℚ)) ties ≠ none := by
  obtain ⟨e, he, hle⟩ := h1
  unfold slope
  simp only
  set xs := edges.map fun e => (floorDiv (e + t / 2) t : ℚ) with hxs
  set mx := xs.sum / xs.length
  split
  · rename_i hz
    exfalso
    have hne : edges ≠ [] := by rintro rfl; cases he
    have hlen : (0 : ℚ) < xs.length := by
      rw [hxs, List.length_map]
      exact_mod_cast List.length_pos_iff.2 hne
    have hsum : (xs.map fun x => (x - mx) * (x - mx)).sum = 0 := by
      rcases div_eq_zero_iff.1 hz with h | h
      · exact h
      · exact absurd h hlen.ne'
    have hall : ∀ x ∈ xs, x = mx := by
      intro x hx
      have hn : ∀ y ∈ xs.map fun x => (x - mx) * (x - mx), 0 ≤ y := by
        intro y hy
        obtain ⟨z, -, rfl⟩ := List.mem_map.1 hy
        exact mul_self_nonneg _
      have := List.all_zero_of_le_zero_le_of_sum_eq_zero hn hsum (List.mem_map.2 ⟨x, hx, rfl⟩)
      have := mul_self_eq_zero.1 this
      linarith
    have ha := hall (floorDiv (0 + t / 2) t : ℚ) (List.mem_map.2 ⟨0, h0, rfl⟩)
    have hb := hall (floorDiv (e + t / 2) t : ℚ) (List.mem_map.2 ⟨e, he, rfl⟩)
    have h2 : floorDiv (0 + t / 2) t = 0 := by
      unfold floorDiv
      rw [Int.floor_eq_iff]
      constructor
      · push_cast
        positivity
      · rw [div_lt_iff₀ ht]
        push_cast
        linarith
    have h3 : 1 ≤ floorDiv (e + t / 2) t := by
      unfold floorDiv
      rw [Int.le_floor, le_div_iff₀ ht]
      push_cast
      linarith
    rw [h2] at ha
    rw [← ha] at hb
    have : floorDiv (e + t / 2) t = 0 := by exact_mod_cast hb
    omega
  · simp

/-- Some edge of the first hundred is at least half a period after the first one. -/
def Spread (edges : List ℚ) (t : ℚ) : Prop := ∃ e ∈ edges.take 100, t / 2 ≤ e

theorem scoresC_eq (sort : List Scored → List Scored) (edges span : List ℚ) (T : ℚ) (hspan : ∀ t ∈ span, 0 < t ∧ t ≤ T) (n : ℕ) (hn : 100 ≤ n)
    (h0 : edges[0]? = some 0) (hs : Spread edges T) : tieScoresC sort (edges.take n) span = .ok (tieScores sort (edges.take n) span) := by
  have hscore : ∀ t ∈ span, tieScoreC (edges.take n) t = .ok (t, tieScore (edges.take n) t) := by
    intro t ht
    obtain ⟨t1, t2⟩ := hspan t ht
    obtain ⟨e, he, hle⟩ := hs
    have hne : tieScore (edges.take n) t ≠ none := by
      unfold tieScore
      simp only
      split
      · have := slope_some (edges.take n) t t1 (by
          cases edges with
          | nil => cases h0
          | cons a l =>
            injection h0 with h0
            obtain ⟨m, rfl⟩ := Nat.exists_eq_succ_of_ne_zero (by omega : n ≠ 0)
            rw [List.take_succ_cons, h0]
            exact List.mem_cons_self) ⟨e, by
              have : edges.take 100 = (edges.take n).take 100 := by rw [List.take_take, min_eq_left hn]
              rw [this] at he
              exact List.mem_of_mem_take he, by linarith⟩ ((edges.take n).map fun e => pyMod (e + t / 2) t)
        rwa [Ne, Option.map_eq_none_iff]
      · simp
    unfold tieScoreC
    cases hq : tieScore (edges.take n) t with
    | none => exact absurd hq hne
    | some s => rfl
  unfold tieScoresC tieScores
  have hm : ∀ l : List ℚ, (∀ t ∈ l, t ∈ span) → l.mapM (tieScoreC (edges.take n)) = .ok (l.map fun t => (t, tieScore (edges.take n) t)) := by
    intro l
    induction l with
    | nil => intro _; rfl
    | cons a l ih =>
      intro hl
      rw [List.mapM_cons, hscore a (hl a List.mem_cons_self), ih fun t ht => hl t (List.mem_cons_of_mem _ ht)]
      rfl
  rw [hm span fun _ h => h]
  rfl

theorem nextBoundsC_eq (sort : List Scored → List Scored) (edges : List ℚ) (tMin tMax : ℚ) (hpos : 0 < tMin) (hle : tMin ≤ tMax)
    (h0 : edges[0]? = some 0) (hs : Spread edges tMax) (fs : List Finer) (hf : ∀ f ∈ fs, 100 ≤ f.edges) :
    nextBoundsC sort edges tMin tMax fs = nextBounds sort edges tMin tMax fs := by
  induction fs with
  | nil => rfl
  | cons f fs ih =>
    unfold nextBoundsC nextBounds
    rw [scoresC_eq sort edges _ tMax (fun t ht => by
      have := mem_linspace _ _ _ hle t ht
      exact ⟨by linarith, this.2⟩) f.edges (hf f List.mem_cons_self) h0 hs, ih fun g hg => hf g (List.mem_cons_of_mem _ hg)]
    simp only [bind, Except.bind]

theorem searchC_eq (sort : List Scored → List Scored) (hsort : Reorders sort) (first : ℚ) (rest : List ℚ) (tol : ℚ) (left : ℕ) : ∀ tMin tMax : ℚ,
    0 < tMin → tMin ≤ tMax → Spread ((first :: rest).map fun e => e - first) tMax →
    searchC sort (first :: rest) tol left tMin tMax = search sort finerC (first :: rest) tol left tMin tMax := by
  have h0 : ((first :: rest).map fun e => e - first)[0]? = some 0 := by simp
  induction left with
  | zero =>
    intro tMin tMax hpos hle hs
    have hsc := scoresC_eq sort ((first :: rest).map fun e => e - first) (Stats.linspace tMin tMax
      (firstPoints ((first :: rest).map fun e => e - first).length - 1)) tMax (fun t ht => by
        have := mem_linspace _ _ _ hle t ht
        exact ⟨by linarith, this.2⟩) (max 100 ((first :: rest).map fun e => e - first).length) (le_max_left _ _) h0 hs
    rw [List.take_of_length_le (le_max_right _ _)] at hsc
    unfold searchC search
    simp only [bind, Except.bind, show pyGet (first :: rest) 0 = .ok first from rfl]
    rw [hsc]
  | succ left ih =>
    intro tMin tMax hpos hle hs
    have hsc := scoresC_eq sort ((first :: rest).map fun e => e - first) (Stats.linspace tMin tMax
      (firstPoints ((first :: rest).map fun e => e - first).length - 1)) tMax (fun t ht => by
        have := mem_linspace _ _ _ hle t ht
        exact ⟨by linarith, this.2⟩) (max 100 ((first :: rest).map fun e => e - first).length) (le_max_left _ _) h0 hs
    rw [List.take_of_length_le (le_max_right _ _)] at hsc
    unfold searchC search
    simp only [bind, Except.bind, show pyGet (first :: rest) 0 = .ok first from rfl]
    rw [hsc]
    simp only
    rw [nextBoundsC_eq sort _ tMin tMax hpos hle h0 hs finerC (by decide)]
    rcases nextBounds_spec sort hsort ((first :: rest).map fun e => e - first) tMin tMax hle finerC with ⟨lo, hi, e1, e2, e3, e4⟩ | e1
    · rw [e1]
      simp only
      rw [ih lo hi (by linarith) e3 (by
        obtain ⟨e, he, hh⟩ := hs
        exact ⟨e, he, by linarith⟩)]
    · rw [e1]

/-- The finer searches of the compiled code: how many of the first edges are used, how many periods are tested, and by which part of the distance of
the old bounds the new ones are farther than the outermost good periods.  That of the first one is too large: 1/9 with 20 periods. -/
def roundsC : List (ℕ × ℕ × ℕ) := [(100000, 20, 9), (10000, 100, 99), (1000, 1000, 999), (100, 10000, 9999)]

theorem nextBounds_rounds (sort : List Scored → List Scored) (hs : Reorders sort) (edges : List ℚ) (hE : edges ≠ []) (tMin tMax : ℚ) (hmin : 0 < tMin)
    (h : tMin < tMax) (fs : List Finer) (hf : ∀ f ∈ fs, 2 ≤ f.points ∧ 0 < f.edges) :
    (∃ before f after lo hi, fs = before ++ f :: after ∧
      (∀ r ∈ before, ∀ k < r.points, ¬ Good (edges.take r.edges) (spaced tMin tMax r.points k)) ∧
      Widened edges tMin tMax f.edges f.points f.steps lo hi ∧ nextBounds sort edges tMin tMax fs = .ok (lo, hi)) ∨
    ((∀ r ∈ fs, ∀ k < r.points, ¬ Good (edges.take r.edges) (spaced tMin tMax r.points k)) ∧
      nextBounds sort edges tMin tMax fs = .error .arithmeticError) := by
  induction fs with
  | nil => exact Or.inr ⟨by simp, rfl⟩
  | cons f fs ih =>
    obtain ⟨h1, h2⟩ := hf f List.mem_cons_self
    rcases nextBounds_wide sort hs edges tMin tMax h f fs h1 hE h2 hmin with ⟨lo, hi, e1, e2⟩ | ⟨n1, e1⟩
    · exact Or.inl ⟨[], f, fs, lo, hi, rfl, by simp, e2, e1⟩
    · rw [e1]
      rcases ih fun g hg => hf g (List.mem_cons_of_mem _ hg) with ⟨be, g, af, lo, hi, e2, e3, e4, e5⟩ | ⟨e2, e3⟩
      · refine Or.inl ⟨f :: be, g, af, lo, hi, by rw [e2]; rfl, ?_, e4, e5⟩
        intro r hr
        rcases List.mem_cons.1 hr with rfl | hr
        · exact n1
        · exact e3 r hr
      · refine Or.inr ⟨?_, e3⟩
        intro r hr
        rcases List.mem_cons.1 hr with rfl | hr
        · exact n1
        · exact e2 r hr

/-- C50, how the compiled code refines: as the fallback (`C50_refine`), with other distances of the new bounds; if one of the first hundred edges is at
least half of the longest period after the first one. -/
theorem C50_refine_compiled (sort : List Scored → List Scored) (hs : Reorders sort) (first : ℚ) (rest : List ℚ) (tol tMin tMax : ℚ)
    (h0 : 0 < tMin) (h : tMin < tMax) (left : ℕ) :
    let edges := (first :: rest).map fun e => e - first
    let K := max 20 (1000000 / edges.length)
    (∃ e ∈ edges.take 100, tMax / 2 ≤ e) → (∀ k < K, ∃ x, Score edges (spaced tMin tMax K k) x ∧ tol ≤ x) →
    searchC sort (first :: rest) tol 0 tMin tMax = .error .arithmeticError ∧
    ((∃ before N K s after lo hi, roundsC = before ++ (N, K, s) :: after ∧
      (∀ r ∈ before, ∀ k < r.2.1, ¬ Good (edges.take r.1) (spaced tMin tMax r.2.1 k)) ∧ Widened edges tMin tMax N K s lo hi ∧
      searchC sort (first :: rest) tol (left + 1) tMin tMax = searchC sort (first :: rest) tol left lo hi) ∨
    ((∀ r ∈ roundsC, ∀ k < r.2.1, ¬ Good (edges.take r.1) (spaced tMin tMax r.2.1 k)) ∧
      searchC sort (first :: rest) tol (left + 1) tMin tMax = .error .arithmeticError)) := by
  intro edges K hsp hno
  have hK : K = firstPoints (first :: rest).length := by simp [K, edges, firstPoints]
  have hK2 : 2 ≤ K := le_trans (by norm_num) (le_max_left _ _)
  have hbad : ∀ best r, tieScores sort edges (Stats.linspace tMin tMax (firstPoints (first :: rest).length - 1)) = best :: r →
      scoreLt best.2 tol = false := by
    intro best r he
    obtain ⟨m1, m2⟩ := scores_mem sort hs _ _ best (by rw [he]; exact List.mem_cons_self)
    rw [← hK] at m1
    obtain ⟨k, hk, e⟩ := (linspace_spaced _ _ _ hK2 _).1 m1
    obtain ⟨x, hx, hx2⟩ := hno k hk
    rw [← e, ← score_iff edges (by simp [edges]) _ (h0.trans_le (mem_linspace _ _ _ h.le _ m1).1)] at hx
    rw [m2, hx]
    simp [scoreLt, hx2]
  have hspread : ∀ hi, hi ≤ tMax → Spread ((first :: rest).map fun e => e - first) hi := by
    intro hi hh
    obtain ⟨e, he, h3⟩ := hsp
    exact ⟨e, he, by linarith⟩
  rw [searchC_eq sort hs first rest tol 0 tMin tMax h0 h.le (hspread _ le_rfl),
    searchC_eq sort hs first rest tol (left + 1) tMin tMax h0 h.le (hspread _ le_rfl)]
  obtain ⟨b0, r0, s0, q0⟩ := search_eq sort hs finerC first rest tol tMin tMax 0
  obtain ⟨b1, r1, s1, q1⟩ := search_eq sort hs finerC first rest tol tMin tMax (left + 1)
  rw [hbad _ _ s0] at q0
  rw [hbad _ _ s1] at q1
  refine ⟨by simpa using q0, ?_⟩
  simp only [Bool.false_eq_true, if_false] at q1
  have hr : roundsC = finerC.map fun f => (f.edges, f.points, f.steps) := rfl
  rcases nextBounds_rounds sort hs edges (by simp [edges]) tMin tMax h0 h finerC (by decide) with ⟨be, f, af, lo, hi, e1, e2, e3, e4⟩ | ⟨e1, e2⟩
  · refine Or.inl ⟨be.map fun f => (f.edges, f.points, f.steps), f.edges, f.points, f.steps, af.map fun f => (f.edges, f.points, f.steps), lo, hi,
      by rw [hr, e1, List.map_append, List.map_cons], ?_, e3, ?_⟩
    · intro r hr
      obtain ⟨g, hg, rfl⟩ := List.mem_map.1 hr
      exact e2 g hg
    · rw [q1, show nextBounds sort ((first :: rest).map fun e => e - first) tMin tMax finerC = _ from e4]
      obtain ⟨i, j, hij, hj, -, -, -, hlo, hhi⟩ := e3
      have a1 : tMin ≤ lo := by rw [hlo]; exact le_max_left _ _
      have a2 : hi ≤ tMax := by rw [hhi]; exact min_le_left _ _
      have a3 : lo ≤ hi := by
        have hf := (show ∀ f ∈ finerC, 2 ≤ f.points by decide) f (by rw [e1]; simp)
        have m1 := (spaced_mono tMin tMax h f.points hf i j).2 hij
        have m2 := (spaced_mono tMin tMax h f.points hf 0 i).2 (Nat.zero_le _)
        have m3 := (spaced_mono tMin tMax h f.points hf j (f.points - 1)).2 (by omega)
        have z0 : spaced tMin tMax f.points 0 = tMin := by simp [spaced]
        have z1 : spaced tMin tMax f.points (f.points - 1) = tMax := by
          have hp : (f.points : ℚ) - 1 ≠ 0 := by
            have : (2 : ℚ) ≤ f.points := by exact_mod_cast hf
            intro hc
            linarith
          unfold spaced
          rw [Nat.cast_sub (by omega), Nat.cast_one, mul_div_assoc, div_self hp]
          ring
        rw [z0] at m2
        rw [z1] at m3
        have hd : 0 ≤ (tMax - tMin) / (f.steps : ℚ) := div_nonneg (by linarith) (by positivity)
        rw [hlo, hhi]
        refine le_min (max_le h.le (by linarith)) (max_le (by linarith) (by linarith))
      rw [searchC_eq sort hs first rest tol left lo hi (by linarith) a3 (hspread _ a2)]
      rfl
  · refine Or.inr ⟨?_, ?_⟩
    · intro r hr'
      rw [hr] at hr'
      obtain ⟨g, hg, rfl⟩ := List.mem_map.1 hr'
      exact e1 g hg
    · rw [q1, show nextBounds sort ((first :: rest).map fun e => e - first) tMin tMax finerC = _ from e2]
      rfl

/-- The first hypothesis of `C50_refine_compiled` is met by the example of `C50_refine`, which meets the other one. -/
example : ∃ e ∈ ([0, 2 / 5, 4 / 5] : List ℚ).take 100, (11 / 10 : ℚ) / 2 ≤ e := ⟨4 / 5, by simp, by norm_num⟩

/-- C12, only part of the claim: with the compiled helpers the recovered clock is that of the fallback ones with another list of finer searches (so
C48 holds for it too), if one of the first hundred edges is at least 0.505 nominal periods after the first one.  Missing: other edges, see
`C12_minimize_fails`. -/
theorem C12_run_partial (sort : List Scored → List Scored) (hsort : Reorders sort) (c : Config) (edges : List ℚ) (hs : edges.Pairwise (· < ·))
    (resample : Bool) (hspread : ∀ t, c.tSym = some t → ∃ e ∈ edges.take 100, 101 / 200 * t ≤ e - edges.headD 0) :
    runC sort c edges resample = runWith sort finerC c edges resample := by
  cases edges with
  | nil => rfl
  | cons first rest =>
    have hne : first :: rest ≠ [] := by simp
    have hper : period (fun e lo hi tol => minimizeTieDisjointsC sort e none (some lo) (some hi) tol 10) (fun e t => .ok (detrendTiesC e t)) c
        (first :: rest) = period (fun e lo hi tol => minimizeTieDisjoints sort finerC e none (some lo) (some hi) tol 10) detrendTies c (first :: rest) := by
      unfold period
      split
      · rfl
      · cases hc : c.tSym with
        | none => rfl
        | some t =>
          simp only
          split
          · rfl
          · rename_i havg
            have ht := tSym_pos _ hs t havg
            split
            · rfl
            · have hm : minimizeTieDisjointsC sort (first :: rest) none (some (t * (1 - 1 / 100))) (some (t * (1 + 1 / 100))) 100 10 =
                  minimizeTieDisjoints sort finerC (first :: rest) none (some (t * (1 - 1 / 100))) (some (t * (1 + 1 / 100))) 100 10 := by
                apply searchC_eq sort hsort first rest 100 _ _ _ (by linarith) (by linarith)
                obtain ⟨e, he, hle⟩ := hspread t hc
                refine ⟨e - first, ?_, ?_⟩
                · rw [← List.map_take]
                  exact List.mem_map.2 ⟨e, he, rfl⟩
                · simp only [List.headD_cons] at hle
                  linarith
              rw [hm]
              rcases C50_found sort hsort finerC (first :: rest) hne 100 (by norm_num) 10 (t * (1 - 1 / 100)) (t * (1 + 1 / 100)) (by linarith)
                (by linarith) with ⟨u, u1, u2, u3, -⟩ | he
              · simp only [u1, bind, Except.bind]
                exact (C12_detrend _ u (by linarith) hne).symm
              · simp only [he, bind, Except.bind]
    unfold runC runWith run
    rw [hper]

/-- C12: in terms of `minimize_tie_disjoints` itself. -/
theorem C12_minimize_partial (sort : List Scored → List Scored) (hsort : Reorders sort) (edges : List ℚ) (hne : edges ≠ []) (tol : ℚ) (maxIter : ℤ)
    (lo hi : ℚ) (hpos : 0 < lo) (hle : lo ≤ hi) (hspread : ∃ e ∈ edges.take 100, hi / 2 ≤ e - edges.headD 0) :
    minimizeTieDisjointsC sort edges none (some lo) (some hi) tol maxIter =
      minimizeTieDisjoints sort finerC edges none (some lo) (some hi) tol maxIter := by
  obtain ⟨first, rest, rfl⟩ := List.exists_cons_of_ne_nil hne
  apply searchC_eq sort hsort first rest tol _ _ _ hpos hle
  obtain ⟨e, he, hh⟩ := hspread
  refine ⟨e - first, ?_, by simpa using hh⟩
  rw [← List.map_take]
  exact List.mem_map.2 ⟨e, he, rfl⟩

theorem sum_const (l : List ℚ) (c : ℚ) (h : ∀ x ∈ l, x = c) : l.sum = l.length * c := by
  induction l with
  | nil => simp
  | cons a l ih =>
    rw [List.sum_cons, h a List.mem_cons_self, ih fun x hx => h x (List.mem_cons_of_mem _ hx), List.length_cons]
    push_cast
    ring

theorem diffs_small (l : List ℚ) (lo hi : ℚ) (h : ∀ x ∈ l, lo ≤ x ∧ x < hi) : ∀ d ∈ diffs l, |d| < hi - lo := by
  induction l with
  | nil => simp [diffs]
  | cons a l ih =>
    cases l with
    | nil => simp [diffs]
    | cons b l =>
      intro d hd
      have hd' : d = b - a ∨ d ∈ diffs (b :: l) := by simpa [diffs] using hd
      rcases hd' with rfl | hd'
      · have ha := h a (by simp)
        have hb := h b (by simp)
        rw [abs_lt]
        constructor <;> linarith
      · exact ih (fun x hx => h x (List.mem_cons_of_mem _ hx)) d hd'

/-- All edges in one period: there is no slope. -/
theorem score_none (edges : List ℚ) (t : ℚ) (h : ∀ e ∈ edges, 0 ≤ e ∧ e < t / 2) (hne : edges ≠ []) : tieScore edges t = none := by
  obtain ⟨a, l, rfl⟩ := List.exists_cons_of_ne_nil hne
  have ht : 0 < t := by
    have := h a List.mem_cons_self
    linarith
  have hfloor : ∀ e ∈ a :: l, ⌊(e + t / 2) / t⌋ = 0 := by
    intro e he
    have := h e he
    rw [Int.floor_eq_iff]
    constructor
    · push_cast
      apply div_nonneg <;> linarith
    · rw [div_lt_iff₀ ht]
      push_cast
      linarith
  unfold tieScore
  simp only
  have hd : disjoints ((a :: l).map fun e => pyMod (e + t / 2) t) t = 0 := by
    unfold disjoints
    rw [List.countP_eq_zero]
    intro d hd
    have := diffs_small _ (t / 2) t (by
      intro x hx
      obtain ⟨e, he, rfl⟩ := List.mem_map.1 hx
      unfold pyMod
      rw [hfloor e he]
      have := h e he
      push_cast
      constructor <;> linarith) d hd
    simp only [decide_eq_true_eq, not_lt]
    linarith
  rw [hd, if_pos (by norm_num)]
  rw [Option.map_eq_none_iff]
  unfold slope
  simp only
  apply if_pos
  have hz : ∀ x ∈ (a :: l).map fun e => (floorDiv (e + t / 2) t : ℚ), x = 0 := by
    intro x hx
    obtain ⟨e, he, rfl⟩ := List.mem_map.1 hx
    unfold floorDiv
    rw [hfloor e he]
    rfl
  rw [sum_const _ 0 hz, sum_const _ 0 (by
    intro x hx
    obtain ⟨y, hy, rfl⟩ := List.mem_map.1 hx
    rw [hz y hy]
    simp)]
  simp

theorem mapM_score_error (edges span : List ℚ) (h : ∃ t ∈ span, tieScore edges t = none) : span.mapM (tieScoreC edges) = .error .zeroDivision := by
  induction span with
  | nil => obtain ⟨t, ht, -⟩ := h; cases ht
  | cons a l ih =>
    rw [List.mapM_cons]
    cases ha : tieScore edges a with
    | none =>
      have : tieScoreC edges a = .error .zeroDivision := by unfold tieScoreC; rw [ha]
      rw [this]
      rfl
    | some s =>
      have : tieScoreC edges a = .ok (a, some s) := by unfold tieScoreC; rw [ha]
      rw [this, ih (by
        obtain ⟨t, ht, hn⟩ := h
        rcases List.mem_cons.1 ht with rfl | ht
        · rw [ha] at hn
          cases hn
        · exact ⟨t, ht, hn⟩)]
      rfl

/-- C12: with all edges less than half of the longest period after the first one, the compiled `minimize_tie_disjoints` raises ZeroDivisionError. -/
theorem C12_minimize_raises (sort : List Scored → List Scored) (edges : List ℚ) (hne : edges ≠ []) (tol : ℚ) (maxIter : ℤ) (lo hi : ℚ)
    (h : ∀ e ∈ edges, 0 ≤ e - edges.headD 0 ∧ e - edges.headD 0 < hi / 2) :
    minimizeTieDisjointsC sort edges none (some lo) (some hi) tol maxIter = .error .zeroDivision := by
  obtain ⟨first, rest, rfl⟩ := List.exists_cons_of_ne_nil hne
  simp only [List.headD_cons] at h
  unfold minimizeTieDisjointsC
  simp only
  have hend : hi ∈ Stats.linspace lo hi (firstPoints ((first :: rest).map fun e => e - first).length - 1) := by
    have hp : 20 ≤ firstPoints ((first :: rest).map fun e => e - first).length := le_max_left _ _
    generalize firstPoints ((first :: rest).map fun e => e - first).length = n at hp ⊢
    unfold Stats.linspace
    refine List.mem_map.2 ⟨n - 1, List.mem_range.2 (by omega), ?_⟩
    have : ((n - 1 : ℕ) : ℚ) ≠ 0 := by
      have : n - 1 ≠ 0 := by omega
      exact_mod_cast this
    field_simp
    ring
  have hsc : tieScoresC sort ((first :: rest).map fun e => e - first)
      (Stats.linspace lo hi (firstPoints ((first :: rest).map fun e => e - first).length - 1)) = .error .zeroDivision := by
    unfold tieScoresC
    rw [mapM_score_error _ _ ⟨hi, hend, score_none _ _ (by
      intro x hx
      obtain ⟨e, he, rfl⟩ := List.mem_map.1 hx
      exact h e he) (by simp)⟩]
    rfl
  unfold searchC
  simp only [bind, Except.bind, show pyGet (first :: rest) 0 = .ok first from rfl]
  rw [hsc]

/-- The fallback scores of two edges half a unit apart start with the shortest period. -/
theorem fallback_found (finer : List Finer) : minimizeTieDisjoints id finer [0, 1 / 2] none (some (99 / 100)) (some (101 / 100)) 100 10 = .ok (99 / 100) := by
  have hl : ∀ n : ℕ, ∃ l, Stats.linspace (99 / 100) (101 / 100) n = (99 / 100) :: l := by
    intro n
    unfold Stats.linspace
    rw [List.range_succ_eq_map, List.map_cons]
    refine ⟨_, congrArg (· :: _) ?_⟩
    norm_num
  have hs : tieScore [0, 1 / 2] (99 / 100) = some (-(1 - |(-(49 / 100) : ℚ)|)) := by decide +kernel
  unfold minimizeTieDisjoints
  simp only
  unfold search
  simp only [bind, Except.bind, show pyGet [(0 : ℚ), 1 / 2] 0 = .ok 0 from rfl]
  have he : ([0, 1 / 2] : List ℚ).map (fun e => e - 0) = [0, 1 / 2] := by simp
  rw [he]
  obtain ⟨l, hl⟩ := hl (firstPoints ([0, 1 / 2] : List ℚ).length - 1)
  rw [hl]
  unfold tieScores
  simp only [List.map_cons, id_eq, hs]
  have : scoreLt (some (-(1 - |(-(49 / 100) : ℚ)|))) 100 = true := by decide +kernel
  rw [this]
  rfl

/-- C12 fails for two edges half a nominal period apart: the fallback search finds a period (with either list of finer searches, by a sort that keeps
sorted numbers), the compiled one raises ZeroDivisionError. -/
theorem C12_minimize_fails : (∀ finer, minimizeTieDisjoints id finer [0, 1 / 2] none (some (99 / 100)) (some (101 / 100)) 100 10 = .ok (99 / 100)) ∧
    minimizeTieDisjointsC id [0, 1 / 2] none (some (99 / 100)) (some (101 / 100)) 100 10 = .error .zeroDivision :=
  ⟨fallback_found, C12_minimize_raises id [0, 1 / 2] (by simp) 100 10 _ _ (by
    intro e he
    simp only [List.mem_cons, List.not_mem_nil, or_false] at he
    rcases he with rfl | rfl <;> norm_num)⟩

/-- The hypotheses of `C12_minimize_partial` and `C12_run_partial` are met. -/
example : (∃ e ∈ ([0, 1, 3] : List ℚ).take 100, (101 / 100 : ℚ) / 2 ≤ e - ([0, 1, 3] : List ℚ).headD 0) ∧
    (∃ e ∈ ([0, 1, 3] : List ℚ).take 100, 101 / 200 * (1 : ℚ) ≤ e - ([0, 1, 3] : List ℚ).headD 0) := by
  refine ⟨⟨1, by simp, by norm_num⟩, ⟨1, by simp, by norm_num⟩⟩

/-- The hypotheses of `C48_exact` are met: a pattern of 9 symbols with an initial period 0.5 % too long. -/
example : let m : List ℤ := [1, 2, 5, 7, 9]
    |(1 : ℚ) - 201 / 200| ≤ (201 / 200) / 100 ∧ m ≠ [] ∧ ((0 :: m).IsChain fun x y => 1 ≤ y - x ∧ y - x ≤ 24) ∧ (0 :: m).getLast? = some ((9 : ℕ) : ℤ) ∧
    9 ≤ 5 * m.length ∧ 2 * 9 < 99 * (max 20 (1000000 / (m.length + 1)) - 1) := by
  refine ⟨?_, by simp, by decide, rfl, by decide, by decide⟩
  rw [abs_le]
  constructor <;> norm_num

/-- The clock of edges with jitter, for a fixed period: the errors have zero mean. -/
example : runFb id ⟨some 1, true⟩ [0, 11 / 10, 2] false = .ok ([8 / 15, 23 / 15], [-1 / 30, 1 / 15, -1 / 30]) := by decide +kernel

/-- Resampled. -/
example : runFb id ⟨some 1, true⟩ [0, 11 / 10, 2] true = .ok ([8 / 15, 23 / 15], [-1 / 30, 1 / 15]) := by decide +kernel

end Verif.Props.CdrRun
