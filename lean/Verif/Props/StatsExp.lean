import Verif.Model.StatsExp
import Verif.Props.Stats
import Mathlib.Tactic.Positivity
import Mathlib.Tactic.FieldSimp

/-!
# C68: exponential bins
-/

namespace Verif.Props.StatsExp

open Verif Verif.Stats Verif.Props.Stats

/-! ## Differences of counts -/

theorem count_between' {α : Type} (y : List α) (p q r : α → Bool) (h : ∀ v ∈ y, p v → q v)
    (hr : ∀ v ∈ y, r v = true ↔ q v = true ∧ ¬ p v = true) :
    ((y.countP q : ℕ) : ℤ) - (y.countP p : ℕ) = (y.countP r : ℕ) := by
  induction y with
  | nil => simp
  | cons a y ih =>
    have ih := ih (fun v hv => h v (by simp [hv])) (fun v hv => hr v (by simp [hv]))
    have ha := h a (by simp)
    have hra := hr a (by simp)
    simp only [List.countP_cons]
    cases hp : p a <;> cases hq : q a <;> cases hx : r a <;> simp_all <;> linarith

open Classical in
theorem histogramE_spec (y : List EReal) (E : ℕ → EReal) (n : ℕ) (hE : ∀ i < n, E i ≤ E (i + 1)) :
    histogramE y ((List.range (n + 1)).map E) = (List.range n).map fun i : ℕ =>
      ((y.countP (fun v => decide (E i ≤ v ∧ (v < E (i + 1) ∨ (i + 1 = n ∧ v ≤ E (i + 1))))) : ℕ) : ℤ) := by
  unfold histogramE
  have hl : ((List.range (n + 1)).map E).dropLast = (List.range n).map E := by
    rw [List.range_succ, List.map_append]; simp
  have hg : ((List.range (n + 1)).map E).getLast? = some (E n) := by
    rw [List.range_succ, List.map_append]; simp
  rw [hl, hg]
  simp only
  set g : ℕ → ℤ := fun i => if i < n then ((y.countP (fun v => decide (v < E i)) : ℕ) : ℤ)
    else ((y.countP (fun v => decide (v ≤ E n)) : ℕ) : ℤ) with hgd
  have hc : (List.map (fun e => ((y.countP (fun v => decide (v < e)) : ℕ) : ℤ)) (List.map E (List.range n)) ++
      [((y.countP (fun v => decide (v ≤ E n)) : ℕ) : ℤ)]) = (List.range (n + 1)).map g := by
    rw [List.range_succ, List.map_append, List.map_map]
    congr 1
    · apply List.map_congr_left
      intro i hi
      simp only [Function.comp, hgd]
      rw [if_pos (List.mem_range.1 hi)]
    · simp [hgd]
  rw [hc, diff_range]
  apply List.map_congr_left
  intro i hi
  have hi := List.mem_range.1 hi
  simp only [hgd]
  rw [if_pos hi]
  by_cases hn : i + 1 < n
  · rw [if_pos hn]
    apply count_between'
    · intro v _ h
      simp only [decide_eq_true_eq] at h ⊢
      exact h.trans_le (hE i hi)
    · intro v _
      simp only [decide_eq_true_eq]
      constructor
      · rintro ⟨h1, h2 | h2⟩
        · exact ⟨h2, not_lt.2 h1⟩
        · omega
      · rintro ⟨h1, h2⟩; exact ⟨not_lt.1 h2, Or.inl h1⟩
  · have hin : i + 1 = n := by omega
    rw [if_neg hn]
    apply count_between'
    · intro v _ h
      simp only [decide_eq_true_eq] at h ⊢
      rw [← hin]
      exact (h.trans_le (hE i hi)).le
    · intro v _
      simp only [decide_eq_true_eq, hin]
      constructor
      · rintro ⟨h1, h2 | h2⟩
        · exact ⟨h2.le, not_lt.2 h1⟩
        · exact ⟨h2.2, not_lt.2 h1⟩
      · rintro ⟨h1, h2⟩; exact ⟨not_lt.1 h2, .inr ⟨trivial, h1⟩⟩

theorem diff_length (l : List ℤ) : (diff l).length = l.length - 1 := by
  induction l with
  | nil => rfl
  | cons a l ih =>
    cases l with
    | nil => rfl
    | cons b l => simp only [diff, List.length_cons] at ih ⊢; omega

theorem histogramE_length (y : List EReal) (E : ℕ → EReal) (n : ℕ) : (histogramE y ((List.range (n + 1)).map E)).length = n := by
  unfold histogramE
  rw [List.range_succ, List.map_append, diff_length]
  simp

/-- Counts over bins that cover every sample add up to the number of samples. -/
theorem sum_diffs (n : ℕ) (g : ℕ → ℤ) : ((List.range n).map fun i => g (i + 1) - g i).sum = g n - g 0 := by
  induction n with
  | zero => simp
  | succ n ih => rw [List.range_succ, List.map_append, List.sum_append, ih]; simp

open Classical in
theorem histogramE_sum (y : List EReal) (E : ℕ → EReal) (n : ℕ) (hn : 0 < n) (h0 : ∀ v ∈ y, E 0 ≤ v)
    (h1 : ∀ v ∈ y, v ≤ E n) : (histogramE y ((List.range (n + 1)).map E)).sum = y.length := by
  unfold histogramE
  have hl : ((List.range (n + 1)).map E).dropLast = (List.range n).map E := by
    rw [List.range_succ, List.map_append]; simp
  have hg : ((List.range (n + 1)).map E).getLast? = some (E n) := by
    rw [List.range_succ, List.map_append]; simp
  rw [hl, hg]
  simp only
  set g : ℕ → ℤ := fun i => if i < n then ((y.countP (fun v => decide (v < E i)) : ℕ) : ℤ)
    else ((y.countP (fun v => decide (v ≤ E n)) : ℕ) : ℤ) with hgd
  have hc : (List.map (fun e => ((y.countP (fun v => decide (v < e)) : ℕ) : ℤ)) (List.map E (List.range n)) ++
      [((y.countP (fun v => decide (v ≤ E n)) : ℕ) : ℤ)]) = (List.range (n + 1)).map g := by
    rw [List.range_succ, List.map_append, List.map_map]
    congr 1
    · apply List.map_congr_left
      intro i hi
      simp only [Function.comp, hgd]
      rw [if_pos (List.mem_range.1 hi)]
    · simp [hgd]
  rw [hc, diff_range, sum_diffs]
  simp only [hgd, lt_irrefl, if_false, if_pos hn]
  rw [List.countP_eq_length.2 (fun v hv => by simpa using h1 v hv),
    List.countP_eq_zero.2 (fun v hv => by simpa using h0 v hv)]
  simp

/-! ## Logarithms -/

theorem log10_lt (v : NNReal) (e : ℝ) : log10 v < (e : EReal) ↔ (v : ℝ) < (10 : ℝ) ^ e := by
  unfold log10
  split_ifs with h
  · subst h
    simp only [EReal.bot_lt_coe, NNReal.coe_zero, true_iff]
    positivity
  · have hv : (0 : ℝ) < v := by
      have := pos_iff_ne_zero.2 h
      exact_mod_cast this
    rw [EReal.coe_lt_coe_iff, Real.logb_lt_iff_lt_rpow (by norm_num) hv]

theorem le_log10 (v : NNReal) (e : ℝ) : (e : EReal) ≤ log10 v ↔ (10 : ℝ) ^ e ≤ v := by
  rw [← not_lt, log10_lt, not_lt]

theorem log10_le (v : NNReal) (e : ℝ) : log10 v ≤ (e : EReal) ↔ (v : ℝ) ≤ (10 : ℝ) ^ e := by
  unfold log10
  split_ifs with h
  · subst h
    simp only [bot_le, NNReal.coe_zero, true_iff]
    positivity
  · have hv : (0 : ℝ) < v := by
      have := pos_iff_ne_zero.2 h
      exact_mod_cast this
    rw [EReal.coe_le_coe_iff, Real.logb_le_iff_le_rpow (by norm_num) hv]

theorem log10_bot (v : NNReal) : log10 v = ⊥ ↔ v = 0 := by
  unfold log10
  split_ifs with h <;> simp [h]

theorem minE_spec (y : List EReal) (hy : y ≠ []) : ∃ m, minE y = .ok m ∧ m ∈ y ∧ ∀ v ∈ y, m ≤ v := by
  have gen : ∀ (l : List EReal) (a : EReal), l.foldl min a ≤ a ∧ (∀ v ∈ l, l.foldl min a ≤ v) ∧
      (l.foldl min a = a ∨ l.foldl min a ∈ l) := by
    intro l
    induction l with
    | nil => intro a; simp
    | cons b l ih =>
      intro a
      obtain ⟨h1, h2, h3⟩ := ih (min a b)
      simp only [List.foldl_cons]
      refine ⟨h1.trans (min_le_left _ _), ?_, ?_⟩
      · intro v hv
        rcases List.mem_cons.1 hv with rfl | hv
        · exact h1.trans (min_le_right _ _)
        · exact h2 v hv
      · rcases h3 with h3 | h3
        · rcases min_choice a b with h | h
          · left; rw [h3, h]
          · right; rw [h3, h]; exact List.mem_cons.2 (Or.inl rfl)
        · right; exact List.mem_cons_of_mem _ h3
  cases y with
  | nil => exact absurd rfl hy
  | cons a l =>
    obtain ⟨h1, h2, h3⟩ := gen l a
    refine ⟨_, rfl, ?_, ?_⟩
    · rcases h3 with h | h
      · rw [h]; exact List.mem_cons.2 (Or.inl rfl)
      · exact List.mem_cons_of_mem _ h
    · intro v hv
      rcases List.mem_cons.1 hv with rfl | hv
      · exact h1
      · exact h2 v hv

theorem maxE_spec (y : List EReal) (hy : y ≠ []) : ∃ m, maxE y = .ok m ∧ m ∈ y ∧ ∀ v ∈ y, v ≤ m := by
  have gen : ∀ (l : List EReal) (a : EReal), a ≤ l.foldl max a ∧ (∀ v ∈ l, v ≤ l.foldl max a) ∧
      (l.foldl max a = a ∨ l.foldl max a ∈ l) := by
    intro l
    induction l with
    | nil => intro a; simp
    | cons b l ih =>
      intro a
      obtain ⟨h1, h2, h3⟩ := ih (max a b)
      simp only [List.foldl_cons]
      refine ⟨(le_max_left _ _).trans h1, ?_, ?_⟩
      · intro v hv
        rcases List.mem_cons.1 hv with rfl | hv
        · exact (le_max_right _ _).trans h1
        · exact h2 v hv
      · rcases h3 with h3 | h3
        · rcases max_choice a b with h | h
          · left; rw [h3, h]
          · right; rw [h3, h]; exact List.mem_cons.2 (Or.inl rfl)
        · right; exact List.mem_cons_of_mem _ h3
  cases y with
  | nil => exact absurd rfl hy
  | cons a l =>
    obtain ⟨h1, h2, h3⟩ := gen l a
    refine ⟨_, rfl, ?_, ?_⟩
    · rcases h3 with h | h
      · rw [h]; exact List.mem_cons.2 (Or.inl rfl)
      · exact List.mem_cons_of_mem _ h
    · intro v hv
      rcases List.mem_cons.1 hv with rfl | hv
      · exact h1
      · exact h2 v hv

theorem log10_mono (a b : NNReal) : log10 a ≤ log10 b ↔ a ≤ b := by
  by_cases hb : b = 0
  · subst hb
    rw [(log10_bot 0).2 rfl, le_bot_iff, log10_bot, nonpos_iff_eq_zero]
  · have hv : (0 : ℝ) < b := by
      have := pos_iff_ne_zero.2 hb
      exact_mod_cast this
    have e : log10 b = ((Real.logb 10 b : ℝ) : EReal) := by simp [log10, hb]
    rw [e, log10_le, Real.rpow_logb (by norm_num) (by norm_num) hv]
    exact NNReal.coe_le_coe

/-- The samples' own minimum and maximum. -/
theorem range_spec (y : List NNReal) (hy : y ≠ []) : ∃ a ∈ y, ∃ b ∈ y, minE (y.map log10) = .ok (log10 a) ∧
    maxE (y.map log10) = .ok (log10 b) ∧ ∀ v ∈ y, a ≤ v ∧ v ≤ b := by
  obtain ⟨m, h1, h2, h3⟩ := minE_spec (y.map log10) (by simpa using hy)
  obtain ⟨M, g1, g2, g3⟩ := maxE_spec (y.map log10) (by simpa using hy)
  obtain ⟨a, ha, rfl⟩ := List.mem_map.1 h2
  obtain ⟨b, hb, rfl⟩ := List.mem_map.1 g2
  refine ⟨a, ha, b, hb, h1, g1, fun v hv => ⟨?_, ?_⟩⟩
  · exact (log10_mono a v).1 (h3 _ (List.mem_map.2 ⟨v, hv, rfl⟩))
  · exact (log10_mono v b).1 (g3 _ (List.mem_map.2 ⟨v, hv, rfl⟩))

/-! ## C68 -/

/-- Specification: sample `v` belongs to bin `i` of `n` decades up to `10 ^ m`; the lowest bin has no lower limit, the
highest includes its upper one. -/
def Decade (m : ℤ) (n i : ℕ) (v : NNReal) : Prop :=
  (i = 0 ∨ (10 : ℝ) ^ (m - n + i) ≤ v) ∧ ((v : ℝ) < (10 : ℝ) ^ (m - n + i + 1) ∨ (i + 1 = n ∧ (v : ℝ) = (10 : ℝ) ^ m))

theorem rpow_int (k : ℤ) : (10 : ℝ) ^ ((k : ℤ) : ℝ) = (10 : ℝ) ^ k := Real.rpow_intCast 10 k

open Classical in
/-- C68: with a zero among the samples the bins are decades, the highest one just holds the largest sample (or ends at
1 if all are zero), and every sample is in the count of its bin; the counts add up to the number of samples. -/
theorem C68_zeros (y : List NNReal) (hz : (0 : NNReal) ∈ y) (n : ℕ) (hn : 0 < n) :
    ∃ (m : ℤ) (edges : List EReal),
      binExponential y n = .ok ((List.range n).map (fun i : ℕ => ((y.countP (fun v => decide (Decade m n i v)) : ℕ) : ℤ)), edges) ∧
      edges = ⊥ :: (List.range n).map (fun i : ℕ => (((m - n + i + 1 : ℤ) : ℝ) : EReal)) ∧
      ((∀ v ∈ y, v = 0) → m = 0) ∧
      (∀ b ∈ y, 0 < b → (∀ v ∈ y, v ≤ b) → (10 : ℝ) ^ (m - 1) < b ∧ (b : ℝ) ≤ (10 : ℝ) ^ m) ∧
      ((List.range n).map (fun i : ℕ => ((y.countP (fun v => decide (Decade m n i v)) : ℕ) : ℤ))).sum = y.length := by
  have hy : y ≠ [] := List.ne_nil_of_mem hz
  obtain ⟨a, ha, b, hb, ea, eb, hr⟩ := range_spec y hy
  have ha0 : a = 0 := le_antisymm (hr 0 hz).1 zero_le
  subst ha0
  set m := topExp (log10 b) with hm
  have hmb : (b : ℝ) ≤ (10 : ℝ) ^ m := by
    by_cases h0 : b = 0
    · rw [h0]; simp only [NNReal.coe_zero]; positivity
    · have hv : (0 : ℝ) < b := by
        have := pos_iff_ne_zero.2 h0
        exact_mod_cast this
      have e : log10 b = ((Real.logb 10 b : ℝ) : EReal) := by simp [log10, h0]
      have : m = ⌈Real.logb 10 b⌉ := by
        rw [hm, topExp, if_neg (by rw [log10_bot]; exact h0), e, EReal.toReal_coe]
      rw [← rpow_int, ← Real.logb_le_iff_le_rpow (by norm_num) hv, this]
      exact Int.le_ceil _
  set E : ℕ → EReal := fun i => if i = 0 then ⊥ else (((m - n + i : ℤ) : ℝ) : EReal) with hE
  have hedges : decadeEdges m n = (List.range (n + 1)).map E := by
    unfold decadeEdges
    rw [List.range_succ_eq_map, List.map_cons, List.map_map]
    congr 1
    apply List.map_congr_left
    intro i _
    simp only [Function.comp, hE, Nat.succ_ne_zero, if_false]
    congr 2
    push_cast
    ring
  have hmono : ∀ i < n, E i ≤ E (i + 1) := by
    intro i _
    simp only [hE, Nat.succ_ne_zero, if_false]
    split_ifs
    · exact bot_le
    · rw [EReal.coe_le_coe_iff]
      push_cast
      linarith
  have hrun : binExponential y n = .ok (histogramE (y.map log10) ((List.range (n + 1)).map E), (List.range (n + 1)).map E) := by
    unfold binExponential
    simp only [ea, eb, bind, Except.bind, pure, Except.pure]
    rw [if_pos ((log10_bot 0).2 rfl), ← hm, hedges]
  have hcounts : histogramE (y.map log10) ((List.range (n + 1)).map E) =
      (List.range n).map (fun i : ℕ => ((y.countP (fun v => decide (Decade m n i v)) : ℕ) : ℤ)) := by
    rw [histogramE_spec _ _ _ hmono]
    apply List.map_congr_left
    intro i hi
    have hi := List.mem_range.1 hi
    rw [List.countP_map]
    congr 2
    funext v
    simp only [Function.comp]
    congr 1
    apply propext
    have h1 : E i ≤ log10 v ↔ (i = 0 ∨ (10 : ℝ) ^ (m - n + i) ≤ v) := by
      simp only [hE]
      split_ifs with h
      · simp [h]
      · rw [le_log10, rpow_int]; simp [h]
    have h2 : E (i + 1) = (((m - n + i + 1 : ℤ) : ℝ) : EReal) := by
      simp only [hE, Nat.succ_ne_zero, if_false]
      congr 2
      push_cast
      ring
    rw [h1, h2, log10_lt, log10_le, rpow_int]
    unfold Decade
    constructor
    · rintro ⟨h, h' | ⟨h', h''⟩⟩
      · exact ⟨h, .inl h'⟩
      · rcases h''.lt_or_eq with h3 | h3
        · exact ⟨h, .inl h3⟩
        · refine ⟨h, .inr ⟨h', h3.trans ?_⟩⟩
          congr 1; omega
    · rintro ⟨h, h' | ⟨h', h''⟩⟩
      · exact ⟨h, .inl h'⟩
      · refine ⟨h, .inr ⟨h', le_of_eq (h''.trans ?_)⟩⟩
        congr 1; omega
  refine ⟨m, _, by rw [hrun, hcounts], ?_, ?_, ?_, ?_⟩
  · rw [← hedges]
    unfold decadeEdges
    congr 1
    apply List.map_congr_left
    intro i _
    congr 2
    ring
  · intro h
    rw [hm, topExp, if_pos ((log10_bot b).2 (h b hb))]
  · intro c hc hc0 hmax
    have hcb : c = b := le_antisymm (hr c hc).2 (hmax b hb)
    subst hcb
    refine ⟨?_, hmb⟩
    have hv : (0 : ℝ) < c := by exact_mod_cast hc0
    have e : log10 c = ((Real.logb 10 c : ℝ) : EReal) := by simp [log10, hc0.ne']
    have hmc : m = ⌈Real.logb 10 c⌉ := by
      rw [hm, topExp, if_neg (by rw [log10_bot]; exact hc0.ne'), e, EReal.toReal_coe]
    rw [← rpow_int, ← Real.lt_logb_iff_rpow_lt (by norm_num) hv, hmc]
    push_cast
    linarith [Int.ceil_lt_add_one (Real.logb 10 (c : ℝ))]
  · rw [← hcounts, histogramE_sum _ _ _ hn, List.length_map]
    · intro v _; simp [hE]
    · intro v hv
      obtain ⟨u, hu, rfl⟩ := List.mem_map.1 hv
      have : E n = ((m : ℝ) : EReal) := by
        simp only [hE, if_neg hn.ne']
        congr 2
        ring
      rw [this, log10_le, rpow_int]
      exact le_trans (by exact_mod_cast (hr u hu).2) hmb

/-- Specification: the `i`-th of `n + 1` limits in geometric progression from `a` to `b`. -/
noncomputable def limit (a b : ℝ) (n i : ℕ) : ℝ := a * (b / a) ^ ((i : ℝ) / n)

theorem limit_first (a b : ℝ) (n : ℕ) : limit a b n 0 = a := by simp [limit]

theorem limit_last (a b : ℝ) (n : ℕ) (hn : 0 < n) (ha : 0 < a) : limit a b n n = b := by
  have : (n : ℝ) ≠ 0 := by positivity
  rw [limit, div_self this, Real.rpow_one]
  field_simp

theorem rpow_edge (a b : ℝ) (ha : 0 < a) (hb : 0 < b) (n i : ℕ) :
    (10 : ℝ) ^ (Real.logb 10 a + i * ((Real.logb 10 b - Real.logb 10 a) / n)) = limit a b n i := by
  have e : (i : ℝ) * ((Real.logb 10 b - Real.logb 10 a) / n) = Real.logb 10 (b / a) * ((i : ℝ) / n) := by
    rw [Real.logb_div hb.ne' ha.ne']; ring
  rw [e, Real.rpow_add (by norm_num), Real.rpow_mul (by norm_num), Real.rpow_logb (by norm_num) (by norm_num) ha,
    Real.rpow_logb (by norm_num) (by norm_num) (by positivity), limit]

/-- Specification: sample `v` belongs to bin `i` of the `n` bins between the limits; the last one is closed. -/
def Between (a b : ℝ) (n i : ℕ) (v : NNReal) : Prop :=
  limit a b n i ≤ v ∧ ((v : ℝ) < limit a b n (i + 1) ∨ (i + 1 = n ∧ (v : ℝ) = b))

open Classical in
/-- C68: without a zero the limits of the bins are in geometric progression from the smallest to the largest sample,
the edges are their logarithms, every sample is in the count of its bin, and the counts add up to the number of
samples. -/
theorem C68_positive (y : List NNReal) (hy : y ≠ []) (hz : (0 : NNReal) ∉ y) (n : ℕ) (hn : 0 < n) :
    ∃ a ∈ y, ∃ b ∈ y, ∃ edges : List EReal, (∀ v ∈ y, a ≤ v ∧ v ≤ b) ∧
      binExponential y n = .ok ((List.range n).map (fun i : ℕ => ((y.countP (fun v => decide (Between a b n i v)) : ℕ) : ℤ)), edges) ∧
      edges = (List.range (n + 1)).map (fun i : ℕ => ((Real.logb 10 (limit a b n i) : ℝ) : EReal)) ∧
      ((List.range n).map (fun i : ℕ => ((y.countP (fun v => decide (Between a b n i v)) : ℕ) : ℤ))).sum = y.length := by
  obtain ⟨a, ha, b, hb, ea, eb, hr⟩ := range_spec y hy
  have a0 : a ≠ 0 := fun h => hz (h ▸ ha)
  have b0 : b ≠ 0 := fun h => hz (h ▸ hb)
  have pa : (0 : ℝ) < a := by
    have := pos_iff_ne_zero.2 a0
    exact_mod_cast this
  have pb : (0 : ℝ) < b := by
    have := pos_iff_ne_zero.2 b0
    exact_mod_cast this
  have la : log10 a = ((Real.logb 10 a : ℝ) : EReal) := by simp [log10, a0]
  have lb : log10 b = ((Real.logb 10 b : ℝ) : EReal) := by simp [log10, b0]
  have hab : (a : ℝ) ≤ b := by exact_mod_cast (hr a ha).2
  have hlog : Real.logb 10 (a : ℝ) ≤ Real.logb 10 (b : ℝ) := Real.logb_le_logb_of_le (by norm_num) pa hab
  have hn' : (0 : ℝ) < n := by exact_mod_cast hn
  set G : ℕ → ℝ := fun i => Real.logb 10 (a : ℝ) + i * ((Real.logb 10 (b : ℝ) - Real.logb 10 (a : ℝ)) / n) with hG
  set E : ℕ → EReal := fun i => ((G i : ℝ) : EReal) with hE
  have hGlim : ∀ i, (10 : ℝ) ^ G i = limit a b n i := fun i => rpow_edge a b pa pb n i
  have hmono : ∀ i < n, E i ≤ E (i + 1) := by
    intro i _
    simp only [hE, EReal.coe_le_coe_iff, hG]
    push_cast
    have : 0 ≤ (Real.logb 10 (b : ℝ) - Real.logb 10 (a : ℝ)) / n := div_nonneg (by linarith) hn'.le
    linarith
  have hrun : binExponential y n = .ok (histogramE (y.map log10) ((List.range (n + 1)).map E), (List.range (n + 1)).map E) := by
    unfold binExponential
    simp only [ea, eb, bind, Except.bind, pure, Except.pure]
    rw [if_neg (by rw [log10_bot]; exact a0), la, lb, EReal.toReal_coe, EReal.toReal_coe]
    rfl
  have hGn : G n = Real.logb 10 b := by
    simp only [hG]
    field_simp
    ring
  have hcounts : histogramE (y.map log10) ((List.range (n + 1)).map E) =
      (List.range n).map (fun i : ℕ => ((y.countP (fun v => decide (Between a b n i v)) : ℕ) : ℤ)) := by
    rw [histogramE_spec _ _ _ hmono]
    apply List.map_congr_left
    intro i hi
    have hi := List.mem_range.1 hi
    rw [List.countP_map]
    congr 2
    funext v
    simp only [Function.comp]
    congr 1
    apply propext
    simp only [hE]
    rw [le_log10, log10_lt, log10_le, hGlim, hGlim]
    unfold Between
    have hlast : i + 1 = n → limit a b n (i + 1) = b := by
      intro h
      rw [h]
      exact limit_last _ _ _ hn pa
    constructor
    · rintro ⟨h, h' | ⟨h', h''⟩⟩
      · exact ⟨h, .inl h'⟩
      · rcases h''.lt_or_eq with h3 | h3
        · exact ⟨h, .inl h3⟩
        · exact ⟨h, .inr ⟨h', h3.trans (hlast h')⟩⟩
    · rintro ⟨h, h' | ⟨h', h''⟩⟩
      · exact ⟨h, .inl h'⟩
      · exact ⟨h, .inr ⟨h', le_of_eq (h''.trans (hlast h').symm)⟩⟩
  refine ⟨a, ha, b, hb, _, hr, by rw [hrun, hcounts], ?_, ?_⟩
  · apply List.map_congr_left
    intro i _
    simp only [hE]
    rw [← hGlim, Real.logb_rpow (by norm_num) (by norm_num)]
  · rw [← hcounts, histogramE_sum _ _ _ hn, List.length_map]
    · intro v hv
      obtain ⟨u, hu, rfl⟩ := List.mem_map.1 hv
      simp only [hE]
      rw [le_log10, hGlim, limit_first]
      exact_mod_cast (hr u hu).1
    · intro v hv
      obtain ⟨u, hu, rfl⟩ := List.mem_map.1 hv
      simp only [hE]
      rw [log10_le, hGlim, limit_last _ _ _ hn pa]
      exact_mod_cast (hr u hu).2

/-- C68: no samples is an error. -/
theorem C68_empty (n : ℕ) : binExponential [] n = .error .valueError ∧ binExponentialDensity [] n = .error .valueError :=
  ⟨rfl, rfl⟩

theorem sum_scaled (l : List ℤ) (w : ℝ) : (l.map fun c : ℤ => (c : ℝ) / w).sum = (l.sum : ℝ) / w := by
  induction l with
  | nil => simp
  | cons a l ih => simp only [List.map_cons, List.sum_cons, ih]; push_cast; ring

/-- C68: as a density the counts are divided by the number of samples and the width of a bin, so that density times
width adds up to 1; the width is a decade with a zero among the samples, the `n`-th part of the range in decades
without. -/
theorem C68_density (y : List NNReal) (n : ℕ) (hn : 0 < n) (a b : NNReal) (ha : a ∈ y) (hb : b ∈ y) (hab : a < b)
    (hr : ∀ v ∈ y, a ≤ v ∧ v ≤ b) (counts : List ℤ) (edges : List EReal) (h : binExponential y n = .ok (counts, edges)) :
    ∃ w > 0, (w = if a = 0 then 1 else Real.logb 10 (b / a) / n) ∧
      binExponentialDensity y n = .ok (counts.map (fun c : ℤ => some ((c : ℝ) / (w * y.length))), edges) ∧
      (counts.map (fun c : ℤ => (c : ℝ) / (w * y.length) * w)).sum = 1 := by
  have hy : y ≠ [] := List.ne_nil_of_mem ha
  have hlen : (0 : ℝ) < y.length := by exact_mod_cast List.length_pos_iff.2 hy
  obtain ⟨a', ha', b', hb', ea, eb, hr'⟩ := range_spec y hy
  obtain rfl : a' = a := le_antisymm (hr' a ha).1 (hr a' ha').1
  obtain rfl : b' = b := le_antisymm (hr b' hb').2 (hr' b hb).2
  have hn' : (0 : ℝ) < n := by exact_mod_cast hn
  have hsum : counts.sum = y.length := by
    by_cases h0 : a' = 0
    · subst h0
      obtain ⟨m, e, h1, _, _, _, h5⟩ := C68_zeros y ha n hn
      rw [h] at h1
      simp only [Except.ok.injEq, Prod.mk.injEq] at h1
      rw [h1.1, h5]
    · obtain ⟨_, _, _, _, e, _, h1, _, h5⟩ := C68_positive y hy (fun hz => h0 (le_antisymm (hr 0 hz).1 zero_le)) n hn
      rw [h] at h1
      simp only [Except.ok.injEq, Prod.mk.injEq] at h1
      rw [h1.1, h5]
  set w : ℝ := if a' = 0 then 1 else Real.logb 10 (b' / a') / n with hw
  have hw0 : 0 < w := by
    rw [hw]
    split_ifs with h0
    · norm_num
    · have pa : (0 : ℝ) < a' := by
        have := pos_iff_ne_zero.2 h0
        exact_mod_cast this
      have hab' : (a' : ℝ) < b' := by exact_mod_cast hab
      exact div_pos (Real.logb_pos (by norm_num) (by rw [lt_div_iff₀ pa]; linarith)) hn'
  have hwidth : (if log10 a' = ⊥ then (1 : ℝ) else ((log10 b').toReal - (log10 a').toReal) / n) = w := by
    by_cases h0 : a' = 0
    · rw [if_pos ((log10_bot _).2 h0), hw, if_pos h0]
    · have pa : (0 : ℝ) < a' := by
        have := pos_iff_ne_zero.2 h0
        exact_mod_cast this
      have hab' : (a' : ℝ) < b' := by exact_mod_cast hab
      have pb : (0 : ℝ) < b' := by linarith
      have b0 : b' ≠ 0 := by rintro rfl; simp at pb
      rw [if_neg (fun h => h0 ((log10_bot _).1 h)), hw, if_neg h0, Real.logb_div pb.ne' pa.ne']
      simp [log10, h0, b0]
  refine ⟨w, hw0, rfl, ?_, ?_⟩
  · unfold binExponentialDensity
    simp only [ea, eb, h, bind, Except.bind, pure, Except.pure]
    rw [hwidth]
    have : ¬ (w = 0 ∨ counts.sum = 0) := by
      rintro (h | h)
      · exact hw0.ne' h
      · rw [hsum] at h
        have : (y.length : ℝ) = 0 := by exact_mod_cast h
        exact hlen.ne' this
    congr 3
    funext c
    rw [if_neg this, hsum]
    push_cast
    field_simp
  · have e : (counts.map fun c : ℤ => (c : ℝ) / (w * y.length) * w) = counts.map fun c : ℤ => (c : ℝ) / y.length := by
      apply List.map_congr_left
      intro c _
      field_simp
    rw [e, sum_scaled, hsum]
    push_cast
    exact div_self hlen.ne'

/-- C68: the density of equal non-zero samples is not defined. -/
theorem C68_density_equal (a : NNReal) (h0 : a ≠ 0) (k n : ℕ) :
    ∃ edges, binExponentialDensity (List.replicate (k + 1) a) n = .ok (List.replicate n none, edges) := by
  obtain ⟨a', ha', b', hb', ea, eb, -⟩ := range_spec (List.replicate (k + 1) a) (by simp)
  obtain rfl := (List.mem_replicate.1 ha').2
  obtain rfl := (List.mem_replicate.1 hb').2
  unfold binExponentialDensity binExponential
  simp only [ea, eb, bind, Except.bind, pure, Except.pure]
  rw [if_neg (fun h => h0 ((log10_bot _).1 h)), if_neg (fun h => h0 ((log10_bot _).1 h))]
  refine ⟨_, by
    simp only [sub_self, zero_div, true_or, if_true]
    congr 2
    rw [List.map_const']
    congr 1
    exact histogramE_length _ _ n⟩

/-! ### Concrete cases -/

/-- The hypotheses of `C68_positive` and `C68_density` are met: three samples, without a zero. -/
example : ([1, 10, 1000] : List NNReal) ≠ [] ∧ (0 : NNReal) ∉ ([1, 10, 1000] : List NNReal) ∧
    (1 : NNReal) ∈ ([1, 10, 1000] : List NNReal) ∧ (1000 : NNReal) ∈ ([1, 10, 1000] : List NNReal) ∧ (1 : NNReal) < 1000 ∧
    ∀ v ∈ ([1, 10, 1000] : List NNReal), 1 ≤ v ∧ v ≤ 1000 := by
  refine ⟨by simp, by simp, by simp, by simp, by norm_num, ?_⟩
  intro v hv
  simp only [List.mem_cons, List.not_mem_nil, or_false] at hv
  rcases hv with rfl | rfl | rfl <;> norm_num

/-- Three samples, one of them zero: two decades, up to 10. -/
example : ∃ edges, binExponential [0, 1, 3] 2 = .ok ([1, 2], edges) ∧
    edges = [⊥, (((0 : ℤ) : ℝ) : EReal), (((1 : ℤ) : ℝ) : EReal)] := by
  obtain ⟨m, edges, h1, h2, h3, h4, h5⟩ := C68_zeros [0, 1, 3] (by simp) 2 (by norm_num)
  have hb := h4 3 (by simp) (by norm_num) (by
    intro v hv
    simp only [List.mem_cons, List.not_mem_nil, or_false] at hv
    rcases hv with rfl | rfl | rfl <;> norm_num)
  have hm : m = 1 := by
    have l : m - 1 < 1 := by
      rw [← zpow_lt_zpow_iff_right₀ (show (1 : ℝ) < 10 by norm_num)]
      refine hb.1.trans ?_
      norm_num
    have u : 0 < m := by
      rw [← zpow_lt_zpow_iff_right₀ (show (1 : ℝ) < 10 by norm_num)]
      refine lt_of_lt_of_le ?_ hb.2
      norm_num
    omega
  subst hm
  refine ⟨edges, ?_, by rw [h2]; simp [List.range_succ]⟩
  rw [h1]
  congr 2
  simp only [List.range_succ, List.range_zero, List.nil_append, List.map_append, List.map_cons, List.map_nil, List.countP_cons,
    List.countP_nil, Decade]
  norm_num

end Verif.Props.StatsExp
