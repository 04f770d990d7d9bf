import Verif.Props.FloatSearch

/-!
The default clock recovery (`CDR.run` with the period searched and fitted) in rounded arithmetic.
-/

namespace Verif.Props.FloatRecover

open Verif Verif.Eye Verif.Cdr Verif.Float Verif.Props.Float Verif.Props.FloatCdr Verif.Props.FloatFit Verif.Props.CdrSearch Verif.Props.FloatSearch
  Verif.Props.FloatStats

theorem forall₂_range {α β : Type} {P : α → β → Prop} (n : ℕ) (f : ℕ → α) (g : ℕ → β) (h : ∀ i < n, P (f i) (g i)) :
    List.Forall₂ P ((List.range n).map f) ((List.range n).map g) := by
  rw [List.forall₂_map_left_iff, List.forall₂_map_right_iff, List.forall₂_same]
  intro i hi
  exact h i (List.mem_range.1 hi)

section
variable {R : Floats} {d n : ℕ} {e : ℕ → ℚ} {m : ℕ → ℤ} {s T J A η : ℚ} (h : Ticks R.u d n e m s T J A η)
include h

/-- A clock with the period recovered, cdr.py:92-106. -/
theorem clock_near (mean : List ℚ → ℚ) (hmean : IsMean R.toRounding d n mean) {T' β : ℚ} (hT' : |T' - T| * ((n : ℚ) - 1) ≤ 7 / 2 * (J + η))
    (hβ : (m (n - 1) : ℚ) ≤ β * ((n : ℚ) - 1)) (hq : (2 + 7 / 2 * β) * (J + η) ≤ 2 / 5 * T) :
    0 < T' ∧ ∃ clk ties start, clockF R.toRounding mean ((List.range n).map e) (e 0) (e (n - 1)) (some T') = .ok (clk, ties) ∧
      Nearly ((List.range n).map e) T' (20 * R.u * (A + T')) (2 * ((d + 1) * R.u) * T') start clk ties ∧
      m (n - 1) ≤ clk.length ∧ clk.length ≤ m (n - 1) + 1 ∧
      (∀ i (hi : i < clk.length), |clk[i] - (s + (i + 1 / 2) * T)| ≤ J + |T' - T| * (m (n - 1) + 1 / 2) + η) ∧
      ∀ i (hi : i < ties.length), |ties[i] - (e i - (start + m i * T'))| ≤ η := by
  obtain ⟨hJ, hA, h3, h4, h5, -⟩ := consts h
  have hT := h.pos
  have hun := R.u_nonneg
  have hs := h.small
  have hqu := h.quiet
  have h2 := h.two
  have hfine := h.fine
  have hn0 : (2 : ℚ) ≤ n := by exact_mod_cast h2
  obtain ⟨-, -, hn1⟩ := total h
  obtain ⟨M, hM⟩ : ∃ M : ℤ, m (n - 1) = M := ⟨_, rfl⟩
  rw [hM] at hβ hn1 ⊢
  obtain ⟨δ, hδ⟩ : ∃ δ, |T' - T| = δ := ⟨_, rfl⟩
  have hδ0 : 0 ≤ δ := by rw [← hδ]; exact abs_nonneg _
  rw [hδ] at hT' ⊢
  have hδ1 : δ ≤ 7 / 2 * (J + η) := by
    have : δ * 1 ≤ δ * ((n : ℚ) - 1) := mul_le_mul_of_nonneg_left (by linarith) hδ0
    linarith
  have hδT := abs_le.1 hδ.le
  have hM0 : (0 : ℚ) ≤ M := by linarith
  have hβ1 : 1 ≤ β := by
    have : 1 * ((n : ℚ) - 1) ≤ β * ((n : ℚ) - 1) := by linarith
    exact le_of_mul_le_mul_right this (by linarith)
  have hη0 : 0 ≤ η := by linarith
  have hδM : δ * M ≤ 7 / 2 * β * (J + η) := by
    calc δ * M ≤ δ * (β * ((n : ℚ) - 1)) := mul_le_mul_of_nonneg_left hβ hδ0
      _ = β * (δ * ((n : ℚ) - 1)) := by ring
      _ ≤ β * (7 / 2 * (J + η)) := mul_le_mul_of_nonneg_left hT' (by linarith)
      _ = _ := by ring
  have hT'0 : 0 < T' := by linarith
  have huT : R.u * (A + T') ≤ 2 * (R.u * (A + T)) := by
    have := mul_le_mul_of_nonneg_left (show A + T' ≤ 2 * (A + T) by linarith) hun
    linarith
  have hmM : ∀ i < n, (0 : ℚ) ≤ m i ∧ (m i : ℚ) ≤ M := by
    intro i hi
    have a1 := m_mono n m h.incr 0 i (by omega) (by omega)
    have a2 := m_mono n m h.incr i (n - 1) (by omega) (by omega)
    rw [h.zero] at a1
    rw [hM] at a2
    exact ⟨by exact_mod_cast a1, by exact_mod_cast a2⟩
  -- the edges around a line with the new period
  have hj : Jittered (s + M / 2 * (T - T')) T' (J + δ * (M / 2)) ((List.range n).map e) ((List.range n).map m) := by
    refine forall₂_range n e m ?_
    intro i hi
    obtain ⟨a1, a2⟩ := hmM i hi
    have a3 := h.near i hi
    rw [show e i - (s + M / 2 * (T - T') + m i * T') = (e i - (s + m i * T)) + (T' - T) * (M / 2 - m i) by ring]
    refine (abs_add_le _ _).trans (add_le_add a3 ?_)
    rw [abs_mul, hδ]
    refine mul_le_mul_of_nonneg_left ?_ hδ0
    rw [abs_le]
    constructor <;> linarith
  obtain ⟨c, hc⟩ : ∃ c, n = c + 1 := ⟨n - 1, by omega⟩
  have hcons : ∀ {α : Type} (f : ℕ → α), (List.range n).map f = f 0 :: (List.range c).map fun i => f (i + 1) := by
    intro α f
    rw [hc, List.range_succ_eq_map, List.map_cons, List.map_map]
    rfl
  have hlast : ((List.range n).map e).getLast? = some (e (n - 1)) := by
    rw [List.getLast?_map, hc, List.range_succ, List.getLast?_concat]
    simp
  have hA' : ∀ x ∈ (List.range n).map e, |x| ≤ A := by
    intro x hx
    obtain ⟨i, hi, rfl⟩ := List.mem_map.1 hx
    exact h.bound i (List.mem_range.1 hi)
  have hlen : ((List.range n).map e).length = n := by simp
  have hmean' : IsMean R.toRounding d ((List.range n).map e).length mean := by rwa [hlen]
  have hJ2 : 2 * (J + δ * (M / 2)) + 20 * R.u * (A + T') < T' / 2 := by linarith
  obtain ⟨clk, ties, start, c1, c2, c3, c4⟩ := clockF_locks R.toRounding mean d (e 0) ((List.range c).map fun i => e (i + 1)) (e (n - 1)) T' A
    (J + δ * (M / 2)) (s + M / 2 * (T - T')) (m 0) ((List.range c).map fun i => m (i + 1)) (by rwa [← hcons e]) (by linarith)
    (by rwa [← hcons e]) (by rwa [← hcons e]) hT'0 (h.sorted (n - 1) (by omega)) (by rw [← hcons e, ← hcons m]; exact hj) hJ2
  simp only [← hcons e, ← hcons m] at c1 c2 c4
  have hg : ((d : ℚ) + 1) * R.u * T' ≤ 2 * ((d + 1) * R.u * (A + T)) := by
    have := mul_le_mul_of_nonneg_left (show T' ≤ 2 * (A + T) by linarith) (show 0 ≤ ((d : ℚ) + 1) * R.u by positivity)
    linarith
  have heta := h.eta
  rw [h.zero] at c3
  push_cast at c3
  rw [zero_mul, add_zero] at c3
  refine ⟨hT'0, clk, ties, start, c1, c2, ?_⟩
  -- the number of clock edges
  have hcount := c2.count (e 0) (by rw [hcons e]; rfl) (e (n - 1)) hlast
  have g1 := abs_le.1 (h.near 0 (by omega))
  have g2 := abs_le.1 (h.near (n - 1) (by omega))
  rw [h.zero] at g1
  rw [hM] at g2
  push_cast at g1
  have hMT : |(M : ℚ) * (T' - T)| ≤ δ * M := by rw [abs_mul, hδ, abs_of_nonneg hM0, mul_comm]
  have hMT' := abs_le.1 hMT
  have k1 : M ≤ clk.length := by
    have : ((M : ℚ) - 1) * T' < clk.length * T' := by linarith [hcount.2]
    have := lt_of_mul_lt_mul_right this hT'0.le
    have h6 : M - 1 < (clk.length : ℤ) := by exact_mod_cast this
    omega
  have k2 : (clk.length : ℤ) ≤ M + 1 := by
    have : ((clk.length : ℚ) - 1) * T' < (M + 1) * T' := by linarith [hcount.1]
    have := lt_of_mul_lt_mul_right this hT'0.le
    have h6 : (clk.length : ℤ) - 1 < M + 1 := by exact_mod_cast this
    omega
  refine ⟨k1, k2, ?_, ?_⟩
  · intro i hi
    have g3 := abs_le.1 (c2.centres i hi)
    have c3' := abs_le.1 c3
    have hiM : (i : ℚ) ≤ M := by
      have : (i : ℤ) ≤ M := by omega
      exact_mod_cast this
    have hi0 : (0 : ℚ) ≤ i := Nat.cast_nonneg i
    have h6 : |((i : ℚ) + 1 / 2 - M / 2) * (T' - T)| ≤ (M / 2 + 1 / 2) * δ := by
      rw [abs_mul, hδ]
      refine mul_le_mul_of_nonneg_right ?_ hδ0
      rw [abs_le]
      constructor <;> linarith
    have h6' := abs_le.1 h6
    rw [abs_le]
    constructor <;> linarith
  · intro i hi
    have hi' : i < n := by rw [← hlen, ← c2.one_each]; exact hi
    have g4 := c4 i (by rw [hlen]; exact hi') hi (by simpa using hi')
    simp only [List.getElem_map, List.getElem_range, h.zero, sub_zero] at g4
    have g4' := abs_le.1 g4
    rw [abs_le]
    constructor <;> linarith

end

/-! ### C107 -/

/-- **C107.** The default clock recovery in rounded arithmetic, with the compiled and with the fallback functions.  Data edges at the boundaries of symbols
of the period `T`, with a jitter of at most `J` each, and a configured period at most 0.9 % off: no exception is raised, the errors of the period over the
record are in proportion to the jitter and the rounding errors.  There is one clock edge for each symbol, and at most one more; each is near the centre of
its symbol, and each time interval error is the distance of the data edge from the clock. -/
theorem C107_recovers (R : Floats) (d n : ℕ) (e : ℕ → ℚ) (m : ℕ → ℤ) (s T J A η β t0 : ℚ) (h : Ticks R.u d n e m s T J A η) (mean : List ℚ → ℚ)
    (dot : List (ℚ × ℚ) → ℚ) (hmean : IsMean R.toRounding d n mean) (hdot : IsProd R.toRounding d n dot) (sort : List Scored → List Scored)
    (hsort : Reorders sort) (hbest : BestFirst sort) (compiled : Bool) (ht0 : |t0 - T| ≤ 9 / 1000 * T)
    (hN : (m (n - 1) : ℚ) ≤ 6 * (firstPoints n - 1 : ℕ)) (hβ : (m (n - 1) : ℚ) ≤ β * ((n : ℚ) - 1)) (hq : (2 + 7 / 2 * β) * (J + η) ≤ 2 / 5 * T) :
    ∃ T' start clk ties, recoverF R.toRounding mean dot sort compiled ⟨some t0, false⟩ ((List.range n).map e) false = .ok (clk, ties) ∧ 0 < T' ∧
      |T' - T| * ((n : ℚ) - 1) ≤ 7 / 2 * (J + η) ∧ |T' - T| * m (n - 1) ≤ 7 / 2 * β * (J + η) ∧
      Nearly ((List.range n).map e) T' (20 * R.u * (A + T')) (2 * ((d + 1) * R.u) * T') start clk ties ∧
      m (n - 1) ≤ clk.length ∧ clk.length ≤ m (n - 1) + 1 ∧
      (∀ i (hi : i < clk.length), |clk[i] - (s + (i + 1 / 2) * T)| ≤ J + |T' - T| * (m (n - 1) + 1 / 2) + η) ∧
      ∀ i (hi : i < ties.length), |ties[i] - (e i - (start + m i * T'))| ≤ η := by
  obtain ⟨T', hp, hT'⟩ := period_default h mean dot hmean hdot sort hsort hbest compiled ht0 hN
  obtain ⟨hpos, clk, ties, start, c1, c2, c3, c4, c5, c6⟩ := clock_near h mean hmean hT' hβ hq
  have h2 := h.two
  obtain ⟨c, hc⟩ : ∃ c, n = c + 1 := ⟨n - 1, by omega⟩
  have hcons : (List.range n).map e = e 0 :: (List.range c).map fun i => e (i + 1) := by
    rw [hc, List.range_succ_eq_map, List.map_cons, List.map_map]
    rfl
  have hlast : ((List.range n).map e).getLast? = some (e (n - 1)) := by
    rw [List.getLast?_map, hc, List.range_succ, List.getLast?_concat]
    simp
  refine ⟨T', start, clk, ties, ?_, hpos, hT', ?_, c2, c3, c4, c5, c6⟩
  · unfold recoverF
    rw [hcons] at hlast c1 hp ⊢
    rw [(runF_eq R.toRounding mean _ _ _ (e 0) _ (e (n - 1)) hlast).1, hp]
    exact c1
  · have hn0 : (2 : ℚ) ≤ n := by exact_mod_cast h2
    have hn1 := (total h).2.2
    have hβ1 : 1 ≤ β := by
      have : 1 * ((n : ℚ) - 1) ≤ β * ((n : ℚ) - 1) := by linarith
      exact le_of_mul_le_mul_right this (by linarith)
    calc |T' - T| * m (n - 1) ≤ |T' - T| * (β * ((n : ℚ) - 1)) := mul_le_mul_of_nonneg_left hβ (abs_nonneg _)
      _ = β * (|T' - T| * ((n : ℚ) - 1)) := by ring
      _ ≤ β * (7 / 2 * (J + η)) := mul_le_mul_of_nonneg_left hT' (by linarith)
      _ = _ := by ring

/-- The hypotheses of `C107_recovers` are met by doubles: four edges of symbols of length 1 from 1000 on, with a jitter of a 64th, and a configured period
of 1.005. -/
example : let e : ℕ → ℚ := fun i => [1000, 1001 + 1 / 64, 1003, 1006 - 1 / 64].getD i 0
    let m : ℕ → ℤ := fun i => [0, 1, 3, 6].getD i 0
    Ticks doubles.u 3 4 e m 1000 1 (1 / 64) 2000 (10 ^ 4 * ((3 + 1) * doubles.u) * (2000 + 1)) ∧ IsMean doubles.toRounding 3 4 (meanF doubles.toRounding) ∧
    IsProd doubles.toRounding 3 4 (prodF doubles.toRounding) ∧ Reorders (fun l => l.mergeSort byScore) ∧ BestFirst (fun l => l.mergeSort byScore) ∧
    |(1005 / 1000 : ℚ) - 1| ≤ 9 / 1000 * 1 ∧ (m (4 - 1) : ℚ) ≤ 6 * (firstPoints 4 - 1 : ℕ) ∧ (m (4 - 1) : ℚ) ≤ 2 * ((4 : ℕ) - 1) ∧
    (2 + 7 / 2 * 2) * (1 / 64 + 10 ^ 4 * ((3 + 1) * doubles.u) * (2000 + 1)) ≤ 2 / 5 * (1 : ℚ) := by
  have hu : doubles.u = 1 / 2 ^ 53 := rfl
  refine ⟨?_, meanF_isMean doubles.toRounding 4, prodF_isProd doubles.toRounding 4, mergeSort_sorts.1, mergeSort_sorts.2, by norm_num [abs_of_pos],
    by norm_num [firstPoints], by norm_num, by rw [hu]; norm_num⟩
  have key : ∀ P : ℕ → Prop, P 0 → P 1 → P 2 → P 3 → ∀ i < 4, P i := by
    intro P h0 h1 h2 h3 i hi
    interval_cases i <;> assumption
  refine ⟨by norm_num, rfl, ?_, ?_, by norm_num, ?_, ?_, ?_, by norm_num, by norm_num, by rw [hu]; norm_num, by rw [hu]; norm_num, by rw [hu]; norm_num,
    by norm_num⟩
  · intro i hi
    have : i < 3 := by omega
    interval_cases i <;> simp
  · intro i hi
    have : i < 3 := by omega
    interval_cases i <;> simp
  · apply key <;> norm_num [abs_of_pos]
  · apply key <;> norm_num [abs_of_pos]
  · apply key <;> norm_num

end Verif.Props.FloatRecover
