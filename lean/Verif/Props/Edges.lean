import Verif.Props.Crossing
import Mathlib.Data.List.Chain
import Mathlib.Data.List.Forall2
import Mathlib.Tactic.IntervalCases

/-!
C06, C07: `lines.edges`, `lines.edges_np`.
-/

namespace Verif.Props.Edges

open Verif Verif.Lines Verif.Props.Crossing

/-! ### Specification -/

/-- Logic state before sample `i` of a Schmitt trigger, without any running state: low iff some earlier sample is
below the falling threshold and no sample after that one is above the rising threshold. -/
def LowBefore (y : List ℚ) (yRise yFall : ℚ) (i : ℕ) : Prop :=
  ∃ j, j < i ∧ y.getD j 0 < yFall ∧ ∀ k, j < k → k < i → ¬ y.getD k 0 > yRise

/-- Sample `i` completes a rising edge. -/
def RiseAt (y : List ℚ) (yRise yFall : ℚ) (i : ℕ) : Prop :=
  1 ≤ i ∧ i < y.length ∧ LowBefore y yRise yFall i ∧ y.getD i 0 > yRise

/-- Sample `i` completes a falling edge. -/
def FallAt (y : List ℚ) (yRise yFall : ℚ) (i : ℕ) : Prop :=
  1 ≤ i ∧ i < y.length ∧ ¬ LowBefore y yRise yFall i ∧ y.getD i 0 < yFall

/-- The time reported for an edge completed at sample `i`: the half level crossing of the nearest side change at or
before `i`; nan iff there is none. -/
def EdgeTime (t y : List ℚ) (yHalf : ℚ) (i : ℕ) : Option ℚ → Prop
  | some z => ∃ j, 1 ≤ j ∧ j ≤ i ∧ SideChange y yHalf j ∧ (∀ k, j < k → k ≤ i → ¬ SideChange y yHalf k) ∧
      Interpolates t y yHalf j z
  | none => ∀ j, 1 ≤ j → j ≤ i → ¬ SideChange y yHalf j

/-- The waveform, linearly interpolated, crosses `yHalf` upwards (`up`) or downwards at time `z`. -/
def CrossesHalf (t y : List ℚ) (yHalf : ℚ) (up : Bool) (z : ℚ) : Prop :=
  ∃ j, 1 ≤ j ∧ j < y.length ∧ t.getD (j-1) 0 ≤ z ∧ z ≤ t.getD j 0 ∧
    (z - t.getD (j-1) 0) * (y.getD j 0 - y.getD (j-1) 0)
      = (t.getD j 0 - t.getD (j-1) 0) * (yHalf - y.getD (j-1) 0) ∧
    (if up then y.getD (j-1) 0 ≤ yHalf ∧ yHalf < y.getD j 0 else y.getD j 0 ≤ yHalf ∧ yHalf < y.getD (j-1) 0)

/-- Times are strictly increasing. -/
def Increasing (t : List ℚ) : Prop := ∀ i j, i < j → j < t.length → t.getD i 0 < t.getD j 0

/-- Times of the rising (`true`) or falling (`false`) events of a time line. -/
def times (pol : Bool) (ev : List (Bool × ℚ)) : List (Option ℚ) :=
  (ev.filter (fun e => e.1 == pol)).map (fun e => some e.2)

/-! ### Support -/

theorem foldlM_range' {σ : Type} (f : σ → ℕ → Except PyErr σ) (P : ℕ → σ → Prop) (n : ℕ) :
    ∀ (m a : ℕ) (s : σ), a + m = n → P a s →
      (∀ i s, a ≤ i → i < n → P i s → ∃ s', f s i = .ok s' ∧ P (i + 1) s') →
      ∃ s', (List.range' a m).foldlM f s = .ok s' ∧ P n s' := by
  intro m
  induction m with
  | zero => intro a s h hP _; obtain rfl : a = n := by omega
            exact ⟨s, rfl, hP⟩
  | succ m ih =>
    intro a s h hP hstep
    obtain ⟨s', h1, h2⟩ := hstep a s le_rfl (by omega) hP
    obtain ⟨s'', h3, h4⟩ := ih (a + 1) s' (by omega) h2 (fun i s hi => hstep i s (by omega))
    refine ⟨s'', ?_, h4⟩
    rw [List.range'_succ, List.foldlM_cons, h1]
    exact h3

theorem lowBefore_succ (y : List ℚ) (yRise yFall : ℚ) (i : ℕ) :
    LowBefore y yRise yFall (i + 1) ↔
      y.getD i 0 < yFall ∨ (LowBefore y yRise yFall i ∧ ¬ y.getD i 0 > yRise) := by
  constructor
  · rintro ⟨j, hj, hf, hk⟩
    rcases Nat.lt_or_ge j i with h | h
    · right
      exact ⟨⟨j, h, hf, fun k h1 h2 => hk k h1 (by omega)⟩, hk i h (by omega)⟩
    · obtain rfl : j = i := by omega
      exact Or.inl hf
  · rintro (h | ⟨⟨j, hj, hf, hk⟩, hi⟩)
    · exact ⟨i, by omega, h, fun k h1 h2 => by omega⟩
    · refine ⟨j, by omega, hf, fun k h1 h2 => ?_⟩
      rcases Nat.lt_or_ge k i with h | h
      · exact hk k h1 h
      · obtain rfl : k = i := by omega
        exact hi

/-- The edge time found by `crossing` inside of the loops. -/
theorem crossing_edge (t y : List ℚ) (yHalf : ℚ) (i n : ℕ) (hlen : t.length = y.length)
    (hn : n = 0 ∨ n = y.length) (h0 : 1 ≤ i) (hi : i < y.length) :
    ∃ c : Option ℚ × ℤ, crossing t y i yHalf false n = .ok c ∧ EdgeTime t y yHalf i c.1 := by
  have he : effective n y = y.length := by
    unfold effective
    rcases hn with h | h
    · rw [if_pos h]
    · rw [if_neg (by omega), h]
  rcases C05_backward t y i n yHalf (by omega) (by omega) (by omega) (by omega) with
    ⟨j, z, h1, h2, h3, h4, h5, h6⟩ | ⟨h1, h2⟩
  · exact ⟨_, h6, j, h1, h2, h3, h4, h5⟩
  · exact ⟨_, h2, h1⟩

theorem edgesNp_eq_edges_aux (t y : List ℚ) (yRise yHalf yFall : ℚ) (hlen : t.length = y.length) :
    edgesNp t y yRise yHalf yFall = edges t y yRise yHalf yFall := by
  unfold edgesNp edges
  rw [hlen]
  have : edgeStep t y yRise yHalf yFall y.length = edgeStep t y yRise yHalf yFall 0 := by
    funext s i
    unfold edgeStep
    simp only [crossing_zero_n]
  rw [this]

/-- General invariant rule for `edges`. -/
theorem edges_inv (t y : List ℚ) (yRise yHalf yFall : ℚ) (h0 : 0 < y.length) (P : ℕ → EdgeState → Prop)
    (hinit : P 1 ⟨decide (y.getD 0 0 < yFall), [], []⟩)
    (hstep : ∀ i s, 1 ≤ i → i < y.length → P i s →
      ∃ s', edgeStep t y yRise yHalf yFall 0 s i = .ok s' ∧ P (i + 1) s') :
    ∃ s, edges t y yRise yHalf yFall = .ok (s.rise, s.fall) ∧ P y.length s := by
  obtain ⟨s, h1, h2⟩ := foldlM_range' (edgeStep t y yRise yHalf yFall 0) P y.length (y.length - 1) 1 _
    (by omega) hinit hstep
  refine ⟨s, ?_, h2⟩
  unfold edges
  rw [pyGet_ok h0]
  simp only [bind, Except.bind] at h1 ⊢
  rw [h1]
  rfl

theorem edgeStep_cases (t y : List ℚ) (yRise yHalf yFall : ℚ) (hlen : t.length = y.length) (i : ℕ)
    (h0 : 1 ≤ i) (hi : i < y.length) (s : EdgeState) :
    ∃ c, EdgeTime t y yHalf i c ∧
      edgeStep t y yRise yHalf yFall 0 s i = .ok (
        if s.low then (if y.getD i 0 > yRise then ⟨false, s.rise ++ [c], s.fall⟩ else s)
        else (if y.getD i 0 < yFall then ⟨true, s.rise, s.fall ++ [c]⟩ else s)) := by
  obtain ⟨c, hc, he⟩ := crossing_edge t y yHalf i 0 hlen (Or.inl rfl) h0 hi
  refine ⟨c.1, he, ?_⟩
  unfold edgeStep
  rw [pyGet_ok hi]
  simp only [bind, Except.bind, hc]
  split
  · split <;> rfl
  · split <;> rfl

/-! ### C07: refinement to the Schmitt trigger -/

/-- **C07.** For thresholds `yFall ≤ yRise`, `edges` succeeds on non-empty data and reports exactly the Schmitt
trigger events in order: `R` (`F`) lists the samples completing rising (falling) edges, each reported time is the
half level crossing of that event. -/
theorem C07_edges_schmitt (t y : List ℚ) (yRise yHalf yFall : ℚ) (hlen : t.length = y.length) (h0 : 0 < y.length)
    (hth : yFall ≤ yRise) :
    ∃ rises falls, edges t y yRise yHalf yFall = .ok (rises, falls) ∧
      ∃ R F : List ℕ, R.Pairwise (· < ·) ∧ F.Pairwise (· < ·) ∧
        (∀ i, i ∈ R ↔ RiseAt y yRise yFall i) ∧ (∀ i, i ∈ F ↔ FallAt y yRise yFall i) ∧
        List.Forall₂ (EdgeTime t y yHalf) R rises ∧ List.Forall₂ (EdgeTime t y yHalf) F falls := by
  obtain ⟨s, hs, _, R, F, hR, hF, hmR, hmF, hvR, hvF⟩ := edges_inv t y yRise yHalf yFall h0
    (fun i s => (s.low = true ↔ LowBefore y yRise yFall i) ∧
      ∃ R F : List ℕ, R.Pairwise (· < ·) ∧ F.Pairwise (· < ·) ∧
        (∀ k, k ∈ R ↔ RiseAt y yRise yFall k ∧ k < i) ∧ (∀ k, k ∈ F ↔ FallAt y yRise yFall k ∧ k < i) ∧
        List.Forall₂ (EdgeTime t y yHalf) R s.rise ∧ List.Forall₂ (EdgeTime t y yHalf) F s.fall)
    (by
      refine ⟨?_, [], [], by simp, by simp, ?_, ?_, by simp, by simp⟩
      · rw [lowBefore_succ]
        have : ¬ LowBefore y yRise yFall 0 := by rintro ⟨j, hj, _⟩; omega
        simp [this]
      · intro k; simp only [List.not_mem_nil, false_iff]; rintro ⟨⟨h1, _⟩, h2⟩; omega
      · intro k; simp only [List.not_mem_nil, false_iff]; rintro ⟨⟨h1, _⟩, h2⟩; omega)
    (by
      rintro i s h1 h2 ⟨hlow, R, F, hR, hF, hmR, hmF, hvR, hvF⟩
      obtain ⟨c, hc, he⟩ := edgeStep_cases t y yRise yHalf yFall hlen i h1 h2 s
      refine ⟨_, he, ?_⟩
      have key : ∀ (Q : ℕ → Prop) (k : ℕ), ¬ Q i → (Q k ∧ k < i ↔ Q k ∧ k < i + 1) := by
        intro Q k hQ
        constructor
        · rintro ⟨a, b⟩; exact ⟨a, by omega⟩
        · rintro ⟨a, b⟩
          refine ⟨a, ?_⟩
          rcases Nat.lt_or_ge k i with h | h
          · exact h
          · obtain rfl : k = i := by omega
            exact absurd a hQ
      have key2 : ∀ (Q : ℕ → Prop) (L : List ℕ) (k : ℕ), Q i → (∀ k, k ∈ L ↔ Q k ∧ k < i) →
          (k ∈ L ++ [i] ↔ Q k ∧ k < i + 1) := by
        intro Q L k hQ hL
        rw [List.mem_append, hL, List.mem_singleton]
        constructor
        · rintro (⟨a, b⟩ | rfl)
          · exact ⟨a, by omega⟩
          · exact ⟨hQ, by omega⟩
        · rintro ⟨a, b⟩
          rcases Nat.lt_or_ge k i with h | h
          · exact Or.inl ⟨a, h⟩
          · right; omega
      have key3 : ∀ (Q : ℕ → Prop) (L : List ℕ), L.Pairwise (· < ·) → (∀ k, k ∈ L ↔ Q k ∧ k < i) →
          (L ++ [i]).Pairwise (· < ·) := by
        intro Q L hp hL
        rw [List.pairwise_append]
        refine ⟨hp, by simp, ?_⟩
        intro a ha b hb
        rw [List.mem_singleton] at hb
        rw [hb]; exact ((hL a).1 ha).2
      by_cases hl : s.low = true
      · rw [if_pos hl]
        have hL := hlow.1 hl
        have hnF : ¬ FallAt y yRise yFall i := fun h => h.2.2.1 hL
        by_cases hv : y.getD i 0 > yRise
        · rw [if_pos hv]
          have hRi : RiseAt y yRise yFall i := ⟨h1, h2, hL, hv⟩
          refine ⟨?_, R ++ [i], F, key3 _ R hR hmR, hF, fun k => key2 _ R k hRi hmR,
            fun k => (hmF k).trans (key _ k hnF), ?_, hvF⟩
          · rw [lowBefore_succ]
            have : ¬ y.getD i 0 < yFall := by linarith
            exact ⟨fun h => absurd h (by simp), fun h => h.elim (fun h => absurd h this) (fun h => absurd hv h.2)⟩
          · exact List.rel_append hvR (List.Forall₂.cons hc List.Forall₂.nil)
        · rw [if_neg hv]
          have hnR : ¬ RiseAt y yRise yFall i := fun h => hv h.2.2.2
          refine ⟨?_, R, F, hR, hF, fun k => (hmR k).trans (key _ k hnR),
            fun k => (hmF k).trans (key _ k hnF), hvR, hvF⟩
          rw [lowBefore_succ]
          simp only [hl, true_iff]
          exact Or.inr ⟨hL, hv⟩
      · rw [if_neg hl]
        have hL : ¬ LowBefore y yRise yFall i := fun h => hl (hlow.2 h)
        have hnR : ¬ RiseAt y yRise yFall i := fun h => hL h.2.2.1
        by_cases hv : y.getD i 0 < yFall
        · rw [if_pos hv]
          have hFi : FallAt y yRise yFall i := ⟨h1, h2, hL, hv⟩
          refine ⟨?_, R, F ++ [i], hR, key3 _ F hF hmF, fun k => (hmR k).trans (key _ k hnR),
            fun k => key2 _ F k hFi hmF, hvR, ?_⟩
          · rw [lowBefore_succ]; exact ⟨fun _ => Or.inl hv, fun _ => rfl⟩
          · exact List.rel_append hvF (List.Forall₂.cons hc List.Forall₂.nil)
        · rw [if_neg hv]
          have hnF : ¬ FallAt y yRise yFall i := fun h => hv h.2.2.2
          refine ⟨?_, R, F, hR, hF, fun k => (hmR k).trans (key _ k hnR),
            fun k => (hmF k).trans (key _ k hnF), hvR, hvF⟩
          rw [lowBefore_succ]
          constructor
          · intro h; exact absurd h hl
          · rintro (h | ⟨h, _⟩)
            · exact absurd h hv
            · exact absurd h hL)
  refine ⟨_, _, hs, R, F, hR, hF, ?_, ?_, hvR, hvF⟩
  · intro i; rw [hmR]; exact ⟨fun h => h.1, fun h => ⟨h, h.2.1⟩⟩
  · intro i; rw [hmF]; exact ⟨fun h => h.1, fun h => ⟨h, h.2.1⟩⟩

/-- **C07.** However noisy, a waveform that stays between the thresholds has no edges. -/
theorem C07_no_edges_in_band (t y : List ℚ) (yRise yHalf yFall : ℚ) (hlen : t.length = y.length) (h0 : 0 < y.length)
    (hth : yFall ≤ yRise) (hband : ∀ v ∈ y, yFall ≤ v ∧ v ≤ yRise) :
    edges t y yRise yHalf yFall = .ok ([], []) := by
  obtain ⟨rises, falls, h, R, F, _, _, hR, hF, hvR, hvF⟩ := C07_edges_schmitt t y yRise yHalf yFall hlen h0 hth
  have hb : ∀ i, i < y.length → yFall ≤ y.getD i 0 ∧ y.getD i 0 ≤ yRise := by
    intro i hi
    have : y.getD i 0 = y[i] := by simp [hi]
    rw [this]; exact hband _ (List.getElem_mem hi)
  have hR0 : R = [] := by
    rw [List.eq_nil_iff_forall_not_mem]
    intro i hi
    obtain ⟨_, h2, _, h4⟩ := (hR i).1 hi
    linarith [(hb i h2).2]
  have hF0 : F = [] := by
    rw [List.eq_nil_iff_forall_not_mem]
    intro i hi
    obtain ⟨_, h2, _, h4⟩ := (hF i).1 hi
    linarith [(hb i h2).1]
  subst hR0; subst hF0
  rw [List.forall₂_nil_left_iff] at hvR hvF
  rw [h, hvR, hvF]

/-- `edges` of empty data raises IndexError. -/
theorem C07_empty (t : List ℚ) (yRise yHalf yFall : ℚ) : edges t [] yRise yHalf yFall = .error .indexError := rfl

/-! ### C06 / C07: time line -/

/-- An edge time after the last event at sample `p`, when `p` and `i` are on different sides of the half level. -/
theorem edge_time_between (t y : List ℚ) (yHalf : ℚ) (hlen : t.length = y.length) (hinc : Increasing t) (p i : ℕ)
    (hp : p < i) (hi : i < y.length) (up : Bool)
    (hup : if up then y.getD p 0 ≤ yHalf ∧ y.getD i 0 > yHalf else y.getD p 0 > yHalf ∧ y.getD i 0 < yHalf)
    (c : Option ℚ) (hc : EdgeTime t y yHalf i c) :
    ∃ z, c = some z ∧ t.getD p 0 ≤ z ∧ z < t.getD i 0 ∧ CrossesHalf t y yHalf up z := by
  have hmono : ∀ a b, a ≤ b → b < t.length → t.getD a 0 ≤ t.getD b 0 := by
    intro a b h1 h2
    rcases Nat.lt_or_eq_of_le h1 with h | h
    · exact (hinc a b h h2).le
    · rw [h]
  have hdiff : ∃ k, p < k ∧ k ≤ i ∧ SideChange y yHalf k := by
    by_contra hno
    push Not at hno
    have := side_const (y := y) (v := yHalf) hp.le (fun k h1 h2 h3 => hno k h1 h2 (changes_iff.1 h3))
    cases up
    · simp only [Bool.false_eq_true, if_false] at hup
      have := this.2 hup.1; linarith [hup.2]
    · simp only [if_true] at hup
      have := this.1 hup.2; linarith [hup.1]
  obtain ⟨k, hk1, hk2, hk3⟩ := hdiff
  cases c with
  | none => exact absurd hk3 (hc k (by omega) hk2)
  | some z =>
    obtain ⟨j, hj1, hj2, hj3, hj4, hj5, hj6, hj7⟩ := hc
    have hpj : p < j := by
      by_contra h
      exact hj4 k (by omega) hk2 hk3
    -- side at `j` is the side at `i`
    have hsj := side_const (y := y) (v := yHalf) hj2 (fun k h1 h2 h3 => hj4 k h1 h2 (changes_iff.1 h3))
    have htj : t.getD (j-1) 0 < t.getD j 0 := hinc (j-1) j (by omega) (by omega)
    rw [min_eq_left htj.le] at hj6
    rw [max_eq_right htj.le] at hj7
    have hji : t.getD j 0 ≤ t.getD i 0 := hmono j i hj2 (by omega)
    refine ⟨z, rfl, (hmono p (j-1) (by omega) (by omega)).trans hj6, ?_, j, hj1, by omega, hj6, hj7, hj5, ?_⟩
    · cases up
      · simp only [Bool.false_eq_true, if_false] at hup
        rcases Nat.lt_or_eq_of_le hj2 with h | h
        · exact lt_of_le_of_lt hj7 (hinc j i h (by omega))
        · subst h
          refine line_lt_right htj hj5 ?_
          right
          rcases hj3 with h | h
          · linarith [h.2, hup.2]
          · exact ⟨hup.2, h.2⟩
      · simp only [if_true] at hup
        refine lt_of_lt_of_le (line_lt_right htj hj5 ?_) hji
        left
        rcases hj3 with h | h
        · exact h
        · have := hsj.1 hup.2; linarith [h.1]
    · cases up
      · simp only [Bool.false_eq_true, if_false] at hup ⊢
        rcases hj3 with h | h
        · have := hsj.2 h.2; linarith [hup.2]
        · exact h
      · simp only [if_true] at hup ⊢
        rcases hj3 with h | h
        · exact h
        · have := hsj.1 hup.2; linarith [h.1]

theorem times_append (pol : Bool) (ev : List (Bool × ℚ)) (e : Bool × ℚ) :
    times pol (ev ++ [e]) = times pol ev ++ (if e.1 == pol then [some e.2] else []) := by
  unfold times
  rw [List.filter_append, List.map_append]
  congr 1
  by_cases h : e.1 == pol <;> simp [h]

theorem chain_snoc (ev : List (Bool × ℚ)) (e : Bool × ℚ) (h : ev.IsChain (fun a b => a.1 ≠ b.1))
    (hl : ∀ x ∈ ev.getLast?, x.1 ≠ e.1) : (ev ++ [e]).IsChain (fun a b => a.1 ≠ b.1) := by
  rw [List.isChain_append]
  refine ⟨h, List.isChain_singleton _, ?_⟩
  intro x hx y hy
  simp at hy
  subst hy
  exact hl x hx

/-- The first sample that is outside of the band from `yFall` to `yHalf` is sample `i`. -/
def LeavesBand (y : List ℚ) (yFall yHalf : ℚ) (i : ℕ) : Prop :=
  i < y.length ∧ (y.getD i 0 < yFall ∨ yHalf < y.getD i 0) ∧ ∀ k < i, yFall ≤ y.getD k 0 ∧ y.getD k 0 ≤ yHalf

theorem leaves_unique {y : List ℚ} {yFall yHalf : ℚ} {i j : ℕ} (hi : LeavesBand y yFall yHalf i) (hj : LeavesBand y yFall yHalf j) :
    i = j := by
  rcases lt_trichotomy i j with h | h | h
  · have := hj.2.2 i h
    rcases hi.2.1 with h | h <;> linarith
  · exact h
  · have := hi.2.2 j h
    rcases hj.2.1 with h | h <;> linarith

/-- **C06, C07.** Exactly what `edges` reports, for any start: a time line of events, strictly increasing in time, alternating in polarity, at each of
which the linearly interpolated waveform crosses the half level in that direction; and in addition a falling edge at nan, before all others, exactly if
the waveform starts from `yFall` to `yHalf` and leaves this band downwards.  The next edge is then a rising one. -/
theorem C06_C07_timeline (t y : List ℚ) (yRise yHalf yFall : ℚ) (hlen : t.length = y.length)
    (h0 : 0 < y.length) (hinc : Increasing t) (h1 : yFall ≤ yHalf) (h2 : yHalf ≤ yRise) :
    ∃ (pre : List (Option ℚ)) (ev : List (Bool × ℚ)), edges t y yRise yHalf yFall = .ok (times true ev, pre ++ times false ev) ∧
      ev.Pairwise (fun a b => a.2 < b.2) ∧ ev.IsChain (fun a b => a.1 ≠ b.1) ∧
      (∀ e ∈ ev, CrossesHalf t y yHalf e.1 e.2) ∧
      ((pre = [none] ∧ (∀ e ∈ ev.head?, e.1 = true) ∧ ∃ i, 1 ≤ i ∧ LeavesBand y yFall yHalf i ∧ y.getD i 0 < yFall) ∨
        (pre = [] ∧ ¬ ∃ i, 1 ≤ i ∧ LeavesBand y yFall yHalf i ∧ y.getD i 0 < yFall)) := by
  obtain ⟨s, hs, hfin⟩ := edges_inv t y yRise yHalf yFall h0
    (fun i s => (s.low = false ∧ s.rise = [] ∧ s.fall = [] ∧ ∀ k < i, yFall ≤ y.getD k 0 ∧ y.getD k 0 ≤ yHalf) ∨
      ∃ (p : ℕ) (pre : List (Option ℚ)) (ev : List (Bool × ℚ)), p < i ∧ (∀ e ∈ ev, e.2 < t.getD p 0) ∧
      (s.low = true → y.getD p 0 < yFall) ∧ (s.low = false → yHalf < y.getD p 0) ∧
      s.rise = times true ev ∧ s.fall = pre ++ times false ev ∧
      ev.Pairwise (fun a b => a.2 < b.2) ∧ ev.IsChain (fun a b => a.1 ≠ b.1) ∧
      (∀ e ∈ ev, CrossesHalf t y yHalf e.1 e.2) ∧ (∀ e ∈ ev.getLast?, e.1 = !s.low) ∧
      ((pre = [none] ∧ (ev = [] → s.low = true) ∧ (∀ e ∈ ev.head?, e.1 = true) ∧
          ∃ i, 1 ≤ i ∧ LeavesBand y yFall yHalf i ∧ y.getD i 0 < yFall) ∨
        (pre = [] ∧ ∃ i, LeavesBand y yFall yHalf i ∧ (i = 0 ∨ yHalf < y.getD i 0))))
    (by
      by_cases hb : yFall ≤ y.getD 0 0 ∧ y.getD 0 0 ≤ yHalf
      · left
        refine ⟨by simpa using hb.1, rfl, rfl, fun k hk => ?_⟩
        obtain rfl : k = 0 := by omega
        exact hb
      · right
        have hout : y.getD 0 0 < yFall ∨ yHalf < y.getD 0 0 := by
          by_contra hc
          push Not at hc
          exact hb hc
        refine ⟨0, [], [], by omega, by simp, ?_, ?_, rfl, rfl, by simp, by simp, by simp, by simp,
          .inr ⟨rfl, 0, ⟨h0, hout, fun k hk => by omega⟩, .inl rfl⟩⟩
        · intro h; simpa using h
        · intro h
          have : ¬ y.getD 0 0 < yFall := by simpa using h
          exact hout.resolve_left this)
    (by
      rintro i s hi1 hi2 hinv
      obtain ⟨c, hc, he⟩ := edgeStep_cases t y yRise yHalf yFall hlen i hi1 hi2 s
      refine ⟨_, he, ?_⟩
      rcases hinv with ⟨hl, hr, hf, hband⟩ | ⟨p, pre, ev, hp, hlt, hlo, hhi, hr, hf, hpw, hch, hcr, hla, hpre⟩
      · rw [hl, if_neg (by simp)]
        by_cases hv : y.getD i 0 < yFall
        · rw [if_pos hv]
          have hcn : c = none := by
            cases c with
            | none => rfl
            | some z =>
              obtain ⟨j, hj1, hj2, hj3, -⟩ := hc
              have hle : ∀ k ≤ i, y.getD k 0 ≤ yHalf := by
                intro k hk
                rcases hk.lt_or_eq with h | rfl
                · exact (hband k h).2
                · linarith
              have a1 := hle j hj2
              have a2 := hle (j - 1) (by omega)
              rcases hj3 with h | h <;> linarith [h.1, h.2]
          right
          refine ⟨i, [none], [], by omega, by simp, fun _ => hv, by simp, by simp [hr, times], by simp [hf, hcn, times], by simp, by simp, by simp,
            by simp, .inl ⟨rfl, fun _ => rfl, by simp, i, hi1, ⟨hi2, .inl hv, hband⟩, hv⟩⟩
        · rw [if_neg hv]
          push Not at hv
          rcases le_or_gt (y.getD i 0) yHalf with hh | hh
          · left
            refine ⟨hl, hr, hf, fun k hk => ?_⟩
            rcases (Nat.lt_succ_iff.1 hk).lt_or_eq with h | rfl
            · exact hband k h
            · exact ⟨hv, hh⟩
          · right
            exact ⟨i, [], [], by omega, by simp, by simp [hl], fun _ => hh, by simp [hr, times], by simp [hf, times], by simp, by simp, by simp,
              by simp, .inr ⟨rfl, i, ⟨hi2, .inr hh, hband⟩, .inr hh⟩⟩
      right
      have hpre' : ∀ (z : ℚ) (b : Bool), s.low = b →
          ((pre = [none] ∧ (ev ++ [(b, z)] = [] → (!b) = true) ∧ (∀ e ∈ (ev ++ [(b, z)]).head?, e.1 = true) ∧
            ∃ i, 1 ≤ i ∧ LeavesBand y yFall yHalf i ∧ y.getD i 0 < yFall) ∨
          (pre = [] ∧ ∃ i, LeavesBand y yFall yHalf i ∧ (i = 0 ∨ yHalf < y.getD i 0))) := by
        intro z b hb
        rcases hpre with ⟨e, h3, h4, h5⟩ | h
        · refine .inl ⟨e, by simp, ?_, h5⟩
          cases ev with
          | nil => intro e he; simp at he; subst he; rw [← hb]; exact h3 rfl
          | cons e0 l => intro e he; exact h4 e (by simpa using he)
        · exact .inr h
      have hmono : ∀ z, t.getD p 0 ≤ z → ∀ e ∈ ev, e.2 < z := fun z hz e he => lt_of_lt_of_le (hlt e he) hz
      have hpw' : ∀ (b : Bool) z, t.getD p 0 ≤ z → (ev ++ [(b, z)]).Pairwise (fun a b => a.2 < b.2) := by
        intro b z hz
        rw [List.pairwise_append]
        refine ⟨hpw, by simp, ?_⟩
        intro a ha b hb
        rw [List.mem_singleton] at hb
        rw [hb]; exact hmono z hz a ha
      have hlt' : ∀ (b : Bool) z, z < t.getD i 0 → ∀ e ∈ ev ++ [(b, z)], e.2 < t.getD i 0 := by
        intro b z hz e he
        rw [List.mem_append, List.mem_singleton] at he
        rcases he with he | rfl
        · exact (hlt e he).trans (hinc p i hp (by omega))
        · exact hz
      by_cases hl : s.low = true
      · rw [if_pos hl]
        by_cases hv : y.getD i 0 > yRise
        · rw [if_pos hv]
          obtain ⟨z, rfl, hz1, hz2, hz3⟩ := edge_time_between t y yHalf hlen hinc p i hp hi2 true
            (by simp only [if_true]; constructor <;> linarith [hlo hl]) c hc
          refine ⟨i, pre, ev ++ [(true, z)], by omega, hlt' true z hz2, by simp, fun _ => by linarith, ?_, ?_,
            hpw' true z hz1, chain_snoc ev _ hch ?_, ?_, ?_, hpre' z true hl⟩
          · simp [times_append, hr]
          · simp [times_append, hf]
          · intro x hx; rw [hla x hx, hl]; simp
          · intro e he
            rw [List.mem_append, List.mem_singleton] at he
            rcases he with he | rfl
            · exact hcr e he
            · exact hz3
          · simp
        · rw [if_neg hv]
          exact ⟨p, pre, ev, by omega, hlt, hlo, hhi, hr, hf, hpw, hch, hcr, hla, hpre⟩
      · rw [if_neg hl]
        have hlf : s.low = false := by simpa using hl
        by_cases hv : y.getD i 0 < yFall
        · rw [if_pos hv]
          obtain ⟨z, rfl, hz1, hz2, hz3⟩ := edge_time_between t y yHalf hlen hinc p i hp hi2 false
            (by simp only [Bool.false_eq_true, if_false]; constructor <;> linarith [hhi hlf]) c hc
          refine ⟨i, pre, ev ++ [(false, z)], by omega, hlt' false z hz2, fun _ => hv, by simp, ?_, ?_,
            hpw' false z hz1, chain_snoc ev _ hch ?_, ?_, ?_, hpre' z false hlf⟩
          · simp [times_append, hr]
          · simp [times_append, hf]
          · intro x hx; rw [hla x hx, hlf]; simp
          · intro e he
            rw [List.mem_append, List.mem_singleton] at he
            rcases he with he | rfl
            · exact hcr e he
            · exact hz3
          · simp
        · rw [if_neg hv]
          exact ⟨p, pre, ev, by omega, hlt, hlo, hhi, hr, hf, hpw, hch, hcr, hla, hpre⟩)
  rcases hfin with ⟨-, hr, hf, hband⟩ | ⟨p, pre, ev, _, _, _, _, hr, hf, hpw, hch, hcr, _, hpre⟩
  · refine ⟨[], [], by rw [hs, hr, hf]; rfl, by simp, by simp, by simp, .inr ⟨rfl, ?_⟩⟩
    rintro ⟨i, -, hl, h⟩
    have := hband i hl.1
    linarith
  · refine ⟨pre, ev, by rw [hs, hr, hf], hpw, hch, hcr, ?_⟩
    rcases hpre with ⟨e, -, hh, hi⟩ | ⟨e, i, hi, hi'⟩
    · exact .inl ⟨e, hh, hi⟩
    · refine .inr ⟨e, ?_⟩
      rintro ⟨j, hj1, hj, hjf⟩
      obtain rfl := leaves_unique hi hj
      rcases hi' with h | h
      · omega
      · linarith

/-- **C06, C07 (partial: the waveform must not start between `yFall` and `yHalf`, see
`C06_first_edge_fails`).** All reported edge times are finite, there is a single time line of events, strictly
increasing in time, alternating in polarity, whose rising (falling) times are exactly the reported ones; at each
of these times the linearly interpolated waveform crosses the half level in that direction. -/
theorem C06_C07_timeline_partial (t y : List ℚ) (yRise yHalf yFall : ℚ) (hlen : t.length = y.length)
    (h0 : 0 < y.length) (hinc : Increasing t) (h1 : yFall ≤ yHalf) (h2 : yHalf ≤ yRise)
    (hstart : y.getD 0 0 < yFall ∨ yHalf < y.getD 0 0) :
    ∃ ev : List (Bool × ℚ), edges t y yRise yHalf yFall = .ok (times true ev, times false ev) ∧
      ev.Pairwise (fun a b => a.2 < b.2) ∧ ev.IsChain (fun a b => a.1 ≠ b.1) ∧
      ∀ e ∈ ev, CrossesHalf t y yHalf e.1 e.2 := by
  obtain ⟨pre, ev, he, h3, h4, h5, ⟨-, -, i, hi, hl, -⟩ | ⟨rfl, -⟩⟩ := C06_C07_timeline t y yRise yHalf yFall hlen h0 hinc h1 h2
  · have := hl.2.2 0 (by omega)
    rcases hstart with h | h <;> linarith
  · exact ⟨ev, he, h3, h4, h5⟩

/-- **C06 fails in general**: a waveform starting between the falling threshold and the half level, then dropping
below the falling threshold, is reported as a falling edge at time nan although it never was above the half
level. -/
theorem C06_first_edge_fails :
    edges [0, 1] [-1/2, -2] 1 0 (-1) = .ok ([], [none]) := by decide +kernel

/-- **C06 (general form).** Without the start condition, the only possible nan is a falling edge before which
the waveform never was above the half level. -/
theorem C06_nan_only_initial (t y : List ℚ) (yRise yHalf yFall : ℚ) (hlen : t.length = y.length) (h0 : 0 < y.length)
    (h1 : yFall ≤ yHalf) (h2 : yHalf ≤ yRise) :
    ∃ rises falls, edges t y yRise yHalf yFall = .ok (rises, falls) ∧ (none ∉ rises) ∧
      (none ∈ falls → ∃ i, FallAt y yRise yFall i ∧ ∀ k ≤ i, y.getD k 0 ≤ yHalf) := by
  obtain ⟨rises, falls, h, R, F, _, _, hR, hF, hvR, hvF⟩ :=
    C07_edges_schmitt t y yRise yHalf yFall hlen h0 (h1.trans h2)
  have nochange : ∀ i, EdgeTime t y yHalf i none → ∀ k ≤ i, (y.getD i 0 > yHalf ↔ y.getD k 0 > yHalf) := by
    intro i he k hk
    exact side_const hk (fun j hj1 hj2 hj3 => he j (by omega) hj2 (changes_iff.1 hj3))
  have mem2 : ∀ (L : List ℕ) (V : List (Option ℚ)), List.Forall₂ (EdgeTime t y yHalf) L V → none ∈ V →
      ∃ i ∈ L, EdgeTime t y yHalf i none := by
    intro L V hLV
    induction hLV with
    | nil => intro h; simp at h
    | cons hab _ ih =>
      intro hmem
      rw [List.mem_cons] at hmem
      rcases hmem with rfl | hmem
      · exact ⟨_, by simp, hab⟩
      · obtain ⟨i, hi, he⟩ := ih hmem
        exact ⟨i, List.mem_cons_of_mem _ hi, he⟩
  refine ⟨rises, falls, h, ?_, ?_⟩
  · intro hn
    obtain ⟨i, hi, he⟩ := mem2 R rises hvR hn
    obtain ⟨_, _, ⟨j, hj, hjf, _⟩, h4⟩ := (hR i).1 hi
    have := (nochange i he j hj.le).1 (by linarith)
    linarith
  · intro hn
    obtain ⟨i, hi, he⟩ := mem2 F falls hvF hn
    have hfi := (hF i).1 hi
    refine ⟨i, hfi, fun k hk => ?_⟩
    by_contra hc
    push Not at hc
    have := (nochange i he k hk).2 hc
    linarith [hfi.2.2.2]

/-- **C07/C12.** `edges_np` equals `edges` for arrays of equal length. -/
theorem C07_edges_np (t y : List ℚ) (yRise yHalf yFall : ℚ) (hlen : t.length = y.length) :
    edgesNp t y yRise yHalf yFall = edges t y yRise yHalf yFall :=
  edgesNp_eq_edges_aux t y yRise yHalf yFall hlen

/-- The hypotheses are met by a waveform with noise in the band and both kinds of edges. -/
example : edges [0, 1, 2, 3, 4, 5] [-2, 1/2, 2, 1/2, -1/2, -2] 1 0 (-1) = .ok ([some (4/5)], [some (7/2)]) ∧
    Increasing [0, 1, 2, 3, 4, 5] ∧ ([-2, 1/2, 2, 1/2, -1/2, -2] : List ℚ).getD 0 0 < -1 := by
  refine ⟨by decide +kernel, ?_, by norm_num⟩
  intro i j hij hj
  simp at hj
  interval_cases j <;> interval_cases i <;> norm_num

example : edges [0, 1, 2] [1/2, -1/2, 1] 1 0 (-1) = .ok ([], []) := by decide +kernel

/-- Both cases of `C06_C07_timeline` occur: a start in the band that is left downwards, with further edges, and one left upwards. -/
example : edges [0, 1, 2, 3] [-1/2, -2, 2, -2] 1 0 (-1) = .ok ([some (3/2)], [none, some (5/2)]) ∧
    edges [0, 1, 2, 3] [-1/2, 2, -2, 2] 1 0 (-1) = .ok ([some (5/2)], [some (3/2)]) := by decide +kernel

end Verif.Props.Edges
