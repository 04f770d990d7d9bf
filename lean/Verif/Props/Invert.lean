import Verif.Props.Affine
import Verif.Props.Edges

/-!
C92: inverting a signal exchanges rising and falling edges.
-/

namespace Verif.Props.Invert

open Verif Verif.Lines Verif.Eye Verif.Props Verif.Props.Affine Verif.Props.Edges Verif.Props.Crossing

/-! ### Specification -/

/-- The values of a signal turned upside down: `σ - v`. -/
def inv (σ : ℚ) (v : ℚ) : ℚ := aff (-1) σ v

theorem inv_eq (σ v : ℚ) : inv σ v = σ - v := by unfold inv aff; ring

/-- Sample `k` is the first one outside of the band between the thresholds. -/
def FirstOut (y : List ℚ) (yRise yFall : ℚ) (k : ℕ) : Prop :=
  k < y.length ∧ (y.getD k 0 < yFall ∨ yRise < y.getD k 0) ∧ ∀ j < k, yFall ≤ y.getD j 0 ∧ y.getD j 0 ≤ yRise

/-- What the edges `(R', F')` of the inverted signal are, from those of the signal `(R, F)`: exchanged, but the edge with which a signal that starts
between the thresholds leaves them is found only where it is a falling edge. -/
structure Exchanged (y : List ℚ) (yRise yFall : ℚ) (R F R' F' : List (Option ℚ)) : Prop where
  outside : FirstOut y yRise yFall 0 → R' = F ∧ F' = R
  down : ∀ k, FirstOut y yRise yFall (k + 1) → y.getD (k + 1) 0 < yFall → ∃ c, F = c :: R' ∧ F' = R
  up : ∀ k, FirstOut y yRise yFall (k + 1) → yRise < y.getD (k + 1) 0 → ∃ c, F' = c :: R ∧ R' = F
  never : (∀ k, ¬ FirstOut y yRise yFall k) → R = [] ∧ F = [] ∧ R' = [] ∧ F' = []

/-! ### Crossings -/

theorem crossLoop_inv (σ : ℚ) (srch : List ℚ) (value : ℚ) (hne : ∀ v ∈ srch, v ≠ value) (fwd : Bool) (n fuel : ℕ) (i : ℤ) :
    crossLoop (srch.map (inv σ)) (inv σ value) fwd n fuel i = crossLoop srch value fwd n fuel i := by
  have hmem : ∀ (k : ℕ) (a : ℚ), pyGet srch k = .ok a → a ∈ srch := by
    intro k a h
    unfold pyGet at h
    cases hk : srch[k]? with
    | none => rw [hk] at h; cases h
    | some b => rw [hk] at h; obtain rfl := Except.ok.inj h; exact List.mem_of_getElem? hk
  induction fuel generalizing i with
  | zero => rfl
  | succ fuel ih =>
    unfold crossLoop
    simp only [pyGet_map, ih]
    cases h1 : pyGet srch i.toNat with
    | error e => rfl
    | ok a =>
      cases h2 : pyGet srch (i.toNat - 1) with
      | error e => rfl
      | ok b =>
        have key : ∀ x : ℚ, x ≠ value → decide (inv σ x > inv σ value) = !decide (x > value) := by
          intro x hx
          rw [inv_eq, inv_eq, ← decide_not]
          congr 1
          rw [eq_iff_iff, not_lt, gt_iff_lt, sub_lt_sub_iff_left]
          exact ⟨le_of_lt, fun h => lt_of_le_of_ne h hx⟩
        simp only [Except.map, bind, Except.bind, key a (hne a (hmem _ _ h1)), key b (hne b (hmem _ _ h2))]
        cases decide (a > value) <;> cases decide (b > value) <;> rfl

theorem crossing_inv (σ : ℚ) (ret srch : List ℚ) (i : ℤ) (value : ℚ) (hne : ∀ v ∈ srch, v ≠ value) (fwd : Bool) (n : ℕ) :
    crossing ret (srch.map (inv σ)) i (inv σ value) fwd n = crossing ret srch i value fwd n := by
  unfold crossing
  simp only [List.length_map, crossLoop_inv σ srch value hne, pyGet_map]
  congr 1
  funext j
  congr 1
  cases pyGet ret (j.toNat - 1) <;> cases pyGet ret j.toNat <;> cases pyGet srch (j.toNat - 1) <;> cases pyGet srch j.toNat <;>
    simp only [Except.map, bind, Except.bind, inv, aff_sub]
  rename_i x1 x2 y1 y2
  congr 4
  rw [div_mul_eq_mul_div, div_mul_eq_mul_div, show (x2 - x1) * (-1 * (value - y1)) = -1 * ((x2 - x1) * (value - y1)) by ring,
    mul_div_mul_left _ _ (by norm_num)]

/-! ### Edges -/

/-- One sample, with the time `c` if an edge is complete. -/
def pureStep (yRise yFall : ℚ) (s : EdgeState) (v : ℚ) (c : Option ℚ) : EdgeState :=
  if s.low then (if v > yRise then ⟨false, s.rise ++ [c], s.fall⟩ else s) else (if v < yFall then ⟨true, s.rise, s.fall ++ [c]⟩ else s)

/-- The time that `crossing` finds. -/
def timeAt (t y : List ℚ) (yHalf : ℚ) (i : ℕ) : Option ℚ :=
  match crossing t y i yHalf false 0 with
  | .ok c => c.1
  | .error _ => none

theorem step_eq (t y : List ℚ) (yRise yHalf yFall : ℚ) (hlen : t.length = y.length) (i : ℕ) (h0 : 1 ≤ i) (hi : i < y.length) (s : EdgeState) :
    edgeStep t y yRise yHalf yFall 0 s i = .ok (pureStep yRise yFall s (y.getD i 0) (timeAt t y yHalf i)) := by
  obtain ⟨c, hc, -⟩ := crossing_edge t y yHalf i 0 hlen (Or.inl rfl) h0 hi
  unfold edgeStep pureStep timeAt
  rw [pyGet_ok hi]
  simp only [bind, Except.bind, hc]
  split
  · split <;> rfl
  · split <;> rfl

/-- The two runs side by side before sample `i`. -/
def Side (y : List ℚ) (yRise yFall : ℚ) (c : ℕ → Option ℚ) (i : ℕ) (s s' : EdgeState) : Prop :=
  ((∀ j < i, yFall ≤ y.getD j 0 ∧ y.getD j 0 ≤ yRise) ∧ s = ⟨false, [], []⟩ ∧ s' = ⟨false, [], []⟩) ∨
  (s'.low = !s.low ∧ ∃ k < i, FirstOut y yRise yFall k ∧
    ((k = 0 ∧ s'.rise = s.fall ∧ s'.fall = s.rise) ∨
     (0 < k ∧ y.getD k 0 < yFall ∧ s.fall = c k :: s'.rise ∧ s'.fall = s.rise) ∨
     (0 < k ∧ yRise < y.getD k 0 ∧ s'.fall = c k :: s.rise ∧ s'.rise = s.fall)))

theorem side_step (σ : ℚ) (y : List ℚ) (yRise yFall : ℚ) (hth : yFall ≤ yRise) (c : ℕ → Option ℚ) (i : ℕ) (h0 : 1 ≤ i) (hi : i < y.length)
    (s s' : EdgeState) (h : Side y yRise yFall c i s s') :
    Side y yRise yFall c (i + 1) (pureStep yRise yFall s (y.getD i 0) (c i)) (pureStep (inv σ yFall) (inv σ yRise) s' (inv σ (y.getD i 0)) (c i)) := by
  have e1 : (inv σ (y.getD i 0) > inv σ yFall) = (y.getD i 0 < yFall) := by rw [inv_eq, inv_eq, gt_iff_lt, sub_lt_sub_iff_left]
  have e2 : (inv σ (y.getD i 0) < inv σ yRise) = (yRise < y.getD i 0) := by rw [inv_eq, inv_eq, sub_lt_sub_iff_left]
  unfold pureStep
  simp only [e1, e2, gt_iff_lt]
  rcases h with ⟨hb, rfl, rfl⟩ | ⟨hl, k, hk, hf, hc⟩
  · simp only [Bool.false_eq_true, if_false]
    by_cases hlo : y.getD i 0 < yFall
    · have hhi : ¬ yRise < y.getD i 0 := by linarith
      rw [if_pos hlo, if_neg hhi]
      exact .inr ⟨rfl, i, by omega, ⟨hi, .inl hlo, hb⟩, .inr (.inl ⟨by omega, hlo, rfl, rfl⟩)⟩
    · rw [if_neg hlo]
      by_cases hhi : yRise < y.getD i 0
      · rw [if_pos hhi]
        exact .inr ⟨rfl, i, by omega, ⟨hi, .inr hhi, hb⟩, .inr (.inr ⟨by omega, hhi, rfl, rfl⟩)⟩
      · rw [if_neg hhi]
        refine .inl ⟨fun j hj => ?_, rfl, rfl⟩
        rcases Nat.lt_succ_iff_lt_or_eq.1 hj with h | rfl
        · exact hb j h
        · exact ⟨not_lt.1 hlo, not_lt.1 hhi⟩
  · right
    obtain ⟨low, R, F⟩ := s
    obtain ⟨low', R', F'⟩ := s'
    simp only at hl hc
    subst hl
    cases low with
    | true =>
      simp only [if_true, Bool.not_true, Bool.false_eq_true, if_false]
      by_cases hhi : yRise < y.getD i 0
      · rw [if_pos hhi, if_pos hhi]
        refine ⟨rfl, k, by omega, hf, ?_⟩
        rcases hc with ⟨a, b, d⟩ | ⟨a, a', b, d⟩ | ⟨a, a', b, d⟩
        · exact .inl ⟨a, b, by simp [d]⟩
        · exact .inr (.inl ⟨a, a', b, by simp [d]⟩)
        · exact .inr (.inr ⟨a, a', by simp [b], d⟩)
      · rw [if_neg hhi, if_neg hhi]
        exact ⟨rfl, k, by omega, hf, hc⟩
    | false =>
      simp only [if_true, Bool.not_false, Bool.false_eq_true, if_false]
      by_cases hlo : y.getD i 0 < yFall
      · rw [if_pos hlo, if_pos hlo]
        refine ⟨rfl, k, by omega, hf, ?_⟩
        rcases hc with ⟨a, b, d⟩ | ⟨a, a', b, d⟩ | ⟨a, a', b, d⟩
        · exact .inl ⟨a, by simp [b], d⟩
        · exact .inr (.inl ⟨a, a', by simp [b], d⟩)
        · exact .inr (.inr ⟨a, a', b, by simp [d]⟩)
      · rw [if_neg hlo, if_neg hlo]
        exact ⟨rfl, k, by omega, hf, hc⟩

theorem firstOut_unique {y : List ℚ} {yRise yFall : ℚ} {i j : ℕ} (hi : FirstOut y yRise yFall i) (hj : FirstOut y yRise yFall j) : i = j := by
  have key : ∀ i j, FirstOut y yRise yFall i → FirstOut y yRise yFall j → ¬ i < j := by
    rintro i j ⟨-, h, -⟩ ⟨-, -, h'⟩ hij
    obtain ⟨a, b⟩ := h' i hij
    rcases h with h | h <;> linarith
  exact le_antisymm (not_lt.1 (key j i hj hi)) (not_lt.1 (key i j hi hj))

/-- **C92.** The edges of a signal turned upside down, with the thresholds turned likewise, are those of the signal with rising and falling edges
exchanged, at the same times.  A signal that starts between the thresholds is taken to be high either way, so the edge with which it leaves them is found
only if it is a falling one.  No sample is at the half level exactly. -/
theorem C92_edges_partial (σ : ℚ) (t y : List ℚ) (yRise yHalf yFall : ℚ) (hlen : t.length = y.length) (h0 : 0 < y.length) (hth : yFall ≤ yRise)
    (hne : ∀ v ∈ y, v ≠ yHalf) : ∃ R F R' F', edges t y yRise yHalf yFall = .ok (R, F) ∧
      edges t (y.map (inv σ)) (inv σ yFall) (inv σ yHalf) (inv σ yRise) = .ok (R', F') ∧ Exchanged y yRise yFall R F R' F' := by
  have hget : ∀ i < y.length, (y.map (inv σ)).getD i 0 = inv σ (y.getD i 0) := by
    intro i hi
    rw [List.getD_eq_getElem _ _ (by simpa using hi), List.getD_eq_getElem _ _ hi, List.getElem_map]
  have htime : ∀ i : ℕ, timeAt t (y.map (inv σ)) (inv σ yHalf) i = timeAt t y yHalf i := by
    intro i
    unfold timeAt
    rw [crossing_inv σ t y i yHalf hne]
  have run : ∀ (m a : ℕ) (s s' : EdgeState), 1 ≤ a → a + m = y.length → Side y yRise yFall (timeAt t y yHalf) a s s' →
      ∃ z z', (List.range' a m).foldlM (edgeStep t y yRise yHalf yFall 0) s = .ok z ∧
        (List.range' a m).foldlM (edgeStep t (y.map (inv σ)) (inv σ yFall) (inv σ yHalf) (inv σ yRise) 0) s' = .ok z' ∧
        Side y yRise yFall (timeAt t y yHalf) y.length z z' := by
    intro m
    induction m with
    | zero => intro a s s' _ h hs; obtain rfl : a = y.length := by omega
              exact ⟨s, s', rfl, rfl, hs⟩
    | succ m ih =>
      intro a s s' ha h hs
      obtain ⟨z, z', h1, h2, h3⟩ := ih (a + 1) _ _ (by omega) (by omega) (side_step σ y yRise yFall hth (timeAt t y yHalf) a ha (by omega) s s' hs)
      refine ⟨z, z', ?_, ?_, h3⟩
      · rw [List.range'_succ, List.foldlM_cons, step_eq t y yRise yHalf yFall hlen a ha (by omega)]
        exact h1
      · rw [List.range'_succ, List.foldlM_cons, step_eq t (y.map (inv σ)) _ _ _ (by simpa using hlen) a ha (by simp; omega), htime,
          hget a (by omega)]
        exact h2
  obtain ⟨s, s', h1, h2, hs⟩ := run (y.length - 1) 1 ⟨decide (y.getD 0 0 < yFall), [], []⟩ ⟨decide (inv σ (y.getD 0 0) < inv σ yRise), [], []⟩
    le_rfl (by omega) (by
      have e2 : (inv σ (y.getD 0 0) < inv σ yRise) = (yRise < y.getD 0 0) := by rw [inv_eq, inv_eq, sub_lt_sub_iff_left]
      rw [show decide (inv σ (y.getD 0 0) < inv σ yRise) = decide (yRise < y.getD 0 0) from decide_eq_decide.2 (iff_of_eq e2)]
      by_cases hlo : y.getD 0 0 < yFall
      · have hhi : ¬ yRise < y.getD 0 0 := by linarith
        exact .inr ⟨by simp only [hlo, hhi]; rfl, 0, by omega, ⟨h0, .inl hlo, by simp⟩, .inl ⟨rfl, rfl, rfl⟩⟩
      · by_cases hhi : yRise < y.getD 0 0
        · exact .inr ⟨by simp only [hlo, hhi]; rfl, 0, by omega, ⟨h0, .inr hhi, by simp⟩, .inl ⟨rfl, rfl, rfl⟩⟩
        · refine .inl ⟨fun j hj => ?_, by simp only [hlo]; rfl, by simp only [hhi]; rfl⟩
          obtain rfl : j = 0 := by omega
          exact ⟨not_lt.1 hlo, not_lt.1 hhi⟩)
  refine ⟨s.rise, s.fall, s'.rise, s'.fall, ?_, ?_, ?_⟩
  · unfold edges
    rw [pyGet_ok h0]
    simp only [bind, Except.bind] at h1 ⊢
    rw [h1]
    rfl
  · unfold edges
    rw [pyGet_ok (by simpa using h0), hget 0 h0]
    simp only [bind, Except.bind, List.length_map] at h2 ⊢
    rw [h2]
    rfl
  · rcases hs with ⟨hb, rfl, rfl⟩ | ⟨-, k, -, hf, hc⟩
    · have hno : ∀ k, ¬ FirstOut y yRise yFall k := by
        rintro k ⟨h, h', -⟩
        obtain ⟨a, b⟩ := hb k h
        rcases h' with h' | h' <;> linarith
      exact ⟨fun h => absurd h (hno 0), fun k h => absurd h (hno _), fun k h => absurd h (hno _), fun _ => ⟨rfl, rfl, rfl, rfl⟩⟩
    · refine ⟨fun h => ?_, fun j h hv => ?_, fun j h hv => ?_, fun h => absurd hf (h k)⟩
      · obtain rfl := firstOut_unique hf h
        rcases hc with ⟨-, a, b⟩ | ⟨a, -⟩ | ⟨a, -⟩
        · exact ⟨a, b⟩
        · omega
        · omega
      · obtain rfl := firstOut_unique hf h
        rcases hc with ⟨a, -⟩ | ⟨-, -, a, b⟩ | ⟨-, a, -⟩
        · omega
        · exact ⟨_, a, b⟩
        · linarith
      · obtain rfl := firstOut_unique hf h
        rcases hc with ⟨a, -⟩ | ⟨-, a, -⟩ | ⟨-, -, a, b⟩
        · omega
        · linarith
        · exact ⟨_, a, b⟩

/-- **C92 fails** for samples at the half level: the touch of the half level counts as a crossing on one side only, so the time of the edge is another one
for the inverted signal. -/
theorem C92_touch_fails : ∃ (t y : List ℚ) (yRise yHalf yFall : ℚ) (r r' : ℚ), yFall < yHalf ∧ yHalf < yRise ∧ y.getD 0 0 < yFall ∧
    edges t y yRise yHalf yFall = .ok ([some r], []) ∧ edges t (y.map (inv 0)) (inv 0 yFall) (inv 0 yHalf) (inv 0 yRise) = .ok ([], [some r']) ∧
    r ≠ r' :=
  ⟨[0, 1, 2, 3], [0, 6 / 5, 1, 2], 3 / 2, 1, 1 / 2, 2, 5 / 6, by decide +kernel⟩

/-- The hypotheses are met, with each of the cases. -/
example : (∀ v ∈ ([0, 2, 0, 2] : List ℚ), v ≠ 1) ∧ FirstOut [0, 2, 0, 2] (3 / 2) (1 / 2) 0 ∧
    edges [0, 1, 2, 3] [0, 2, 0, 2] (3 / 2) 1 (1 / 2) = .ok ([some (1 / 2), some (5 / 2)], [some (3 / 2)]) ∧
    edges [0, 1, 2, 3] ([0, 2, 0, 2].map (inv 2)) (inv 2 (1 / 2)) (inv 2 1) (inv 2 (3 / 2)) = .ok ([some (3 / 2)], [some (1 / 2), some (5 / 2)]) := by
  unfold FirstOut
  decide +kernel

example : FirstOut [6 / 5, 0, 2] (3 / 2) (1 / 2) 1 ∧ edges [0, 1, 2] [6 / 5, 0, 2] (3 / 2) 1 (1 / 2) = .ok ([some (3 / 2)], [some (1 / 6)]) ∧
    edges [0, 1, 2] ([6 / 5, 0, 2].map (inv 2)) (inv 2 (1 / 2)) (inv 2 1) (inv 2 (3 / 2)) = .ok ([], [some (3 / 2)]) := by
  unfold FirstOut
  decide +kernel

end Verif.Props.Invert
