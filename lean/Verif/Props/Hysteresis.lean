import Verif.Props.Invert

/-!
C93: noise that is smaller than the hysteresis adds no edges.
-/

namespace Verif.Props.Hysteresis

open Verif Verif.Lines Verif.Props Verif.Props.Edges Verif.Props.Invert

/-! ### Specification -/

/-- The two signals differ by at most `ε`, sample by sample. -/
def Near (ε : ℚ) (y y' : List ℚ) : Prop := y'.length = y.length ∧ ∀ i < y.length, |y'.getD i 0 - y.getD i 0| ≤ ε

/-- The numbers of rising and falling edges that are found. -/
def Counts (t y : List ℚ) (yRise yHalf yFall : ℚ) (r f : ℕ) : Prop :=
  ∃ R F, edges t y yRise yHalf yFall = .ok (R, F) ∧ R.length = r ∧ F.length = f

/-! ### Two searches side by side -/

/-- The searches before a sample: `s'` has wider thresholds, `d` is 1 if it starts high and `s` low. -/
structure Beside (d : ℕ) (s s' : EdgeState) : Prop where
  rise : s'.rise.length ≤ s.rise.length
  fall : s'.fall.length ≤ s.fall.length + d
  up : s'.low = true → s.low = false → s'.rise.length < s.rise.length
  down : s'.low = false → s.low = true → s'.fall.length < s.fall.length + d

theorem beside_step (d : ℕ) (yRise yFall yRise' yFall' v v' : ℚ) (hth : yFall ≤ yRise) (hu : v' > yRise' → v > yRise) (hd : v' < yFall' → v < yFall)
    (c c' : Option ℚ) (s s' : EdgeState) (h : Beside d s s') : Beside d (pureStep yRise yFall s v c) (pureStep yRise' yFall' s' v' c') := by
  obtain ⟨low, R, F⟩ := s
  obtain ⟨low', R', F'⟩ := s'
  obtain ⟨h1, h2, h3, h4⟩ := h
  simp only at h1 h2 h3 h4
  unfold pureStep
  by_cases a : v > yRise <;> by_cases b : v < yFall <;> by_cases a' : v' > yRise' <;> by_cases b' : v' < yFall' <;> cases low <;> cases low' <;>
    first
    | exact absurd (hu a') a
    | exact absurd (hd b') b
    | exact absurd (b.trans_le hth) (not_lt.2 (le_of_lt a))
    | (simp only [a, b, a', b', if_true, if_false, Bool.false_eq_true]
       constructor <;> simp_all <;> omega)

/-- **C93.** Two signals, the second one with thresholds that it exceeds only where the first one exceeds its own: the second has no more rising edges, and
no more falling edges except for one at the start, if the first is taken to start low and the second to start high. -/
theorem C93_edges (t t' y y' : List ℚ) (yRise yHalf yFall yRise' yHalf' yFall' : ℚ) (hlen : t.length = y.length) (hlen' : t'.length = y'.length)
    (hsame : y'.length = y.length) (h0 : 0 < y.length) (hth : yFall ≤ yRise) (hu : ∀ i < y.length, y'.getD i 0 > yRise' → y.getD i 0 > yRise)
    (hd : ∀ i < y.length, y'.getD i 0 < yFall' → y.getD i 0 < yFall) :
    ∃ r f r' f', Counts t y yRise yHalf yFall r f ∧ Counts t' y' yRise' yHalf' yFall' r' f' ∧ r' ≤ r ∧ f' ≤ f + 1 ∧
      ((y.getD 0 0 < yFall → y'.getD 0 0 < yFall') → f' ≤ f) := by
  have run : ∀ (d m a : ℕ) (s s' : EdgeState), 1 ≤ a → a + m = y.length → Beside d s s' →
      ∃ z z', (List.range' a m).foldlM (edgeStep t y yRise yHalf yFall 0) s = .ok z ∧
        (List.range' a m).foldlM (edgeStep t' y' yRise' yHalf' yFall' 0) s' = .ok z' ∧ Beside d z z' := by
    intro d m
    induction m with
    | zero => intro a s s' _ _ hs; exact ⟨s, s', rfl, rfl, hs⟩
    | succ m ih =>
      intro a s s' ha h hs
      obtain ⟨z, z', h1, h2, h3⟩ := ih (a + 1) _ _ (by omega) (by omega)
        (beside_step d yRise yFall yRise' yFall' _ _ hth (hu a (by omega)) (hd a (by omega)) (timeAt t y yHalf a) (timeAt t' y' yHalf' a) s s' hs)
      refine ⟨z, z', ?_, ?_, h3⟩
      · rw [List.range'_succ, List.foldlM_cons, step_eq t y yRise yHalf yFall hlen a ha (by omega)]
        exact h1
      · rw [List.range'_succ, List.foldlM_cons, step_eq t' y' _ _ _ hlen' a ha (by omega)]
        exact h2
  have main : ∀ d : ℕ, (d = 0 → y.getD 0 0 < yFall → y'.getD 0 0 < yFall') →
      ∃ r f r' f', Counts t y yRise yHalf yFall r f ∧ Counts t' y' yRise' yHalf' yFall' r' f' ∧ r' ≤ r ∧ f' ≤ f + d := by
    intro d hd0
    obtain ⟨s, s', h1, h2, hs⟩ := run d (y.length - 1) 1 ⟨decide (y.getD 0 0 < yFall), [], []⟩ ⟨decide (y'.getD 0 0 < yFall'), [], []⟩ le_rfl (by omega) (by
      refine ⟨le_rfl, by simp, ?_, ?_⟩
      · intro a b
        exact absurd (hd 0 h0 (of_decide_eq_true a)) (of_decide_eq_false b)
      · intro a b
        rcases Nat.eq_zero_or_pos d with rfl | h
        · exact absurd (hd0 rfl (of_decide_eq_true b)) (of_decide_eq_false a)
        · simpa using h)
    refine ⟨_, _, _, _, ⟨s.rise, s.fall, ?_, rfl, rfl⟩, ⟨s'.rise, s'.fall, ?_, rfl, rfl⟩, hs.rise, hs.fall⟩
    · unfold edges
      rw [pyGet_ok h0]
      simp only [bind, Except.bind] at h1 ⊢
      rw [h1]
      rfl
    · unfold edges
      rw [pyGet_ok (by omega), hsame]
      simp only [bind, Except.bind] at h2 ⊢
      rw [h2]
      rfl
  have det : ∀ {t y : List ℚ} {a b c : ℚ} {r f r' f' : ℕ}, Counts t y a b c r f → Counts t y a b c r' f' → r = r' ∧ f = f' := by
    rintro t y a b c r f r' f' ⟨R, F, h, rfl, rfl⟩ ⟨R', F', h', rfl, rfl⟩
    rw [h] at h'
    obtain ⟨rfl, rfl⟩ := Prod.mk.inj (Except.ok.inj h')
    exact ⟨rfl, rfl⟩
  obtain ⟨r, f, r', f', k1, k2, k3, k4⟩ := main 1 (fun h => by cases h)
  refine ⟨r, f, r', f', k1, k2, k3, k4, fun h => ?_⟩
  obtain ⟨_, _, _, _, i1, i2, -, i4⟩ := main 0 (fun _ => h)
  obtain ⟨-, rfl⟩ := det k1 i1
  obtain ⟨-, rfl⟩ := det k2 i2
  exact i4

/-- **C93.** Noise of at most `ε` adds no edges if the thresholds are moved apart by `ε`, and the signal does not start between the thresholds. -/
theorem C93_noise_partial (ε : ℚ) (t y y' : List ℚ) (yRise yHalf yFall yRise' yFall' : ℚ) (hlen : t.length = y.length) (h0 : 0 < y.length)
    (hn : Near ε y y') (hth : yFall ≤ yRise) (hr : yRise + ε ≤ yRise') (hf : yFall' ≤ yFall - ε)
    (hs : y.getD 0 0 < yFall' - ε ∨ yFall ≤ y.getD 0 0) :
    ∃ r f r' f', Counts t y yRise yHalf yFall r f ∧ Counts t y' yRise' yHalf yFall' r' f' ∧ r' ≤ r ∧ f' ≤ f := by
  obtain ⟨hsame, hn⟩ := hn
  obtain ⟨r, f, r', f', h1, h2, h3, -, h5⟩ := C93_edges t t y y' yRise yHalf yFall yRise' yHalf yFall' hlen (by rw [hlen, hsame]) hsame h0 hth
    (fun i hi h => by have := abs_le.1 (hn i hi); linarith) (fun i hi h => by have := abs_le.1 (hn i hi); linarith)
  refine ⟨r, f, r', f', h1, h2, h3, h5 fun h => ?_⟩
  have := abs_le.1 (hn 0 h0)
  rcases hs with hs | hs <;> linarith

/-- **C93.** If the signal has as many edges with thresholds that are `ε` closer together as with thresholds that are `ε` further apart, noise of at most
`ε` changes neither number. -/
theorem C93_same_partial (ε : ℚ) (t y y' : List ℚ) (yRise yHalf yFall : ℚ) (hlen : t.length = y.length) (h0 : 0 < y.length)
    (hn : Near ε y y') (hth : yFall + ε ≤ yRise - ε) (hs : y.getD 0 0 < yFall - ε ∨ yFall + ε ≤ y.getD 0 0) (r f : ℕ)
    (hin : Counts t y (yRise - ε) yHalf (yFall + ε) r f) (hout : Counts t y (yRise + ε) yHalf (yFall - ε) r f) :
    Counts t y' yRise yHalf yFall r f := by
  have det : ∀ {t y : List ℚ} {a b c : ℚ} {r f r' f' : ℕ}, Counts t y a b c r f → Counts t y a b c r' f' → r = r' ∧ f = f' := by
    rintro t y a b c r f r' f' ⟨R, F, h, rfl, rfl⟩ ⟨R', F', h', rfl, rfl⟩
    rw [h] at h'
    obtain ⟨rfl, rfl⟩ := Prod.mk.inj (Except.ok.inj h')
    exact ⟨rfl, rfl⟩
  obtain ⟨hsame, hn⟩ := hn
  have hε : 0 ≤ ε := (abs_nonneg _).trans (hn 0 h0)
  have hlen' : t.length = y'.length := by rw [hlen, hsame]
  obtain ⟨r1, f1, r', f', a1, a2, a3, -, a5⟩ := C93_edges t t y y' (yRise - ε) yHalf (yFall + ε) yRise yHalf yFall hlen hlen' hsame h0 hth
    (fun i hi h => by have := abs_le.1 (hn i hi); linarith) (fun i hi h => by have := abs_le.1 (hn i hi); linarith)
  obtain ⟨r2, f2, r3, f3, b1, b2, b3, -, b5⟩ := C93_edges t t y' y yRise yHalf yFall (yRise + ε) yHalf (yFall - ε) hlen' hlen hsame.symm
    (by omega) (by linarith)
    (fun i hi h => by have := abs_le.1 (hn i (by omega)); linarith) (fun i hi h => by have := abs_le.1 (hn i (by omega)); linarith)
  obtain ⟨rfl, rfl⟩ := det hin a1
  obtain ⟨rfl, rfl⟩ := det a2 b1
  obtain ⟨rfl, rfl⟩ := det hout b2
  have hb := abs_le.1 (hn 0 h0)
  have k1 := a5 fun h => by rcases hs with hs | hs <;> linarith
  have k2 := b5 fun h => by rcases hs with hs | hs <;> linarith
  obtain rfl := le_antisymm a3 b3
  obtain rfl := le_antisymm k1 k2
  exact a2

/-- **C93 fails** at the start: a signal that begins between the thresholds counts as low with the closer thresholds and as high with the wider ones, which
then find a falling edge more. -/
theorem C93_start_fails : Counts [0, 1] [0, -2] 1 0 (1 / 2) 0 0 ∧ Counts [0, 1] [0, -2] 1 0 (-1) 0 1 := by
  constructor
  · exact ⟨[], [], by decide +kernel, rfl, rfl⟩
  · exact ⟨[], [none], by decide +kernel, rfl, rfl⟩

/-- Without hysteresis noise adds edges: at a threshold of 0 the signal has one rising edge, with noise of 1/10 it has two. -/
example : Near (1 / 10) [-1, 0, 1 / 20, 1 / 20, 1] [-1, 1 / 10, -1 / 20, 1 / 20, 1] ∧ Counts [0, 1, 2, 3, 4] [-1, 0, 1 / 20, 1 / 20, 1] 0 0 0 1 0 ∧
    Counts [0, 1, 2, 3, 4] [-1, 1 / 10, -1 / 20, 1 / 20, 1] 0 0 0 2 1 := by
  refine ⟨⟨rfl, by decide +kernel⟩, ⟨[some 1], [], ?_, rfl, rfl⟩, ⟨[some (10 / 11), some (5 / 2)], [some (5 / 3)], ?_, rfl, rfl⟩⟩ <;>
  decide +kernel

/-- The hypotheses are met: with a hysteresis of 1/2 the same noise does not matter. -/
example : Counts [0, 1, 2, 3, 4] [-1, 1 / 10, -1 / 20, 1 / 20, 1] (1 / 4) 0 (-1 / 4) 1 0 :=
  C93_same_partial (1 / 10) [0, 1, 2, 3, 4] [-1, 0, 1 / 20, 1 / 20, 1] [-1, 1 / 10, -1 / 20, 1 / 20, 1] (1 / 4) 0 (-1 / 4) rfl (by decide)
    ⟨rfl, by decide +kernel⟩ (by norm_num) (.inl (by decide +kernel)) 1 0 ⟨[some 1], [], by decide +kernel, rfl, rfl⟩ ⟨[some 1], [], by decide +kernel, rfl, rfl⟩

example : ∃ r f r' f', Counts [0, 1, 2, 3, 4] [-1, 0, 1 / 20, 1 / 20, 1] 0 0 0 r f ∧
    Counts [0, 1, 2, 3, 4] [-1, 1 / 10, -1 / 20, 1 / 20, 1] (1 / 10) 0 (-1 / 10) r' f' ∧ r' ≤ r ∧ f' ≤ f :=
  C93_noise_partial (1 / 10) [0, 1, 2, 3, 4] [-1, 0, 1 / 20, 1 / 20, 1] [-1, 1 / 10, -1 / 20, 1 / 20, 1] 0 0 0 (1 / 10) (-1 / 10) rfl (by decide)
    ⟨rfl, by decide +kernel⟩ le_rfl (by norm_num) (by norm_num) (.inl (by decide +kernel))

end Verif.Props.Hysteresis
