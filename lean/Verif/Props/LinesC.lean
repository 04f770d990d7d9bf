import Verif.Model.LinesC
import Verif.Lemmas.Crossing
import Mathlib.Tactic.Linarith
import Mathlib.Tactic.SplitIfs
import Mathlib.Tactic.IntervalCases

/-!
C12 for `hardware_tools/math/_lines.pyx`: the compiled helpers return the same as those of `_lines_fb.py`, whatever is in memory outside of the
arrays.
-/

namespace Verif.Props.LinesC

open Verif Verif.Lines Verif.LinesC

/-! ### Drawing -/

theorem i32_id (x : ℤ) (h1 : -2 ^ 31 ≤ x) (h2 : x < 2 ^ 31) : i32 x = x := by
  unfold i32
  apply Int.bmod_eq_of_le <;> norm_num at * <;> omega

theorem segStepC_eq (dx dy sx sy : ℤ) (s : SegState) (hdx : 0 ≤ dx) (hdy : 0 ≤ dy) (hd : 4 * (dx + dy) < 2 ^ 31)
    (he : |s.err| ≤ 2 * (dx + dy)) (hsx : |sx| = 1) (hsy : |sy| = 1) (hx : |s.x| + 1 < 2 ^ 31) (hy : |s.y| + 1 < 2 ^ 31) :
    segStepC dx dy sx sy s = segStep dx dy sx sy s ∧ |(segStep dx dy sx sy s).err| ≤ 2 * (dx + dy) ∧
      |(segStep dx dy sx sy s).x| ≤ |s.x| + 1 ∧ |(segStep dx dy sx sy s).y| ≤ |s.y| + 1 := by
  obtain ⟨x, y, err⟩ := s
  simp only at he hx hy ⊢
  rw [abs_le] at he
  have hx1 : |x + sx| ≤ |x| + 1 := by rw [← hsx]; exact abs_add_le x sx
  have hy1 : |y + sy| ≤ |y| + 1 := by rw [← hsy]; exact abs_add_le y sy
  have hxx := abs_le.1 (hx1.trans hx.le)
  have hyy := abs_le.1 (hy1.trans hy.le)
  have ex : i32 (x + sx) = x + sx := i32_id _ (by have := abs_le.1 hx1; omega) (by have := abs_le.1 hx1; omega)
  have ey : i32 (y + sy) = y + sy := i32_id _ (by have := abs_le.1 hy1; omega) (by have := abs_le.1 hy1; omega)
  have e2 : i32 (2 * err) = 2 * err := i32_id _ (by omega) (by omega)
  have e3 : i32 (-dy) = -dy := i32_id _ (by omega) (by omega)
  have e4 : i32 (err - dy) = err - dy := i32_id _ (by omega) (by omega)
  have e5 : i32 (err + dx) = err + dx := i32_id _ (by omega) (by omega)
  have e6 : i32 (err - dy + dx) = err - dy + dx := i32_id _ (by omega) (by omega)
  simp only [segStepC, segStep, e2, e3]
  by_cases h1 : 2 * err > -dy <;> by_cases h2 : 2 * err < dx <;> simp only [h1, h2, if_true, if_false, ex, ey, e4, e5, e6] <;>
    refine ⟨trivial, abs_le.2 ⟨by omega, by omega⟩, ?_, ?_⟩ <;> first | exact hx1 | exact hy1 | omega

theorem segLoopC_eq (dx dy sx sy x2 y2 : ℤ) (hdx : 0 ≤ dx) (hdy : 0 ≤ dy) (hd : 4 * (dx + dy) < 2 ^ 31) (hsx : |sx| = 1) (hsy : |sy| = 1)
    (fuel : ℕ) : ∀ (s : SegState) (g : Grid), |s.err| ≤ 2 * (dx + dy) → |s.x| + fuel < 2 ^ 31 → |s.y| + fuel < 2 ^ 31 →
      segLoopC dx dy sx sy x2 y2 fuel s g = segLoop dx dy sx sy x2 y2 fuel s g := by
  induction fuel with
  | zero => intros; rfl
  | succ fuel ih =>
    intro s g he hx hy
    push_cast at hx hy
    obtain ⟨e1, e2, e3, e4⟩ := segStepC_eq dx dy sx sy s hdx hdy hd he hsx hsy (by omega) (by omega)
    rw [segLoopC, segLoop, e1, ih _ _ e2 (by omega) (by omega)]

theorem drawSegmentC_eq (x1 y1 x2 y2 : ℤ) (g : Grid) (h1 : |x1| ≤ 2 ^ 26) (h2 : |y1| ≤ 2 ^ 26) (h3 : |x2| ≤ 2 ^ 26) (h4 : |y2| ≤ 2 ^ 26) :
    drawSegmentC x1 y1 x2 y2 g = drawSegment x1 y1 x2 y2 g := by
  have b1 := abs_le.1 h1
  have b2 := abs_le.1 h2
  have b3 := abs_le.1 h3
  have b4 := abs_le.1 h4
  have ex : (if x2 > x1 then i32 (x2 - x1) else i32 (x1 - x2)) = |x2 - x1| := by
    rw [i32_id (x2 - x1) (by omega) (by omega), i32_id (x1 - x2) (by omega) (by omega)]
    split_ifs with h
    · exact (abs_of_pos (by omega)).symm
    · rw [abs_of_nonpos (by omega)]; ring
  have ey : (if y2 > y1 then i32 (y2 - y1) else i32 (y1 - y2)) = |y2 - y1| := by
    rw [i32_id (y2 - y1) (by omega) (by omega), i32_id (y1 - y2) (by omega) (by omega)]
    split_ifs with h
    · exact (abs_of_pos (by omega)).symm
    · rw [abs_of_nonpos (by omega)]; ring
  have nx : |x2 - x1| ≤ 2 ^ 27 := abs_le.2 ⟨by omega, by omega⟩
  have ny : |y2 - y1| ≤ 2 ^ 27 := abs_le.2 ⟨by omega, by omega⟩
  have px := abs_nonneg (x2 - x1)
  have py := abs_nonneg (y2 - y1)
  unfold drawSegmentC drawSegment drawSegmentFuel
  simp only [ex, ey]
  rw [i32_id (|x2 - x1| - |y2 - y1|) (by omega) (by omega)]
  have nf : (((x2 - x1).natAbs + (y2 - y1).natAbs + 1 : ℕ) : ℤ) ≤ 2 ^ 28 + 1 := by
    push_cast
    omega
  apply segLoopC_eq _ _ _ _ _ _ px py (by omega)
  · split_ifs <;> rfl
  · split_ifs <;> rfl
  · simp only
    exact abs_le.2 ⟨by omega, by omega⟩
  · simp only
    omega
  · simp only
    omega

/-- **C12.** The integers of the compiled drawing are those of 32 bits: what does not fit is off by a multiple of `2 ^ 32`. -/
theorem C12_int32 (x : ℤ) : -2 ^ 31 ≤ i32 x ∧ i32 x < 2 ^ 31 ∧ (2 ^ 32 : ℤ) ∣ x - i32 x := by
  have h1 := Int.le_bmod (x := x) (m := 2 ^ 32) (by norm_num)
  have h2 := Int.bmod_lt (x := x) (m := 2 ^ 32) (by norm_num)
  refine ⟨?_, ?_, Int.dvd_self_sub_bmod⟩
  · unfold i32; norm_num at h1 ⊢; exact h1
  · unfold i32; norm_num at h2 ⊢; exact h2

/-- C12: with coordinates up to 2^26 in size the 32 bit arithmetic of the compiled `draw` does not overflow, and it draws the same as the
fallback. -/
theorem C12_draw (junk : ℤ × ℤ) (ps : List (ℤ × ℤ)) (g : Grid) (hl : 2 ≤ ps.length) (hb : ∀ p ∈ ps, |p.1| ≤ 2 ^ 26 ∧ |p.2| ≤ 2 ^ 26) :
    drawC junk ps g = draw ps g := by
  unfold drawC
  induction ps generalizing g junk with
  | nil => simp at hl
  | cons p ps ih =>
    match ps, ih, hl, hb with
    | [], _, hl, _ => simp at hl
    | [q], _, _, hb =>
      obtain ⟨a1, a2⟩ := hb p (by simp)
      obtain ⟨b1, b2⟩ := hb q (by simp)
      simp only [drawLoopC, draw, drawSegmentC_eq _ _ _ _ _ a1 a2 b1 b2, bind_assoc]
      rfl
    | q :: r :: rest, ih, _, hb =>
      obtain ⟨a1, a2⟩ := hb p (by simp)
      obtain ⟨b1, b2⟩ := hb q (by simp)
      rw [drawLoopC, draw, drawSegmentC_eq _ _ _ _ _ a1 a2 b1 b2, bind_assoc]
      congr 1
      funext g'
      exact ih q g' (by simp) (fun p hp => hb p (List.mem_cons_of_mem _ hp))

/-- C12 would fail for fewer than two points: the fallback raises `UnboundLocalError`, the compiled version counts a cell that depends on what is in
memory. -/
theorem C12_draw_short (p : ℤ × ℤ) (g : Grid) (junk : ℤ × ℤ) :
    draw [p] g = .error .unboundLocal ∧ drawC junk [p] g = .ok (g.incr junk.1 junk.2) := ⟨rfl, rfl⟩

/-- C12: both versions of `draw_points` count the same. -/
theorem C12_draw_points (ps : List (ℤ × ℤ)) (g : Grid) : drawPointsC ps g = drawPoints ps g := by
  unfold drawPointsC drawPoints
  have key : ∀ (pre ps : List (ℤ × ℤ)) (g : Grid),
      (List.range' pre.length ps.length).foldl (fun g i => g.incr ((pre ++ ps).getD i (0, 0)).1 ((pre ++ ps).getD i (0, 0)).2) g =
        ps.foldl (fun g p => g.incr p.1 p.2) g := by
    intro pre ps
    induction ps generalizing pre with
    | nil => intro g; rfl
    | cons p ps ih =>
      intro g
      rw [List.length_cons, List.range'_succ, List.foldl_cons, List.foldl_cons]
      have e : (pre ++ p :: ps).getD pre.length (0, 0) = p := by
        rw [List.getD_eq_getElem?_getD]; simp
      rw [e]
      have := ih (pre ++ [p]) (g.incr p.1 p.2)
      simpa using this
  have := key [] ps g
  simpa [List.range_eq_range'] using this

/-- The hypotheses of `C12_draw` are met by a triangle that reaches beyond the grid. -/
example : 2 ≤ ([(0, 0), (5, -3), (1000, 1000)] : List (ℤ × ℤ)).length ∧
    ∀ p ∈ ([(0, 0), (5, -3), (1000, 1000)] : List (ℤ × ℤ)), |p.1| ≤ 2 ^ 26 ∧ |p.2| ≤ 2 ^ 26 := by decide

/-! ### Crossings -/

theorem peek_in (mem : ℤ → ℚ) (l : List ℚ) (i : ℤ) (h0 : 0 ≤ i) (h : i < l.length) : peek mem l i = l.getD i.toNat 0 := by
  unfold peek; rw [if_pos ⟨h0, h⟩]

/-- The two loops stop at the same index; the compiled one reports a crossing if the index is inside. -/
theorem crossLoopC_eq (mem : ℤ → ℚ) (srch : List ℚ) (v : ℚ) (fwd : Bool) (n : ℕ) (hn : n ≤ srch.length) (k : ℕ) :
    ∀ (i fC fF : ℕ), 0 < i → i < n → (if fwd then n - i else i) ≤ k → k ≤ fC → k + 1 ≤ fF →
      ∃ b j, crossLoopC mem srch v fwd n fC i = .ok (b, j) ∧ crossLoop srch v fwd n fF i = .ok j ∧ (b = true ↔ 0 < j ∧ j < n) := by
  induction k with
  | zero =>
    intro i fC fF h0 hi hk
    exfalso
    split_ifs at hk <;> omega
  | succ k ih =>
    intro i fC fF h0 hi hk hC hF
    obtain ⟨fC, rfl⟩ : ∃ m, fC = m + 1 := ⟨fC - 1, by omega⟩
    obtain ⟨fF, rfl⟩ : ∃ m, fF = m + 1 := ⟨fF - 1, by omega⟩
    obtain ⟨s1, s2⟩ := crossLoop_step (v := v) (fwd := fwd) (fuel := fF) hn h0 hi
    have p1 : peek mem srch (i : ℤ) = srch.getD i 0 := by rw [peek_in _ _ _ (by omega) (by omega), Int.toNat_natCast]
    have p2 : peek mem srch ((i : ℤ) - 1) = srch.getD (i - 1) 0 := by
      rw [peek_in _ _ _ (by omega) (by omega), show ((i : ℤ) - 1).toNat = i - 1 by omega]
    rw [crossLoopC, p1, p2]
    by_cases hc : Changes srch v i
    · refine ⟨true, i, ?_, s1 hc, by simp; omega⟩
      rw [if_neg]
      unfold Changes at hc
      simpa using hc
    · rw [if_pos (by unfold Changes at hc; simpa using hc), s2 hc]
      obtain ⟨fF, rfl⟩ : ∃ m, fF = m + 1 := ⟨fF - 1, by omega⟩
      cases fwd with
      | true =>
        simp only [if_true] at hk ⊢
        by_cases h : (i : ℤ) + 1 ≥ n
        · refine ⟨false, i + 1, by rw [if_pos h], ?_, by simp; omega⟩
          rw [crossLoop, if_neg (by omega)]
          rfl
        · rw [if_neg h]
          have := ih (i + 1) fC (fF + 1) (by omega) (by omega) (by simp only [if_true]; omega) (by omega) (by omega)
          exact_mod_cast this
      | false =>
        simp only [Bool.false_eq_true, if_false] at hk ⊢
        by_cases h : (i : ℤ) - 1 < 1
        · refine ⟨false, i - 1, by rw [if_pos h], ?_, by simp; omega⟩
          rw [crossLoop, if_neg (by omega)]
          rfl
        · rw [if_neg h]
          have := ih (i - 1) fC (fF + 1) (by omega) (by omega) (by simp only [Bool.false_eq_true, if_false]; omega) (by omega) (by omega)
          rw [show (i : ℤ) - 1 = ((i - 1 : ℕ) : ℤ) by omega]
          exact this

theorem crossingC_eq (mem : ℤ → ℚ) (ret srch : List ℚ) (i : ℤ) (v : ℚ) (fwd : Bool) (n : ℕ) (h0 : n ≠ 0) (hn : n ≤ srch.length)
    (hr : n ≤ ret.length) : crossingC mem ret srch i v fwd n = crossing ret srch i v fwd n := by
  by_cases hi : i < 1 ∨ i ≥ n
  · unfold crossingC crossing
    rw [if_pos hi]
    simp only [if_neg h0]
    rw [crossLoop, if_neg (by omega)]
    simp only [bind, Except.bind, pure, Except.pure]
    rw [if_pos hi]
  · obtain ⟨m, rfl⟩ := Int.eq_ofNat_of_zero_le (by omega : 0 ≤ i)
    obtain ⟨b, j, e1, e2, e3⟩ := crossLoopC_eq mem srch v fwd n hn n m (n + 1) (n + 1) (by omega) (by omega) (by split_ifs <;> omega) (by omega)
      (by omega)
    unfold crossingC crossing
    rw [if_neg hi]
    simp only [if_neg h0, Int.toNat_natCast]
    rw [e1, e2]
    simp only [bind, Except.bind, pure, Except.pure]
    cases b with
    | false =>
      have : ¬ (0 < j ∧ j < n) := fun h => by simpa using e3.2 h
      simp only [Bool.false_eq_true, if_false]
      rw [if_pos (by omega)]
    | true =>
      obtain ⟨j0, j1⟩ := e3.1 rfl
      simp only [if_true]
      rw [if_neg (by omega), pyGet_ok (by omega), pyGet_ok (by omega), pyGet_ok (by omega), pyGet_ok (by omega)]
      simp only
      rw [peek_in mem ret _ (by omega) (by omega), peek_in mem ret _ (by omega) (by omega), peek_in mem srch _ (by omega) (by omega),
        peek_in mem srch _ (by omega) (by omega), show (j - 1).toNat = j.toNat - 1 by omega]

/-- C12: the compiled `crossing` returns what the fallback returns for the value rounded to single precision, whatever is in memory, if `n` does
not exceed the length of the lists (0 stands for the length of the searched one). -/
theorem C12_crossing (mem : ℤ → ℚ) (ret srch : List ℚ) (i : ℤ) (v : ℚ) (fwd : Bool) (n : ℕ)
    (hn : n ≤ srch.length) (hr : (if n = 0 then srch.length else n) ≤ ret.length) :
    crossingPyx mem ret srch i v fwd n = crossing ret srch i (single v) fwd n := by
  unfold crossingPyx
  by_cases h : n = 0
  · subst h
    rw [crossing_zero_n]
    simp only [if_true] at hr ⊢
    by_cases hs : srch.length = 0
    · unfold crossingC crossing
      rw [if_pos (by omega)]
      simp only [hs, if_true]
      rw [crossLoop, if_neg (by omega)]
      simp only [bind, Except.bind, pure, Except.pure]
      rw [if_pos (by omega)]
    · exact crossingC_eq mem ret srch i (single v) fwd srch.length hs le_rfl hr
  · rw [if_neg h] at hr ⊢
    exact crossingC_eq mem ret srch i (single v) fwd n h hn hr

/-- C12 would fail for an `n` beyond the end of the lists: the fallback raises `IndexError`, the compiled version returns what it finds in
memory. -/
theorem C12_crossing_outside : ∃ (ret srch : List ℚ) (i : ℤ) (v : ℚ) (n : ℕ), crossing ret srch i v true n = .error .indexError ∧
    ∃ mem mem', crossingPyx mem ret srch i v true n ≠ crossingPyx mem' ret srch i v true n :=
  ⟨[0, 1], [0, 0], 1, 1, 3, by decide +kernel, fun _ => 2, fun _ => 4, by decide +kernel⟩

/-- The hypotheses of `C12_crossing` are met by the example of the docstring, where the result is 5/3. -/
example : (5 : ℕ) ≤ ([10, 20, -10, 50, -50] : List ℚ).length ∧ (if (5 : ℕ) = 0 then 5 else 5) ≤ ([0, 1, 2, 3, 4] : List ℚ).length ∧
    crossing [0, 1, 2, 3, 4] [10, 20, -10, 50, -50] 2 0 false 5 = .ok (some (5 / 3), 2) := by decide +kernel

/-! ### Edges -/

/-- The arrays hold the edges found so far. -/
def Holds (n : ℕ) (a : EdgeArr) (s : EdgeState) : Prop :=
  a.low = s.low ∧ a.rise.length = n ∧ a.fall.length = n ∧ a.iRise = s.rise.length ∧ a.iFall = s.fall.length ∧
    a.rise.take a.iRise = s.rise ∧ a.fall.take a.iFall = s.fall

theorem poke_take {α : Type} (l : List α) (v : α) (k : ℕ) (h : k < l.length) :
    poke l k v = .ok (l.set k v) ∧ (l.set k v).take (k + 1) = l.take k ++ [v] := by
  refine ⟨by unfold poke; rw [if_pos h], ?_⟩
  apply List.ext_getElem
  · simp; omega
  · intro i h1 h2
    simp only [List.length_take, List.length_set] at h1
    rw [List.getElem_take, List.getElem_set]
    split_ifs with hk
    · subst hk
      rw [List.getElem_append_right (by simp)]
      simp
    · rw [List.getElem_append_left (by simp; omega), List.getElem_take]

theorem edgeStepC_eq (mem : ℤ → ℚ) (t y : List ℚ) (r h f : ℚ) (hl : t.length = y.length) (a : EdgeArr) (s : EdgeState)
    (hh : Holds t.length a s) (i : ℕ) (h0 : 0 < i) (hi : i < t.length) (hr : a.iRise < i) (hf : a.iFall < i) :
    ∃ a' s', edgeStepC mem t y r h f a i = .ok a' ∧ edgeStep t y r h f t.length s i = .ok s' ∧ Holds t.length a' s' ∧
      a'.iRise < i + 1 ∧ a'.iFall < i + 1 := by
  obtain ⟨e1, e2, e3, e4, e5, e6, e7⟩ := hh
  have hp : peek mem y (i : ℤ) = y.getD i 0 := by rw [peek_in _ _ _ (by omega) (by omega), Int.toNat_natCast]
  have hc := crossingC_eq mem t y i h false t.length (by omega) (by omega) le_rfl
  have hc' : ∃ c, crossing t y i h false t.length = .ok c := by
    unfold crossing
    simp only [if_neg (by omega : ¬ t.length = 0)]
    obtain ⟨b, j, -, e2, e3⟩ := crossLoopC_eq mem y h false t.length (by omega) t.length i (t.length + 1) (t.length + 1) h0 hi
      (by simp only [Bool.false_eq_true, if_false]; omega) (by omega) (by omega)
    rw [e2]
    simp only [bind, Except.bind, pure, Except.pure]
    split_ifs with hj
    · exact ⟨_, rfl⟩
    · rw [pyGet_ok (by omega), pyGet_ok (by omega), pyGet_ok (by omega), pyGet_ok (by omega)]
      exact ⟨_, rfl⟩
  obtain ⟨c, hc'⟩ := hc'
  unfold edgeStepC edgeStep
  rw [hp, pyGet_ok (by omega), hc, hc', e1]
  simp only [bind, Except.bind, pure, Except.pure]
  by_cases hlow : s.low = true
  · rw [if_pos hlow, if_pos hlow]
    split_ifs with hv
    · obtain ⟨p1, p2⟩ := poke_take a.rise c.1 a.iRise (by omega)
      rw [p1]
      exact ⟨_, _, rfl, rfl, ⟨rfl, by simp [e2], e3, by simp [e4], e5, by simp only [p2, e6], e7⟩, by simp only; omega, by simp only; omega⟩
    · exact ⟨a, s, rfl, rfl, ⟨e1, e2, e3, e4, e5, e6, e7⟩, by omega, by omega⟩
  · rw [if_neg hlow, if_neg hlow]
    split_ifs with hv
    · obtain ⟨p1, p2⟩ := poke_take a.fall c.1 a.iFall (by omega)
      rw [p1]
      exact ⟨_, _, rfl, rfl, ⟨rfl, e2, by simp [e3], e4, by simp [e5], e6, by simp only [p2, e7]⟩, by simp only; omega, by simp only; omega⟩
    · exact ⟨a, s, rfl, rfl, ⟨e1, e2, e3, e4, e5, e6, e7⟩, by omega, by omega⟩

theorem edgeLoopC_eq (mem : ℤ → ℚ) (t y : List ℚ) (r h f : ℚ) (hl : t.length = y.length) (m : ℕ) : ∀ (i : ℕ) (a : EdgeArr) (s : EdgeState),
    Holds t.length a s → 0 < i → i + m ≤ t.length → a.iRise < i → a.iFall < i →
    ∃ a' s', (List.range' i m).foldlM (edgeStepC mem t y r h f) a = .ok a' ∧ (List.range' i m).foldlM (edgeStep t y r h f t.length) s = .ok s' ∧
      Holds t.length a' s' := by
  induction m with
  | zero => intro i a s hh _ _ _ _; exact ⟨a, s, rfl, rfl, hh⟩
  | succ m ih =>
    intro i a s hh h0 hi hr hf
    obtain ⟨a', s', e1, e2, e3, e4, e5⟩ := edgeStepC_eq mem t y r h f hl a s hh i h0 (by omega) hr hf
    rw [List.range'_succ, List.foldlM_cons, List.foldlM_cons, e1, e2]
    exact ih (i + 1) a' s' e3 (by omega) (by omega) e4 e5

/-- The loop behind both compiled functions returns the same as `edges_np`, whatever is in memory, and does not write outside of its arrays. -/
theorem edgesC_np (mem : ℤ → ℚ) (t y : List ℚ) (r h f : ℚ) (hl : t.length = y.length) (hy : y ≠ []) :
    edgesC mem t y r h f = edgesNp t y r h f := by
  have hpos : 0 < y.length := List.length_pos_iff.2 hy
  have h0 : peek mem y 0 = y.getD 0 0 := by rw [peek_in _ _ _ le_rfl (by omega)]; rfl
  unfold edgesC edgesNp
  rw [h0, pyGet_ok hpos]
  obtain ⟨a', s', e1, e2, -, -, -, -, -, e6, e7⟩ := edgeLoopC_eq mem t y r h f hl (t.length - 1) 1
    ⟨decide (y.getD 0 0 < f), List.replicate t.length (some 0), List.replicate t.length (some 0), 0, 0⟩ ⟨decide (y.getD 0 0 < f), [], []⟩
    ⟨rfl, by simp, by simp, rfl, rfl, rfl, rfl⟩ (by omega) (by omega) (by simp only; omega) (by simp only; omega)
  simp only [bind, Except.bind, pure, Except.pure]
  rw [e1, e2]
  simp only [e6, e7]

/-- The same for `edges`. -/
theorem edgesC_edges (mem : ℤ → ℚ) (t y : List ℚ) (r h f : ℚ) (hl : t.length = y.length) (hy : y ≠ []) :
    edgesC mem t y r h f = edges t y r h f := by
  rw [edgesC_np mem t y r h f hl hy]
  unfold edgesNp edges
  have : edgeStep t y r h f t.length = edgeStep t y r h f 0 := by
    funext s i
    unfold edgeStep
    rw [crossing_zero_n, hl]
  rw [this, hl]

/-- C12: the compiled `edges` and `edges_np` return what the fallback ones return for thresholds rounded to single precision, whatever is in memory,
and do not write outside of their arrays. -/
theorem C12_edges (mem : ℤ → ℚ) (t y : List ℚ) (r h f : ℚ) (hl : t.length = y.length) (hy : y ≠ []) :
    edgesPyx mem t y r h f = edges t y (single r) (single h) (single f) ∧ edgesPyx mem t y r h f = edgesNp t y (single r) (single h) (single f) :=
  ⟨edgesC_edges mem t y _ _ _ hl hy, edgesC_np mem t y _ _ _ hl hy⟩

/-- C12 would fail with fewer values than times: `edges` ignores the surplus, the compiled version takes what it finds in memory as values. -/
theorem C12_edges_outside : ∃ (t y : List ℚ) (r h f : ℚ), edges t y r h f = .ok ([], []) ∧
    ∃ mem, edgesPyx mem t y r h f = .ok ([some (3 / 2)], []) :=
  ⟨[0, 1, 2], [-1, -1], 0, 0, 0, by decide +kernel, fun _ => 1, by decide +kernel⟩

/-- The hypotheses of the edge theorems are met: a pulse with a rising and a falling edge. -/
example : ([0, 1, 2, 3] : List ℚ).length = ([-1, 1, 1, -1] : List ℚ).length ∧
    edges [0, 1, 2, 3] [-1, 1, 1, -1] 0 0 0 = .ok ([some (1 / 2)], [some (5 / 2)]) := by decide +kernel

/-! ### Hits -/

/-- C12: both versions of `intersection` are the same. -/
theorem C12_intersection (p q r s : Pt) (seg : Bool) : intersectionC p.1 p.2 q.1 q.2 r.1 r.2 s.1 s.2 seg = intersection p q r s seg := by
  unfold intersectionC intersection
  simp only
  by_cases h : (p.1 - q.1) * (r.2 - s.2) - (p.2 - q.2) * (r.1 - s.1) > 0
  · simp only [h, if_true, Bool.and_eq_true, decide_eq_true_eq]
  · simp only [h, if_false, Bool.and_eq_true, decide_eq_true_eq]

theorem box_fold (ps : List Pt) : ∀ (a b c d : ℚ), a ≤ b → c ≤ d → ps.foldl boxStep ⟨a, b, c, d⟩ =
    ⟨ps.foldl (fun m q => min m q.1) a, ps.foldl (fun m q => max m q.1) b, ps.foldl (fun m q => min m q.2) c,
      ps.foldl (fun m q => max m q.2) d⟩ := by
  induction ps with
  | nil => intros; rfl
  | cons p ps ih =>
    intro a b c d hab hcd
    simp only [List.foldl_cons]
    have : boxStep ⟨a, b, c, d⟩ p = ⟨min a p.1, max b p.1, min c p.2, max d p.2⟩ := by
      unfold boxStep
      simp only
      by_cases h1 : p.1 > b <;> by_cases h2 : p.1 < a <;> by_cases h3 : p.2 > d <;> by_cases h4 : p.2 < c <;>
        simp only [h1, h2, h3, h4, if_true, if_false, Box.mk.injEq] <;>
        refine ⟨?_, ?_, ?_, ?_⟩ <;> first | (rw [min_def]; split_ifs <;> linarith) | (rw [max_def]; split_ifs <;> linarith)
    rw [this]
    exact ih _ _ _ _ ((min_le_left _ _).trans (hab.trans (le_max_left _ _))) ((min_le_left _ _).trans (hcd.trans (le_max_left _ _)))

theorem bbox_eq (junk : Pt) (path : List Pt) (h : path ≠ []) :
    bbox path = .ok ((boxC junk path).minT, (boxC junk path).maxT, (boxC junk path).minY, (boxC junk path).maxY) := by
  cases path with
  | nil => exact absurd rfl h
  | cons p ps =>
    unfold boxC
    rw [List.headD_cons, List.tail_cons, box_fold ps _ _ _ _ le_rfl le_rfl]
    rfl

theorem fold_filterMap {α : Type} (f : α → Option Pt) (l : List α) (acc : List Pt) :
    l.foldl (fun acc e => addHit acc (f e)) acc = acc ++ l.filterMap f := by
  induction l generalizing acc with
  | nil => simp
  | cons x l ih =>
    rw [List.foldl_cons, ih, List.filterMap_cons]
    cases f x <;> simp [addHit]

theorem fold_flatMap {α β : Type} (g : List β → α → List β) (f : α → List β) (l : List α) (h : ∀ acc, ∀ x ∈ l, g acc x = acc ++ f x)
    (acc : List β) : l.foldl g acc = acc ++ l.flatMap f := by
  induction l generalizing acc with
  | nil => simp
  | cons x l ih =>
    rw [List.foldl_cons, ih (fun acc y hy => h acc y (List.mem_cons_of_mem _ hy)), h acc x (by simp), List.flatMap_cons, List.append_assoc]

/-- The hits of one path. -/
def pathHits (junk : Pt) (w path : List Pt) : List Pt :=
  (segs w).flatMap fun s => if skipC (boxC junk path) s.1 s.2 then [] else (segs path).filterMap (crossAt s)

theorem crossAt_eq (s e : Pt × Pt) : crossAt s e = intersection s.2 s.1 e.2 e.1 := C12_intersection s.2 s.1 e.2 e.1 true

theorem hitsPath_eq (junk : Pt) (w path : List Pt) (h : path ≠ []) : hitsPath w path = .ok (pathHits junk w path) := by
  unfold hitsPath pathHits
  rw [bbox_eq junk path h]
  simp only [bind, Except.bind, pure, Except.pure]
  congr 2
  funext s
  unfold hitsSeg
  have : (fun e : Pt × Pt => intersection s.2 s.1 e.2 e.1) = crossAt s := funext fun e => (crossAt_eq s e).symm
  rw [this]
  rfl

theorem hits_eq (junk : Pt) (w : List Pt) (paths : List (List Pt)) (h : ∀ p ∈ paths, p ≠ []) :
    hits w paths = .ok (paths.flatMap (pathHits junk w)) := by
  induction paths with
  | nil => rfl
  | cons p ps ih =>
    rw [hits, hitsPath_eq junk w p (h p (by simp)), ih fun q hq => h q (List.mem_cons_of_mem _ hq)]
    rfl

/-- C12: both versions of `hits` return the same points in the same order. -/
theorem C12_hits (junk : Pt) (w : List Pt) (paths : List (List Pt)) (h : ∀ p ∈ paths, p ≠ []) : hits w paths = .ok (hitsC junk w paths) := by
  rw [hits_eq junk w paths h]
  unfold hitsC
  congr 1
  symm
  rw [fold_flatMap _ (pathHits junk w) paths, List.nil_append]
  intro acc path _
  unfold pathHits
  apply fold_flatMap
  intro acc s _
  split_ifs
  · simp
  · exact fold_filterMap (crossAt s) (segs path) acc

/-- C12: both versions of `is_hitting` agree. -/
theorem C12_is_hitting (junk : Pt) (w : List Pt) (paths : List (List Pt)) (h : ∀ p ∈ paths, p ≠ []) :
    isHitting w paths = .ok (isHittingC junk w paths) := by
  unfold isHittingC
  induction paths with
  | nil => rfl
  | cons p ps ih =>
    rw [isHitting, ih fun q hq => h q (List.mem_cons_of_mem _ hq)]
    unfold isHittingPath
    rw [bbox_eq junk p (h p (by simp))]
    simp only [bind, Except.bind, pure, Except.pure, List.any_cons]
    have e : ((segs w).any fun s => !skipSeg (boxC junk p).minT (boxC junk p).maxT (boxC junk p).minY (boxC junk p).maxY s.1 s.2 &&
        (segs p).any fun e => (intersection s.2 s.1 e.2 e.1).isSome) =
        (segs w).any fun s => !skipC (boxC junk p) s.1 s.2 && (segs p).any fun e => (crossAt s e).isSome := by
      congr 1
      funext s
      have : (fun e : Pt × Pt => (intersection s.2 s.1 e.2 e.1).isSome) = fun e => (crossAt s e).isSome := funext fun e => by rw [crossAt_eq]
      rw [this]
      rfl
    rw [e]
    cases (segs w).any fun s => !skipC (boxC junk p) s.1 s.2 && (segs p).any fun e => (crossAt s e).isSome <;> rfl

/-- The array holds the points found so far. -/
def Rep (a : HitArr) (acc : List Pt) : Prop := a.count = acc.length ∧ a.rows.take a.count = acc

theorem push_ok (n : ℕ) (hn : 0 < n) (a : HitArr) (acc : List Pt) (h : Rep a acc) (p : Pt) : ∃ a', a.push n p = .ok a' ∧ Rep a' (acc ++ [p]) := by
  obtain ⟨h1, h2⟩ := h
  have hle : a.count ≤ a.rows.length := by
    have := congrArg List.length h2
    rw [List.length_take] at this
    omega
  unfold HitArr.push
  obtain ⟨rows, hrows⟩ : ∃ rows, (if a.count ≥ a.rows.length then a.rows ++ List.replicate n ((0, 0) : Pt) else a.rows) = rows := ⟨_, rfl⟩
  have hlen : a.count < rows.length ∧ rows.take a.count = acc := by
    rw [← hrows]
    split_ifs with hc
    · refine ⟨by simp; omega, ?_⟩
      rw [List.take_append_of_le_length hle, h2]
    · exact ⟨by omega, h2⟩
  obtain ⟨p1, p2⟩ := poke_take rows p a.count hlen.1
  simp only [hrows, p1, bind, Except.bind, pure, Except.pure]
  exact ⟨_, rfl, by simp [h1], by simp only [p2, hlen.2]⟩

theorem fold_rep {α : Type} (f : HitArr → α → Except PyErr HitArr) (g : List Pt → α → List Pt) (l : List α)
    (h : ∀ x ∈ l, ∀ a acc, Rep a acc → ∃ a', f a x = .ok a' ∧ Rep a' (g acc x)) (a : HitArr) (acc : List Pt) (hr : Rep a acc) :
    ∃ a', l.foldlM f a = .ok a' ∧ Rep a' (l.foldl g acc) := by
  induction l generalizing a acc with
  | nil => exact ⟨a, rfl, hr⟩
  | cons x l ih =>
    obtain ⟨a', e, hr'⟩ := h x (by simp) a acc hr
    obtain ⟨a'', e', hr''⟩ := ih (fun y hy => h y (List.mem_cons_of_mem _ hy)) a' _ hr'
    exact ⟨a'', by rw [List.foldlM_cons, e]; exact e', hr''⟩

theorem hitsNpC_eq (junk : Pt) (w : List Pt) (paths : List (List Pt)) : hitsNpC junk w paths = .ok (hitsC junk w paths) := by
  unfold hitsNpC hitsC
  obtain ⟨a, e, h1, h2⟩ := fold_rep
    (fun acc path => (segs w).foldlM (fun acc s =>
      if skipC (boxC junk path) s.1 s.2 then .ok acc
      else (segs path).foldlM (fun acc e => acc.add w.length (crossAt s e)) acc) acc)
    (fun acc path => (segs w).foldl (fun acc s =>
      if skipC (boxC junk path) s.1 s.2 then acc
      else (segs path).foldl (fun acc e => addHit acc (crossAt s e)) acc) acc) paths
    (by
      intro path _ a acc hr
      apply fold_rep _ _ _ _ a acc hr
      intro s hs a acc hr
      have hw : 0 < w.length := by
        cases w with
        | nil => simp [segs] at hs
        | cons _ _ => simp
      by_cases hk : skipC (boxC junk path) s.1 s.2 = true
      · simp only [hk, if_true]
        exact ⟨a, rfl, hr⟩
      · simp only [hk]
        apply fold_rep _ _ _ _ a acc hr
        intro e _ a acc hr
        cases crossAt s e with
        | none => exact ⟨a, rfl, hr⟩
        | some p => exact push_ok w.length hw a acc hr p)
    (⟨List.replicate w.length (0, 0), 0⟩ : HitArr) [] ⟨rfl, rfl⟩
  rw [e]
  simp only [bind, Except.bind, pure, Except.pure]
  rw [h2]

/-- C12: both versions of `hits_np` return the same rows; the compiled one enlarges its array in time.  The shape is the same if there are
hits. -/
theorem C12_hits_np (junk : Pt) (w : List Pt) (paths : List (List Pt)) (h : ∀ p ∈ paths, p ≠ []) :
    ∃ a b, hitsNp w paths = .ok a ∧ hitsNpPyx junk w paths = .ok b ∧ a.rows = b.rows ∧ (a.rows ≠ [] → a = b) := by
  refine ⟨⟨if hitsC junk w paths = [] then [0] else [(hitsC junk w paths).length, 2], hitsC junk w paths⟩,
    ⟨[(hitsC junk w paths).length, 2], hitsC junk w paths⟩, by unfold hitsNp; rw [C12_hits junk w paths h]; rfl,
    by unfold hitsNpPyx; rw [hitsNpC_eq]; rfl, rfl, fun hne => ?_⟩
  rw [if_neg hne]

/-- C12 fails without hits: the array of the compiled version has the shape (0, 2), that of the fallback (0,), which `hits[:, 0]` rejects. -/
theorem C12_hits_np_fails : ∃ (w : List Pt) (paths : List (List Pt)), (∀ p ∈ paths, p ≠ []) ∧ (hitsNp w paths = .ok ⟨[0], []⟩) ∧
    ∀ junk, hitsNpPyx junk w paths = .ok ⟨[0, 2], []⟩ := by
  refine ⟨[(0, 0), (1, 0)], [[(0, 1), (1, 1)]], by decide, by decide +kernel, fun junk => ?_⟩
  unfold hitsNpPyx
  rw [hitsNpC_eq]
  have := C12_hits junk [(0, 0), (1, 0)] [[(0, 1), (1, 1)]] (by decide)
  have e : hits [(0, 0), (1, 0)] [[(0, 1), (1, 1)]] = .ok [] := by decide +kernel
  rw [e] at this
  rw [← Except.ok.inj this]
  rfl

/-- C12 would fail for an empty path: the fallback raises `ValueError`, the compiled version does not notice. -/
theorem C12_hits_empty_path (w : List Pt) (junk : Pt) : hits w [[]] = .error .valueError ∧ hitsC junk w [[]] = [] := by
  refine ⟨rfl, ?_⟩
  unfold hitsC
  simp only [List.foldl_cons, List.foldl_nil, segs, ite_self]
  induction segs w with
  | nil => rfl
  | cons s l ih => simp

/-- The hypotheses of the hit theorems are met: a rising waveform crosses a path twice. -/
example : (∀ p ∈ ([[(0, 1), (4, 1)], [(0, 3), (4, 3)]] : List (List Pt)), p ≠ []) ∧
    hits [(0, 0), (2, 4), (4, 2)] [[(0, 1), (4, 1)], [(0, 3), (4, 3)]] = .ok [(1 / 2, 1), (3 / 2, 3), (3, 3)] := by decide +kernel

end Verif.Props.LinesC
