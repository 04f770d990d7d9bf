import Verif.Model.Lines
import Mathlib.Tactic.Linarith
import Mathlib.Tactic.Ring
import Mathlib.Tactic.NormNum
import Mathlib.Algebra.Order.Group.Unbundled.Abs
import Mathlib.Logic.Function.Iterate

/-! Helper lemmas about the rasteriser (C01-C04). -/

namespace Verif.Lines

open Verif

/-- state after `k` loop iterations -/
def segIter (dx dy sx sy : ℤ) (s : SegState) (k : ℕ) : SegState :=
  (segStep dx dy sx sy)^[k] s

theorem segIter_succ (dx dy sx sy : ℤ) (s : SegState) (k : ℕ) :
    segIter dx dy sx sy s (k + 1) = segStep dx dy sx sy (segIter dx dy sx sy s k) :=
  Function.iterate_succ_apply' _ _ _

theorem segIter_succ' (dx dy sx sy : ℤ) (s : SegState) (k : ℕ) :
    segIter dx dy sx sy s (k + 1) = segIter dx dy sx sy (segStep dx dy sx sy s) k :=
  Function.iterate_succ_apply _ _ _

/-- shallow or diagonal segments: invariant of the loop -/
theorem inv_shallow (dx dy sx sy x1 y1 : ℤ) (hdx : 0 < dx) (hdy : 0 ≤ dy) (h : dy ≤ dx) (k : ℕ) :
    ∃ Y : ℤ,
      segIter dx dy sx sy ⟨x1, y1, dx - dy⟩ k =
        ⟨x1 + sx * k, y1 + sy * Y, dx * (1 + Y) - dy * (1 + k)⟩ ∧
      -dx < 2 * (dy * k - dx * Y) ∧ 2 * (dy * k - dx * Y) ≤ dx := by
  induction k with
  | zero =>
    refine ⟨0, ?_, by push_cast; linarith, by push_cast; linarith⟩
    simp [segIter]
  | succ k ih =>
    obtain ⟨Y, hs, hl, hu⟩ := ih
    rw [segIter_succ, hs]
    -- the x step is always taken
    have hx : 2 * (dx * (1 + Y) - dy * (1 + (k : ℤ))) > -dy := by
      rcases lt_or_eq_of_le h with hlt | heq
      · nlinarith
      · subst heq
        have hk : (k : ℤ) - Y = 0 := by
          have e : dy * k - dy * Y = dy * (k - Y) := by ring
          rw [e] at hl hu
          have h1 : (k : ℤ) - Y < 1 := by
            by_contra hc
            push Not at hc
            nlinarith
          have h2 : -1 < (k : ℤ) - Y := by
            by_contra hc
            push Not at hc
            nlinarith
          omega
        have : (k : ℤ) = Y := by omega
        rw [this]; nlinarith
    by_cases hy : 2 * (dx * (1 + Y) - dy * (1 + (k : ℤ))) < dx
    · refine ⟨Y + 1, ?_, ?_, ?_⟩
      · simp only [segStep, hx, hy, if_true]
        simp only [SegState.mk.injEq]
        push_cast
        refine ⟨by ring, by ring, by ring⟩
      · push_cast; linarith
      · push_cast; linarith
    · refine ⟨Y, ?_, ?_, ?_⟩
      · simp only [segStep, hx, hy, if_true, if_false]
        simp only [SegState.mk.injEq]
        push_cast
        refine ⟨by ring, trivial, by ring⟩
      · push_cast; push Not at hy; linarith
      · push_cast; push Not at hy; linarith

/-- steep segments: invariant of the loop -/
theorem inv_steep (dx dy sx sy x1 y1 : ℤ) (hdx : 0 ≤ dx) (h : dx < dy) (k : ℕ) :
    ∃ X : ℤ,
      segIter dx dy sx sy ⟨x1, y1, dx - dy⟩ k =
        ⟨x1 + sx * X, y1 + sy * k, dx * (1 + k) - dy * (1 + X)⟩ ∧
      -dy ≤ 2 * (dy * X - dx * k) ∧ 2 * (dy * X - dx * k) < dy := by
  induction k with
  | zero =>
    refine ⟨0, ?_, by push_cast; linarith, by push_cast; linarith⟩
    simp [segIter]
  | succ k ih =>
    obtain ⟨X, hs, hl, hu⟩ := ih
    rw [segIter_succ, hs]
    have hy : 2 * (dx * (1 + (k : ℤ)) - dy * (1 + X)) < dx := by linarith
    by_cases hx : 2 * (dx * (1 + (k : ℤ)) - dy * (1 + X)) > -dy
    · refine ⟨X + 1, ?_, ?_, ?_⟩
      · simp only [segStep, hx, hy, if_true]
        simp only [SegState.mk.injEq]
        push_cast
        refine ⟨by ring, by ring, by ring⟩
      · push_cast; linarith
      · push_cast; linarith
    · refine ⟨X, ?_, ?_, ?_⟩
      · simp only [segStep, hx, hy, if_true, if_false]
        simp only [SegState.mk.injEq]
        push_cast
        refine ⟨trivial, by ring, by ring⟩
      · push_cast; push Not at hx; linarith
      · push_cast; push Not at hx; linarith

/-- Adding a list of cells to a grid. -/
def addCells (g : Grid) (cs : List (ℤ × ℤ)) : Grid := cs.foldl (fun g p => g.incr p.1 p.2) g

theorem incr_nx (g : Grid) (x y : ℤ) : (g.incr x y).nx = g.nx := by
  unfold Grid.incr; split <;> rfl
theorem incr_ny (g : Grid) (x y : ℤ) : (g.incr x y).ny = g.ny := by
  unfold Grid.incr; split <;> rfl
theorem incr_inRange (g : Grid) (x y a b : ℤ) : (g.incr x y).inRange a b = g.inRange a b := by
  simp [Grid.inRange, incr_nx, incr_ny]

theorem inRange_iff (g : Grid) (x y : ℤ) :
    g.inRange x y = true ↔ 0 ≤ x ∧ x < g.nx ∧ 0 ≤ y ∧ y < g.ny := by
  simp [Grid.inRange, and_assoc]

theorem incr_cell (g : Grid) (x y a b : ℤ) :
    (g.incr x y).cell a b = g.cell a b + (if g.inRange a b ∧ (a, b) = (x, y) then 1 else 0) := by
  unfold Grid.incr
  by_cases h : g.inRange x y
  · simp only [h, if_true]
    by_cases e : a = x ∧ b = y
    · obtain ⟨rfl, rfl⟩ := e
      simp [h]
    · have : ¬ ((a, b) = (x, y)) := by simpa using e
      simp [e, this]
  · simp only [h]
    have : ¬ (g.inRange a b = true ∧ (a, b) = (x, y)) := by
      rintro ⟨h1, h2⟩
      simp only [Prod.mk.injEq] at h2
      obtain ⟨rfl, rfl⟩ := h2
      exact h h1
    rw [if_neg this]; simp

theorem addCells_nx (g : Grid) (cs : List (ℤ × ℤ)) : (addCells g cs).nx = g.nx := by
  induction cs generalizing g with
  | nil => rfl
  | cons c cs ih => simp only [addCells, List.foldl_cons] at *; rw [ih, incr_nx]
theorem addCells_ny (g : Grid) (cs : List (ℤ × ℤ)) : (addCells g cs).ny = g.ny := by
  induction cs generalizing g with
  | nil => rfl
  | cons c cs ih => simp only [addCells, List.foldl_cons] at *; rw [ih, incr_ny]
theorem addCells_inRange (g : Grid) (cs : List (ℤ × ℤ)) (a b : ℤ) :
    (addCells g cs).inRange a b = g.inRange a b := by
  simp [Grid.inRange, addCells_nx, addCells_ny]

theorem addCells_cell (g : Grid) (cs : List (ℤ × ℤ)) (a b : ℤ) :
    (addCells g cs).cell a b = g.cell a b + (if g.inRange a b then cs.count (a, b) else 0) := by
  induction cs generalizing g with
  | nil => simp [addCells]
  | cons c cs ih =>
    have : addCells g (c :: cs) = addCells (g.incr c.1 c.2) cs := rfl
    rw [this, ih, incr_cell, incr_inRange, List.count_cons]
    by_cases h : g.inRange a b
    · simp only [h, if_true, true_and]
      have : ((c == (a, b)) = true) ↔ ((a, b) = (c.1, c.2)) := by
        rw [beq_iff_eq]
        constructor
        · rintro rfl; rfl
        · intro h; rw [h]
      by_cases e : (a, b) = (c.1, c.2)
      · rw [if_pos e, if_pos (this.2 e)]; omega
      · rw [if_neg e, if_neg (fun h => e (this.1 h))]; omega
    · simp [h]

theorem addCells_append (g : Grid) (a b : List (ℤ × ℤ)) : addCells g (a ++ b) = addCells (addCells g a) b := by
  simp [addCells, List.foldl_append]

/-- The loop, when the iteration first reaches the end point after `N` steps. -/
theorem segLoop_run (dx dy sx sy x2 y2 : ℤ) (N : ℕ) :
    ∀ (fuel : ℕ) (s : SegState) (g : Grid), N < fuel →
      (∀ k < N, ¬ ((segIter dx dy sx sy s k).x = x2 ∧ (segIter dx dy sx sy s k).y = y2)) →
      ((segIter dx dy sx sy s N).x = x2 ∧ (segIter dx dy sx sy s N).y = y2) →
      segLoop dx dy sx sy x2 y2 fuel s g =
        .ok (addCells g ((List.range N).map
          (fun k => ((segIter dx dy sx sy s k).x, (segIter dx dy sx sy s k).y)))) := by
  induction N with
  | zero =>
    intro fuel s g hf _ h0
    obtain ⟨f, rfl⟩ : ∃ f, fuel = f + 1 := ⟨fuel - 1, by omega⟩
    have h0' : s.x = x2 ∧ s.y = y2 := h0
    simp [segLoop, h0', addCells]
  | succ N ih =>
    intro fuel s g hf hk hN
    obtain ⟨f, rfl⟩ : ∃ f, fuel = f + 1 := ⟨fuel - 1, by omega⟩
    have h0 : ¬ (s.x = x2 ∧ s.y = y2) := hk 0 (by omega)
    rw [segLoop, if_neg h0]
    rw [ih f (segStep dx dy sx sy s) (g.incr s.x s.y) (by omega)
      (fun k hkN => by rw [← segIter_succ']; exact hk (k + 1) (by omega))
      (by rw [← segIter_succ']; exact hN)]
    rw [List.range_succ_eq_map, List.map_cons, List.map_map]
    simp only [addCells, List.foldl_cons, Except.ok.injEq]
    congr 1

end Verif.Lines

namespace Verif.Lines

theorem sign_mul_abs_sub (a b : ℤ) : a + (if a < b then 1 else -1) * |b - a| = b := by
  split
  · rw [abs_of_pos (by omega)]; ring
  · rw [abs_of_nonpos (by omega)]; ring

/-- The sequence of loop positions of `_draw_segment`. -/
def segPos (x1 y1 x2 y2 : ℤ) (k : ℕ) : ℤ × ℤ :=
  let s := segIter |x2 - x1| |y2 - y1| (if x1 < x2 then 1 else -1) (if y1 < y2 then 1 else -1)
    ⟨x1, y1, |x2 - x1| - |y2 - y1|⟩ k
  (s.x, s.y)

theorem segStep_move (dx dy sx sy : ℤ) (hsx : sx = 1 ∨ sx = -1) (hsy : sy = 1 ∨ sy = -1) (s : SegState) :
    |(segStep dx dy sx sy s).x - s.x| ≤ 1 ∧ |(segStep dx dy sx sy s).y - s.y| ≤ 1 := by
  unfold segStep
  by_cases h1 : 2 * s.err > -dy <;> by_cases h2 : 2 * s.err < dx <;>
    rcases hsx with rfl | rfl <;> rcases hsy with rfl | rfl <;> simp [h1, h2]

/-- Everything about the loop positions. -/
theorem segPos_spec (x1 y1 x2 y2 : ℤ) :
    let N := max (x2 - x1).natAbs (y2 - y1).natAbs
    let f := segPos x1 y1 x2 y2
    f 0 = (x1, y1) ∧ f N = (x2, y2) ∧ (∀ k < N, f k ≠ (x2, y2)) ∧
    (∀ k, |(f (k+1)).1 - (f k).1| ≤ 1 ∧ |(f (k+1)).2 - (f k).2| ≤ 1) ∧
    (∀ k ≤ N, (|y2 - y1| ≤ |x2 - x1| → |(f k).1 - x1| = k) ∧ (|x2 - x1| < |y2 - y1| → |(f k).2 - y1| = k)) ∧
    (∀ k ≤ N, 2 * |(x2 - x1) * ((f k).2 - y1) - (y2 - y1) * ((f k).1 - x1)| ≤ N) := by
  intro N f
  have hX := sign_mul_abs_sub x1 x2
  have hY := sign_mul_abs_sub y1 y2
  have hsx : (if x1 < x2 then (1:ℤ) else -1) = 1 ∨ (if x1 < x2 then (1:ℤ) else -1) = -1 := by split <;> simp
  have hsy : (if y1 < y2 then (1:ℤ) else -1) = 1 ∨ (if y1 < y2 then (1:ℤ) else -1) = -1 := by split <;> simp
  have hNdef : (N : ℤ) = max |x2 - x1| |y2 - y1| := by
    simp only [N]; push_cast; simp
  have hf : ∀ k, f k = ((segIter |x2 - x1| |y2 - y1| (if x1 < x2 then 1 else -1) (if y1 < y2 then 1 else -1)
    ⟨x1, y1, |x2 - x1| - |y2 - y1|⟩ k).x, (segIter |x2 - x1| |y2 - y1| (if x1 < x2 then 1 else -1)
      (if y1 < y2 then 1 else -1) ⟨x1, y1, |x2 - x1| - |y2 - y1|⟩ k).y) := fun k => rfl
  have hdx0 : 0 ≤ |x2 - x1| := abs_nonneg _
  have hdy0 : 0 ≤ |y2 - y1| := abs_nonneg _
  have hmove : (∀ k, |(f (k+1)).1 - (f k).1| ≤ 1 ∧ |(f (k+1)).2 - (f k).2| ≤ 1) := by
    intro k
    rw [hf, hf, segIter_succ]
    exact segStep_move _ _ _ _ hsx hsy _
  have h0 : f 0 = (x1, y1) := rfl
  clear_value N
  generalize hdx : |x2 - x1| = dx at *
  generalize hdy : |y2 - y1| = dy at *
  generalize hsxg : (if x1 < x2 then (1:ℤ) else -1) = sx at *
  generalize hsyg : (if y1 < y2 then (1:ℤ) else -1) = sy at *
  have ex : x2 - x1 = sx * dx := by linarith
  have ey : y2 - y1 = sy * dy := by linarith
  have hsx2 : sx * sx = 1 := by rcases hsx with rfl | rfl <;> norm_num
  have hsy2 : sy * sy = 1 := by rcases hsy with rfl | rfl <;> norm_num
  have habsx : ∀ z : ℤ, |sx * z| = |z| := by
    intro z; rcases hsx with rfl | rfl <;> simp
  have habsy : ∀ z : ℤ, |sy * z| = |z| := by
    intro z; rcases hsy with rfl | rfl <;> simp
  rcases lt_or_ge dx dy with hlt | hge
  · have hN : (N : ℤ) = dy := by rw [hNdef]; exact max_eq_right hlt.le
    have key : ∀ k : ℕ, ∃ X : ℤ, f k = (x1 + sx * X, y1 + sy * k) ∧
        -dy ≤ 2 * (dy * X - dx * k) ∧ 2 * (dy * X - dx * k) < dy := by
      intro k
      obtain ⟨X, hs, hl, hu⟩ := inv_steep dx dy sx sy x1 y1 hdx0 hlt k
      exact ⟨X, by rw [hf, hs], hl, hu⟩
    refine ⟨h0, ?_, ?_, hmove, ?_, ?_⟩
    · obtain ⟨X, hs, hl, hu⟩ := key N
      rw [hN] at hs hl hu
      have hXd : X = dx := by
        have e : dy * X - dx * dy = dy * (X - dx) := by ring
        rw [e] at hl hu
        have h1 : X - dx < 1 := by by_contra hc; push Not at hc; nlinarith
        have h2 : -1 < X - dx := by by_contra hc; push Not at hc; nlinarith
        omega
      rw [hs, hXd, hX, hY]
    · intro k hk hfe
      obtain ⟨X, hs, hl, hu⟩ := key k
      rw [hs, Prod.mk.injEq] at hfe
      have : sy * k = sy * dy := by linarith [hfe.2]
      have : (k : ℤ) = dy := by
        have := congrArg (sy * ·) this
        simp only [← mul_assoc, hsy2, one_mul] at this
        exact this
      omega
    · intro k hk
      obtain ⟨X, hs, hl, hu⟩ := key k
      refine ⟨fun h => by omega, fun _ => ?_⟩
      rw [hs]
      simp only [add_sub_cancel_left, habsy]
      simp
    · intro k hk
      obtain ⟨X, hs, hl, hu⟩ := key k
      rw [hs, ex, ey, hN]
      have : sx * dx * (y1 + sy * k - y1) - sy * dy * (x1 + sx * X - x1) = sx * (sy * (dx * k - dy * X)) := by ring
      simp only [this, habsx, habsy]
      have : 2 * |dx * k - dy * X| = |2 * (dx * k - dy * X)| := by rw [abs_mul]; simp
      rw [this, abs_le]
      constructor <;> linarith
  · rcases lt_or_eq_of_le hdx0 with hpos | hzero
    · have hN : (N : ℤ) = dx := by rw [hNdef]; exact max_eq_left hge
      have key : ∀ k : ℕ, ∃ Y : ℤ, f k = (x1 + sx * k, y1 + sy * Y) ∧
          -dx < 2 * (dy * k - dx * Y) ∧ 2 * (dy * k - dx * Y) ≤ dx := by
        intro k
        obtain ⟨Y, hs, hl, hu⟩ := inv_shallow dx dy sx sy x1 y1 hpos hdy0 hge k
        exact ⟨Y, by rw [hf, hs], hl, hu⟩
      refine ⟨h0, ?_, ?_, hmove, ?_, ?_⟩
      · obtain ⟨Y, hs, hl, hu⟩ := key N
        rw [hN] at hs hl hu
        have hYd : Y = dy := by
          have e : dy * dx - dx * Y = dx * (dy - Y) := by ring
          rw [e] at hl hu
          have h1 : dy - Y < 1 := by by_contra hc; push Not at hc; nlinarith
          have h2 : -1 < dy - Y := by by_contra hc; push Not at hc; nlinarith
          omega
        rw [hs, hYd, hX, hY]
      · intro k hk hfe
        obtain ⟨Y, hs, hl, hu⟩ := key k
        rw [hs, Prod.mk.injEq] at hfe
        have : sx * k = sx * dx := by linarith [hfe.1]
        have : (k : ℤ) = dx := by
          have := congrArg (sx * ·) this
          simp only [← mul_assoc, hsx2, one_mul] at this
          exact this
        omega
      · intro k hk
        obtain ⟨Y, hs, hl, hu⟩ := key k
        refine ⟨fun _ => ?_, fun h => by omega⟩
        rw [hs]
        simp only [add_sub_cancel_left, habsx]
        simp
      · intro k hk
        obtain ⟨Y, hs, hl, hu⟩ := key k
        rw [hs, ex, ey, hN]
        have : sx * dx * (y1 + sy * Y - y1) - sy * dy * (x1 + sx * k - x1) = sx * (sy * (dx * Y - dy * k)) := by ring
        simp only [this, habsx, habsy]
        have : 2 * |dx * Y - dy * k| = |2 * (dx * Y - dy * k)| := by rw [abs_mul]; simp
        rw [this, abs_le]
        constructor <;> linarith
    · have hd0 : dx = 0 := hzero.symm
      have hdy00 : dy = 0 := by omega
      have hN : N = 0 := by
        have : (N : ℤ) = 0 := by rw [hNdef, hd0, hdy00]; rfl
        exact_mod_cast this
      subst hN
      have e1 : x1 = x2 := by rw [hd0] at ex; linarith
      have e2 : y1 = y2 := by rw [hdy00] at ey; linarith
      refine ⟨h0, by rw [h0, e1, e2], fun k hk => by omega, hmove, ?_, ?_⟩
      · intro k hk
        obtain rfl : k = 0 := by omega
        rw [h0]; simp
      · intro k hk
        obtain rfl : k = 0 := by omega
        rw [h0]; simp

/-- `_draw_segment` adds the loop positions before the end point. -/
theorem drawSegmentFuel_eq (x1 y1 x2 y2 : ℤ) (g : Grid) (fuel : ℕ)
    (hf : max (x2 - x1).natAbs (y2 - y1).natAbs < fuel) :
    drawSegmentFuel fuel x1 y1 x2 y2 g =
      .ok (addCells g ((List.range (max (x2 - x1).natAbs (y2 - y1).natAbs)).map (segPos x1 y1 x2 y2))) := by
  have h := segPos_spec x1 y1 x2 y2
  simp only at h
  obtain ⟨_, hN, hk, _⟩ := h
  unfold drawSegmentFuel
  simp only
  rw [segLoop_run _ _ _ _ x2 y2 (max (x2 - x1).natAbs (y2 - y1).natAbs) fuel _ g hf]
  · rfl
  · intro k hkN ⟨ha, hb⟩
    exact hk k hkN (Prod.ext ha hb)
  · exact ⟨congrArg Prod.fst hN, congrArg Prod.snd hN⟩

theorem drawSegment_eq (x1 y1 x2 y2 : ℤ) (g : Grid) :
    drawSegment x1 y1 x2 y2 g =
      .ok (addCells g ((List.range (max (x2 - x1).natAbs (y2 - y1).natAbs)).map (segPos x1 y1 x2 y2))) :=
  drawSegmentFuel_eq x1 y1 x2 y2 g _ (by omega)

/-- The loop positions stay in the bounding rectangle of the segment. -/
theorem segPos_box (x1 y1 x2 y2 : ℤ) (k : ℕ) (hk : k ≤ max (x2 - x1).natAbs (y2 - y1).natAbs) :
    min x1 x2 ≤ (segPos x1 y1 x2 y2 k).1 ∧ (segPos x1 y1 x2 y2 k).1 ≤ max x1 x2 ∧
    min y1 y2 ≤ (segPos x1 y1 x2 y2 k).2 ∧ (segPos x1 y1 x2 y2 k).2 ≤ max y1 y2 := by
  have hX := sign_mul_abs_sub x1 x2
  have hY := sign_mul_abs_sub y1 y2
  have hsx : (if x1 < x2 then (1:ℤ) else -1) = 1 ∨ (if x1 < x2 then (1:ℤ) else -1) = -1 := by split <;> simp
  have hsy : (if y1 < y2 then (1:ℤ) else -1) = 1 ∨ (if y1 < y2 then (1:ℤ) else -1) = -1 := by split <;> simp
  have hdx0 : 0 ≤ |x2 - x1| := abs_nonneg _
  have hdy0 : 0 ≤ |y2 - y1| := abs_nonneg _
  have hkN : (k : ℤ) ≤ max |x2 - x1| |y2 - y1| := by
    have : (k : ℤ) ≤ ((max (x2 - x1).natAbs (y2 - y1).natAbs : ℕ) : ℤ) := by exact_mod_cast hk
    push_cast at this; simpa using this
  have box : ∀ (a b s d K : ℤ), (s = 1 ∨ s = -1) → a + s * d = b → 0 ≤ K → K ≤ d →
      min a b ≤ a + s * K ∧ a + s * K ≤ max a b := by
    intro a b s d K hs hb h0 hK
    rcases hs with rfl | rfl <;> constructor <;> simp only [min_le_iff, le_max_iff] <;> omega
  simp only [segPos]
  rcases lt_or_ge |x2 - x1| |y2 - y1| with hlt | hge
  · rw [max_eq_right hlt.le] at hkN
    obtain ⟨X, hs, hl, hu⟩ := inv_steep |x2 - x1| |y2 - y1| (if x1 < x2 then 1 else -1) (if y1 < y2 then 1 else -1)
      x1 y1 hdx0 hlt k
    rw [hs]
    generalize |x2 - x1| = dx at *
    generalize |y2 - y1| = dy at *
    have hk0 : (0:ℤ) ≤ k := Int.natCast_nonneg k
    have h1 : 0 ≤ X := by by_contra hc; push Not at hc; nlinarith [mul_nonneg hdx0 hk0]
    have h2 : X ≤ dx := by
      by_contra hc; push Not at hc
      have : X ≥ dx + 1 := by omega
      nlinarith [mul_nonneg hdx0 (sub_nonneg.2 hkN)]
    have b1 := box x1 x2 _ dx X hsx hX h1 h2
    have b2 := box y1 y2 _ dy k hsy hY hk0 hkN
    exact ⟨b1.1, b1.2, b2.1, b2.2⟩
  · rcases lt_or_eq_of_le hdx0 with hpos | hzero
    · rw [max_eq_left hge] at hkN
      obtain ⟨Y, hs, hl, hu⟩ := inv_shallow |x2 - x1| |y2 - y1| (if x1 < x2 then 1 else -1)
        (if y1 < y2 then 1 else -1) x1 y1 hpos hdy0 hge k
      rw [hs]
      generalize |x2 - x1| = dx at *
      generalize |y2 - y1| = dy at *
      have hk0 : (0:ℤ) ≤ k := Int.natCast_nonneg k
      have h1 : 0 ≤ Y := by by_contra hc; push Not at hc; nlinarith [mul_nonneg hdy0 hk0]
      have h2 : Y ≤ dy := by
        by_contra hc; push Not at hc
        have : Y ≥ dy + 1 := by omega
        nlinarith [mul_nonneg hdy0 (sub_nonneg.2 hkN)]
      have b1 := box x1 x2 _ dx k hsx hX hk0 hkN
      have b2 := box y1 y2 _ dy Y hsy hY h1 h2
      exact ⟨b1.1, b1.2, b2.1, b2.2⟩
    · have hm : max |x2 - x1| |y2 - y1| = 0 := by rw [max_eq_left hge]; exact hzero.symm
      have : k = 0 := by omega
      subst this
      simp [segIter]

/-- number of loop positions before the end point -/
def segLen (p q : ℤ × ℤ) : ℕ := max (q.1 - p.1).natAbs (q.2 - p.2).natAbs

/-- cells drawn for a polyline -/
def polyCells : List (ℤ × ℤ) → List (ℤ × ℤ)
  | [] => []
  | [p] => [p]
  | p :: q :: rest =>
    (List.range (segLen p q)).map (segPos p.1 p.2 q.1 q.2) ++ polyCells (q :: rest)

theorem draw_eq (ps : List (ℤ × ℤ)) (g : Grid) :
    draw ps g = if ps.length < 2 then .error .unboundLocal else .ok (addCells g (polyCells ps)) := by
  induction ps generalizing g with
  | nil => rfl
  | cons p ps ih =>
    match ps with
    | [] => rfl
    | [q] =>
      simp only [draw, drawSegment_eq, polyCells, addCells_append]
      rfl
    | q :: r :: rest =>
      simp only [draw, drawSegment_eq]
      have := ih (addCells g ((List.range (segLen p q)).map (segPos p.1 p.2 q.1 q.2)))
      simp only [List.length_cons] at this ⊢
      rw [if_neg (by omega)] at this
      rw [if_neg (by omega)]
      rw [polyCells, addCells_append, ← this]
      rfl

theorem polyCells_box (ps : List (ℤ × ℤ)) (lo hi : ℤ × ℤ)
    (h : ∀ p ∈ ps, lo.1 ≤ p.1 ∧ p.1 < hi.1 ∧ lo.2 ≤ p.2 ∧ p.2 < hi.2) :
    ∀ c ∈ polyCells ps, lo.1 ≤ c.1 ∧ c.1 < hi.1 ∧ lo.2 ≤ c.2 ∧ c.2 < hi.2 := by
  induction ps with
  | nil => simp [polyCells]
  | cons p ps ih =>
    match ps with
    | [] => simpa [polyCells] using h
    | q :: rest =>
      intro c hc
      rw [polyCells, List.mem_append] at hc
      rcases hc with hc | hc
      · rw [List.mem_map] at hc
        obtain ⟨k, hk, rfl⟩ := hc
        rw [List.mem_range] at hk
        have hb := segPos_box p.1 p.2 q.1 q.2 k hk.le
        have h1 := h p (by simp)
        have h2 := h q (by simp)
        simp only [min_le_iff, le_max_iff] at hb
        omega
      · exact ih (fun p hp => h p (List.mem_cons_of_mem _ hp)) c hc

/-- sum of `max(|dx|,|dy|)` over the segments -/
def polyLen : List (ℤ × ℤ) → ℕ
  | p :: q :: rest => segLen p q + polyLen (q :: rest)
  | _ => 0

theorem polyCells_length (ps : List (ℤ × ℤ)) (h : ps ≠ []) : (polyCells ps).length = polyLen ps + 1 := by
  induction ps with
  | nil => exact absurd rfl h
  | cons p ps ih =>
    match ps with
    | [] => simp [polyCells, polyLen]
    | q :: rest =>
      rw [polyCells, List.length_append, ih (by simp)]
      simp [polyLen]; omega

end Verif.Lines
