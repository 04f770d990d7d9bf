import Verif.Lemmas.Raster
import Mathlib.Algebra.BigOperators.Ring.Finset

/-!
C01-C04: `lines.draw`, `lines.draw_points`.
-/

namespace Verif.Props.Raster

open Verif Verif.Lines

/-! ### Specification -/

/-- Observable effect on a heat map: same shape, and each cell inside it gains one count for each
occurrence in `cells`; nothing else changes. -/
def AddsCells (before after : Grid) (cells : List (ℤ × ℤ)) : Prop :=
  after.nx = before.nx ∧ after.ny = before.ny ∧
  ∀ a b : ℤ, after.cell a b =
    before.cell a b + (if 0 ≤ a ∧ a < before.nx ∧ 0 ≤ b ∧ b < before.ny then cells.count (a, b) else 0)

/-- Number of cells of a segment, end point excluded: the larger coordinate difference. -/
def steps (x1 y1 x2 y2 : ℤ) : ℕ := max (x2 - x1).natAbs (y2 - y1).natAbs

/-- Running `_draw_segment` long enough (more loop tests than `steps`) on any grid adds exactly
`f 0, f 1, ..., f (steps - 1)`. -/
def Draws (x1 y1 x2 y2 : ℤ) (f : ℕ → ℤ × ℤ) : Prop :=
  ∀ (g : Grid) (fuel : ℕ), steps x1 y1 x2 y2 < fuel →
    ∃ g', drawSegmentFuel fuel x1 y1 x2 y2 g = .ok g' ∧
      AddsCells g g' ((List.range (steps x1 y1 x2 y2)).map f)

/-- Cells of a segment, without its end: from the first point in steps to neighbours, as many as the larger coordinate difference, within half a cell of
the ideal line, to just before the second point. -/
def Path (p q : ℤ × ℤ) (cells : List (ℤ × ℤ)) : Prop :=
  ∃ f : ℕ → ℤ × ℤ, cells = (List.range (steps p.1 p.2 q.1 q.2)).map f ∧ f 0 = p ∧ f (steps p.1 p.2 q.1 q.2) = q ∧
    (∀ k, |(f (k+1)).1 - (f k).1| ≤ 1 ∧ |(f (k+1)).2 - (f k).2| ≤ 1) ∧
    ∀ k ≤ steps p.1 p.2 q.1 q.2, 2 * |(q.1 - p.1) * ((f k).2 - p.2) - (q.2 - p.2) * ((f k).1 - p.1)| ≤ max |q.1 - p.1| |q.2 - p.2|

/-- Cells of a polyline: those of its segments, and its last point. -/
inductive Trace : List (ℤ × ℤ) → List (ℤ × ℤ) → Prop
  | last (p : ℤ × ℤ) : Trace [p] [p]
  | segment {p q : ℤ × ℤ} {ps cells more : List (ℤ × ℤ)} : Path p q cells → Trace (q :: ps) more → Trace (p :: q :: ps) (cells ++ more)

/-- Total of all counts in a grid. -/
def total (g : Grid) : ℕ := ∑ a ∈ Finset.range g.nx, ∑ b ∈ Finset.range g.ny, g.cell a b

/-- Stack several polylines, one after the other. -/
def drawAll (ls : List (List (ℤ × ℤ))) (g : Grid) : Except PyErr Grid := ls.foldlM (fun g l => draw l g) g

/-- The all zero grid of the same shape. -/
def blank (g : Grid) : Grid := { g with cell := fun _ _ => 0 }

/-! ### Support -/

theorem addsCells_addCells (g : Grid) (cs : List (ℤ × ℤ)) : AddsCells g (addCells g cs) cs := by
  refine ⟨addCells_nx g cs, addCells_ny g cs, fun a b => ?_⟩
  rw [addCells_cell]
  congr 1
  by_cases h : g.inRange a b = true
  · rw [if_pos h, if_pos ((inRange_iff g a b).1 h)]
  · rw [if_neg h, if_neg (fun hh => h ((inRange_iff g a b).2 hh))]

theorem draws_segPos (x1 y1 x2 y2 : ℤ) : Draws x1 y1 x2 y2 (segPos x1 y1 x2 y2) := by
  intro g fuel hf
  exact ⟨_, drawSegmentFuel_eq x1 y1 x2 y2 g fuel hf, addsCells_addCells g _⟩

/-! ### C01 -/

/-- **C01.** Drawing a segment terminates: whatever the end points, there is a sequence of cells from the first
point, reaching the second point after exactly `max(|dx|,|dy|)` steps and not before, and the loop stops there
having incremented exactly the cells before the end point. -/
theorem C01_segment_terminates (x1 y1 x2 y2 : ℤ) :
    ∃ f : ℕ → ℤ × ℤ, f 0 = (x1, y1) ∧ f (steps x1 y1 x2 y2) = (x2, y2) ∧
      (∀ k < steps x1 y1 x2 y2, f k ≠ (x2, y2)) ∧ Draws x1 y1 x2 y2 f := by
  have h := segPos_spec x1 y1 x2 y2
  simp only at h
  exact ⟨segPos x1 y1 x2 y2, h.1, h.2.1, h.2.2.1, draws_segPos x1 y1 x2 y2⟩

/-- A zero length segment draws nothing. -/
theorem C01_zero_length (x y : ℤ) (g : Grid) : drawSegment x y x y g = .ok g := by
  simp [drawSegment, drawSegmentFuel, segLoop]

example : steps 0 0 (-3) 7 = 7 := by decide

/-! ### C02 -/

/-- **C02.** The cells drawn for a segment: consecutive ones are neighbours (including diagonally), the major
axis advances by exactly one each step, and each is within half a cell of the ideal line measured along the minor
axis: `2·|Δx·(y-y1) - Δy·(x-x1)| ≤ max(|Δx|,|Δy|)`. -/
theorem C02_segment_accuracy (x1 y1 x2 y2 : ℤ) :
    ∃ f : ℕ → ℤ × ℤ, Draws x1 y1 x2 y2 f ∧ f 0 = (x1, y1) ∧ f (steps x1 y1 x2 y2) = (x2, y2) ∧
      (∀ k, |(f (k+1)).1 - (f k).1| ≤ 1 ∧ |(f (k+1)).2 - (f k).2| ≤ 1) ∧
      (∀ k ≤ steps x1 y1 x2 y2, (|y2 - y1| ≤ |x2 - x1| → |(f k).1 - x1| = k) ∧
        (|x2 - x1| < |y2 - y1| → |(f k).2 - y1| = k)) ∧
      (∀ k ≤ steps x1 y1 x2 y2,
        2 * |(x2 - x1) * ((f k).2 - y1) - (y2 - y1) * ((f k).1 - x1)| ≤ max |x2 - x1| |y2 - y1|) := by
  have h := segPos_spec x1 y1 x2 y2
  simp only at h
  obtain ⟨h0, hN, _, hm, hmaj, hnear⟩ := h
  refine ⟨segPos x1 y1 x2 y2, draws_segPos x1 y1 x2 y2, h0, hN, hm, hmaj, fun k hk => ?_⟩
  have := hnear k hk
  push_cast at this
  simpa using this

/-- The cells drawn stay in the bounding rectangle of the end points. -/
theorem C02_segment_box (x1 y1 x2 y2 : ℤ) :
    ∃ f : ℕ → ℤ × ℤ, Draws x1 y1 x2 y2 f ∧ ∀ k ≤ steps x1 y1 x2 y2,
      min x1 x2 ≤ (f k).1 ∧ (f k).1 ≤ max x1 x2 ∧ min y1 y2 ≤ (f k).2 ∧ (f k).2 ≤ max y1 y2 :=
  ⟨segPos x1 y1 x2 y2, draws_segPos x1 y1 x2 y2, fun k hk => segPos_box x1 y1 x2 y2 k hk⟩

/-! ### C03 -/

/-- **C03.** A polyline is an error iff it has fewer than two points, whatever the grid. -/
theorem C03_error_iff (ps : List (ℤ × ℤ)) (g : Grid) :
    (ps.length < 2 → draw ps g = .error .unboundLocal) ∧ (2 ≤ ps.length → ∃ g', draw ps g = .ok g') := by
  rw [draw_eq]
  constructor
  · intro h; rw [if_pos h]
  · intro h; rw [if_neg (by omega)]; exact ⟨_, rfl⟩

/-- **C03.** Drawing is additive: the result is the grid plus what the polyline draws on the blank grid of the
same shape; so counts never decrease, and no cell outside of the shape changes. -/
theorem C03_additive (ps : List (ℤ × ℤ)) (g g' : Grid) (h : draw ps g = .ok g') :
    ∃ c, draw ps (blank g) = .ok c ∧ g'.nx = g.nx ∧ g'.ny = g.ny ∧
      (∀ a b : ℤ, g'.cell a b = g.cell a b + c.cell a b) ∧
      (∀ a b : ℤ, ¬ (0 ≤ a ∧ a < g.nx ∧ 0 ≤ b ∧ b < g.ny) → g'.cell a b = g.cell a b) := by
  rw [draw_eq] at h
  by_cases hl : ps.length < 2
  · rw [if_pos hl] at h; exact absurd h (by simp)
  · rw [if_neg hl] at h
    obtain rfl := Except.ok.inj h
    refine ⟨addCells (blank g) (polyCells ps), by rw [draw_eq, if_neg hl], addCells_nx _ _, addCells_ny _ _, ?_, ?_⟩
    · intro a b
      rw [addCells_cell, addCells_cell]
      have e : (blank g).inRange a b = g.inRange a b := rfl
      rw [e]; simp [blank]
    · intro a b hab
      exact (addsCells_addCells g (polyCells ps)).2.2 a b |>.trans (by rw [if_neg hab]; simp)

theorem trace_polyCells (p : ℤ × ℤ) (ps : List (ℤ × ℤ)) : Trace (p :: ps) (polyCells (p :: ps)) := by
  induction ps generalizing p with
  | nil => exact .last p
  | cons q rest ih =>
    rw [polyCells]
    refine .segment ⟨segPos p.1 p.2 q.1 q.2, rfl, ?_⟩ (ih q)
    have h := segPos_spec p.1 p.2 q.1 q.2
    simp only at h
    obtain ⟨h0, hN, _, hm, _, hnear⟩ := h
    refine ⟨h0, hN, hm, fun k hk => ?_⟩
    have := hnear k hk
    push_cast at this
    simpa using this

/-- **C03.** What a polyline adds: one count for each cell of each of its segments and one for its last point, as far as they are in the grid. -/
theorem C03_cells (ps : List (ℤ × ℤ)) (g g' : Grid) (h : draw ps g = .ok g') : ∃ cells, Trace ps cells ∧ AddsCells g g' cells := by
  rw [draw_eq] at h
  by_cases hl : ps.length < 2
  · rw [if_pos hl] at h
    cases h
  · rw [if_neg hl] at h
    obtain rfl := Except.ok.inj h
    match ps, hl with
    | p :: ps, _ => exact ⟨_, trace_polyCells p ps, addsCells_addCells g _⟩

/-- A polyline that leaves the grid. -/
example : ∃ g', draw [(0, 0), (5, 2), (4, -5)] ⟨3, 3, fun _ _ => 0⟩ = .ok g' ∧ g'.cell 2 1 = 1 ∧ g'.cell 1 1 = 0 := by
  refine ⟨_, rfl, ?_⟩
  decide +kernel

theorem drawAll_eq (ls : List (List (ℤ × ℤ))) (g : Grid) (h : ∀ l ∈ ls, 2 ≤ l.length) :
    drawAll ls g = .ok (addCells g (ls.flatMap polyCells)) := by
  induction ls generalizing g with
  | nil => rfl
  | cons l ls ih =>
    have hl := h l (by simp)
    have : drawAll (l :: ls) g = (draw l g).bind (fun g => drawAll ls g) := rfl
    rw [this, draw_eq, if_neg (by omega)]
    simp only [Except.bind]
    rw [ih _ (fun l hl => h l (List.mem_cons_of_mem _ hl)), List.flatMap_cons, addCells_append]

/-- **C03.** Stacking a list of polylines gives the same heat map in any order. -/
theorem C03_order_independent (ls ms : List (List (ℤ × ℤ))) (g : Grid) (hperm : ls.Perm ms)
    (h : ∀ l ∈ ls, 2 ≤ l.length) :
    ∃ g', drawAll ls g = .ok g' ∧ drawAll ms g = .ok g' := by
  refine ⟨_, drawAll_eq ls g h, ?_⟩
  rw [drawAll_eq ms g (fun l hl => h l (hperm.mem_iff.2 hl))]
  have hp : (ls.flatMap polyCells).Perm (ms.flatMap polyCells) := List.Perm.flatMap_right _ hperm
  have hcell : (addCells g (ls.flatMap polyCells)).cell = (addCells g (ms.flatMap polyCells)).cell := by
    funext a b
    rw [addCells_cell, addCells_cell, hp.count_eq]
  have e : ∀ x y : Grid, x.nx = y.nx → x.ny = y.ny → x.cell = y.cell → x = y := by
    rintro ⟨_, _, _⟩ ⟨_, _, _⟩ rfl rfl rfl; rfl
  exact congrArg _ (e _ _ (by rw [addCells_nx, addCells_nx]) (by rw [addCells_ny, addCells_ny]) hcell.symm)

theorem total_incr (g : Grid) (x y : ℤ) (h : 0 ≤ x ∧ x < g.nx ∧ 0 ≤ y ∧ y < g.ny) :
    total (g.incr x y) = total g + 1 := by
  obtain ⟨hx0, hx, hy0, hy⟩ := h
  obtain ⟨i, rfl⟩ := Int.eq_ofNat_of_zero_le hx0
  obtain ⟨j, rfl⟩ := Int.eq_ofNat_of_zero_le hy0
  have hi : i < g.nx := by exact_mod_cast hx
  have hj : j < g.ny := by exact_mod_cast hy
  unfold total
  rw [incr_nx, incr_ny]
  have : ∀ a ∈ Finset.range g.nx, (∑ b ∈ Finset.range g.ny, (g.incr i j).cell a b) =
      (∑ b ∈ Finset.range g.ny, g.cell a b) + (if a = i then 1 else 0) := by
    intro a ha
    rw [Finset.mem_range] at ha
    have : ∀ b ∈ Finset.range g.ny, (g.incr i j).cell a b = g.cell a b + (if b = j then (if a = i then 1 else 0) else 0) := by
      intro b hb
      rw [Finset.mem_range] at hb
      rw [incr_cell]
      congr 1
      have hr : g.inRange a b = true := by rw [inRange_iff]; omega
      simp only [hr, true_and, Prod.mk.injEq, Nat.cast_inj]
      by_cases e1 : a = i <;> by_cases e2 : b = j <;> simp [e1, e2]
    rw [Finset.sum_congr rfl this, Finset.sum_add_distrib, Finset.sum_ite_eq', if_pos (Finset.mem_range.2 hj)]
  rw [Finset.sum_congr rfl this, Finset.sum_add_distrib, Finset.sum_ite_eq', if_pos (Finset.mem_range.2 hi)]

theorem total_addCells (g : Grid) (cs : List (ℤ × ℤ))
    (h : ∀ c ∈ cs, 0 ≤ c.1 ∧ c.1 < g.nx ∧ 0 ≤ c.2 ∧ c.2 < g.ny) :
    total (addCells g cs) = total g + cs.length := by
  induction cs generalizing g with
  | nil => rfl
  | cons c cs ih =>
    have : addCells g (c :: cs) = addCells (g.incr c.1 c.2) cs := rfl
    rw [this, ih]
    · rw [total_incr g _ _ (h c (by simp)), List.length_cons]; omega
    · intro d hd
      rw [incr_nx, incr_ny]
      exact h d (List.mem_cons_of_mem _ hd)

/-- Sum over the segments of the larger coordinate difference. -/
def lengthOf (ps : List (ℤ × ℤ)) : ℕ :=
  ((ps.zip ps.tail).map (fun s => steps s.1.1 s.1.2 s.2.1 s.2.2)).sum

theorem lengthOf_eq (ps : List (ℤ × ℤ)) : lengthOf ps = polyLen ps := by
  induction ps with
  | nil => rfl
  | cons p ps ih =>
    match ps with
    | [] => rfl
    | q :: rest =>
      have : lengthOf (p :: q :: rest) = steps p.1 p.2 q.1 q.2 + lengthOf (q :: rest) := by
        simp [lengthOf]
      rw [this, ih]; rfl

/-- **C03.** A polyline inside the grid adds exactly the sum of its segment lengths plus one (the last point)
counts in total. -/
theorem C03_total (ps : List (ℤ × ℤ)) (g : Grid) (hl : 2 ≤ ps.length)
    (hin : ∀ p ∈ ps, 0 ≤ p.1 ∧ p.1 < g.nx ∧ 0 ≤ p.2 ∧ p.2 < g.ny) :
    ∃ g', draw ps g = .ok g' ∧ total g' = total g + lengthOf ps + 1 := by
  refine ⟨_, by rw [draw_eq, if_neg (by omega)], ?_⟩
  rw [total_addCells g _ (polyCells_box ps (0, 0) (g.nx, g.ny) hin),
    polyCells_length ps (by rintro rfl; simp at hl), lengthOf_eq]
  omega

example : ∃ (ps : List (ℤ × ℤ)) (g : Grid), 2 ≤ ps.length ∧
    (∀ p ∈ ps, 0 ≤ p.1 ∧ p.1 < g.nx ∧ 0 ≤ p.2 ∧ p.2 < g.ny) ∧ lengthOf ps = 8 :=
  ⟨[(0, 0), (5, 2), (4, 5)], ⟨10, 10, fun _ _ => 0⟩, by decide, by decide, by decide⟩

example : (∀ l ∈ [[((0:ℤ), (0:ℤ)), (-5, 2)], [(1, 1), (1, 1), (30, 4)]], 2 ≤ l.length) ∧
    [[((0:ℤ), (0:ℤ)), (-5, 2)], [(1, 1), (1, 1), (30, 4)]].Perm
      [[(1, 1), (1, 1), (30, 4)], [((0:ℤ), (0:ℤ)), (-5, 2)]] := ⟨by decide, List.Perm.swap _ _ _⟩

/-! ### C04 -/

/-- **C04.** `draw_points` adds to each cell inside the grid the number of listed points with these coordinates and
changes nothing else. -/
theorem C04_draw_points (ps : List (ℤ × ℤ)) (g : Grid) : AddsCells g (drawPoints ps g) ps :=
  addsCells_addCells g ps

example : (drawPoints [(0, 1), (0, 1), (-1, 1), (2, 0)] ⟨2, 2, fun _ _ => 0⟩).cell 0 1 = 2 := by decide

end Verif.Props.Raster
