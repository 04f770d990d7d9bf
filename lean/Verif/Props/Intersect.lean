import Verif.Model.Lines
import Mathlib.Tactic.Linarith
import Mathlib.Tactic.LinearCombination
import Mathlib.Tactic.Ring
import Mathlib.Tactic.FieldSimp
import Mathlib.Tactic.NormNum

/-!
C08, C09: `lines.intersection`, `lines.hits`, `lines.is_hitting`.
-/

namespace Verif.Props.Intersect

open Verif Verif.Lines

/-! ### Specification -/

/-- `z` is on the closed segment from `p` to `q`. -/
def OnSeg (p q z : Pt) : Prop :=
  ∃ a : ℚ, 0 ≤ a ∧ a ≤ 1 ∧ z.1 = p.1 + a * (q.1 - p.1) ∧ z.2 = p.2 + a * (q.2 - p.2)

/-- `z` is on the infinite line through `p` and `q`. -/
def OnLine (p q z : Pt) : Prop :=
  ∃ a : ℚ, z.1 = p.1 + a * (q.1 - p.1) ∧ z.2 = p.2 + a * (q.2 - p.2)

/-- The directions of `pq` and `rs` are parallel (or one of them is a single point). -/
def Parallel (p q r s : Pt) : Prop := (q.1 - p.1) * (s.2 - r.2) = (q.2 - p.2) * (s.1 - r.1)

/-! ### C08 -/

theorem line_params {p q r s z : Pt} (hd : (p.1 - q.1) * (r.2 - s.2) - (p.2 - q.2) * (r.1 - s.1) ≠ 0)
    {a b : ℚ} (ha1 : z.1 = p.1 + a * (q.1 - p.1)) (ha2 : z.2 = p.2 + a * (q.2 - p.2))
    (hb1 : z.1 = r.1 + b * (s.1 - r.1)) (hb2 : z.2 = r.2 + b * (s.2 - r.2)) :
    a = ((p.1 - r.1) * (r.2 - s.2) - (p.2 - r.2) * (r.1 - s.1)) /
        ((p.1 - q.1) * (r.2 - s.2) - (p.2 - q.2) * (r.1 - s.1)) ∧
    b = ((p.1 - r.1) * (p.2 - q.2) - (p.2 - r.2) * (p.1 - q.1)) /
        ((p.1 - q.1) * (r.2 - s.2) - (p.2 - q.2) * (r.1 - s.1)) := by
  have e1 : p.1 + a * (q.1 - p.1) = r.1 + b * (s.1 - r.1) := by rw [← ha1, hb1]
  have e2 : p.2 + a * (q.2 - p.2) = r.2 + b * (s.2 - r.2) := by rw [← ha2, hb2]
  constructor
  · rw [eq_div_iff hd]
    linear_combination (s.2 - r.2) * e1 - (s.1 - r.1) * e2
  · rw [eq_div_iff hd]
    linear_combination (q.2 - p.2) * e1 - (q.1 - p.1) * e2

theorem parallel_iff (p q r s : Pt) :
    Parallel p q r s ↔ (p.1 - q.1) * (r.2 - s.2) - (p.2 - q.2) * (r.1 - s.1) = 0 := by
  unfold Parallel
  constructor <;> intro h <;> linarith

theorem mem_params {p q r s : Pt} (hd : (p.1 - q.1) * (r.2 - s.2) - (p.2 - q.2) * (r.1 - s.1) ≠ 0) :
    let d := (p.1 - q.1) * (r.2 - s.2) - (p.2 - q.2) * (r.1 - s.1)
    let a := ((p.1 - r.1) * (r.2 - s.2) - (p.2 - r.2) * (r.1 - s.1)) / d
    let b := ((p.1 - r.1) * (p.2 - q.2) - (p.2 - r.2) * (p.1 - q.1)) / d
    p.1 + a * (q.1 - p.1) = r.1 + b * (s.1 - r.1) ∧ p.2 + a * (q.2 - p.2) = r.2 + b * (s.2 - r.2) := by
  intro d a b
  have ha : a * d = (p.1 - r.1) * (r.2 - s.2) - (p.2 - r.2) * (r.1 - s.1) := div_mul_cancel₀ _ hd
  have hb : b * d = (p.1 - r.1) * (p.2 - q.2) - (p.2 - r.2) * (p.1 - q.1) := div_mul_cancel₀ _ hd
  have hdd : d = (p.1 - q.1) * (r.2 - s.2) - (p.2 - q.2) * (r.1 - s.1) := rfl
  constructor
  · apply mul_right_cancel₀ hd
    linear_combination (q.1 - p.1) * ha - (s.1 - r.1) * hb + (p.1 - r.1) * hdd
  · apply mul_right_cancel₀ hd
    linear_combination (q.2 - p.2) * ha - (s.2 - r.2) * hb + (p.2 - r.2) * hdd

/-- **C08 (segments).** `intersection` returns a point iff the segments are not parallel and share it. -/
theorem C08_segments (p q r s z : Pt) :
    intersection p q r s true = some z ↔ ¬ Parallel p q r s ∧ OnSeg p q z ∧ OnSeg r s z := by
  rw [parallel_iff]
  by_cases hd : (p.1 - q.1) * (r.2 - s.2) - (p.2 - q.2) * (r.1 - s.1) = 0
  · simp [intersection, hd]
  · have hmem := mem_params hd
    have hpar := @line_params p q r s z hd
    simp only at hmem
    simp only [intersection, true_and, hd, not_false_eq_true]
    generalize (p.1 - q.1) * (r.2 - s.2) - (p.2 - q.2) * (r.1 - s.1) = d at *
    generalize (p.1 - r.1) * (r.2 - s.2) - (p.2 - r.2) * (r.1 - s.1) = tn at *
    generalize (p.1 - r.1) * (p.2 - q.2) - (p.2 - r.2) * (p.1 - q.1) = un at *
    -- the bounds test is that both parameters are in [0, 1]
    have hb : (if d > 0 then tn < 0 ∨ un < 0 ∨ tn > d ∨ un > d else tn > 0 ∨ un > 0 ∨ tn < d ∨ un < d) ↔
        ¬ (0 ≤ tn / d ∧ tn / d ≤ 1 ∧ 0 ≤ un / d ∧ un / d ≤ 1) := by
      rcases lt_or_gt_of_ne hd with hneg | hpos
      · rw [if_neg (not_lt.2 hneg.le), div_le_one_of_neg hneg, div_le_one_of_neg hneg]
        rw [div_nonneg_iff, div_nonneg_iff]
        have h1 : ¬ 0 ≤ d := not_le.2 hneg
        simp only [h1, and_false, hneg.le, and_true, false_or]
        rw [← not_lt, ← not_lt, ← not_lt, ← not_lt]
        tauto
      · rw [if_pos hpos, div_le_one hpos, div_le_one hpos, div_nonneg_iff, div_nonneg_iff]
        have h1 : ¬ d ≤ 0 := not_le.2 hpos
        simp only [h1, and_false, hpos.le, and_true, or_false]
        rw [← not_lt, ← not_lt, ← not_lt, ← not_lt]
        tauto
    simp only [hb]
    by_cases hin : 0 ≤ tn / d ∧ tn / d ≤ 1 ∧ 0 ≤ un / d ∧ un / d ≤ 1
    · rw [if_neg (not_not.2 hin)]
      obtain ⟨h1, h2, h3, h4⟩ := hin
      constructor
      · intro h
        obtain rfl := Option.some.inj h
        exact ⟨⟨tn / d, h1, h2, rfl, rfl⟩, ⟨un / d, h3, h4, hmem.1, hmem.2⟩⟩
      · rintro ⟨⟨a, _, _, ha1, ha2⟩, ⟨b, _, _, hb1, hb2⟩⟩
        obtain ⟨rfl, rfl⟩ := hpar ha1 ha2 hb1 hb2
        exact congrArg some (Prod.ext ha1.symm ha2.symm)
    · rw [if_pos hin]
      constructor
      · intro h; exact absurd h (by simp)
      · rintro ⟨⟨a, ha3, ha4, ha1, ha2⟩, ⟨b, hb3, hb4, hb1, hb2⟩⟩
        obtain ⟨rfl, rfl⟩ := hpar ha1 ha2 hb1 hb2
        exact absurd ⟨ha3, ha4, hb3, hb4⟩ hin

/-- **C08 (infinite lines).** -/
theorem C08_lines (p q r s z : Pt) :
    intersection p q r s false = some z ↔ ¬ Parallel p q r s ∧ OnLine p q z ∧ OnLine r s z := by
  rw [parallel_iff]
  by_cases hd : (p.1 - q.1) * (r.2 - s.2) - (p.2 - q.2) * (r.1 - s.1) = 0
  · simp [intersection, hd]
  · have hmem := mem_params hd
    have hpar := @line_params p q r s z hd
    simp only at hmem
    simp only [intersection, hd, not_false_eq_true, true_and, Bool.false_eq_true, false_and, if_false]
    constructor
    · intro h
      obtain rfl := Option.some.inj h
      exact ⟨⟨_, rfl, rfl⟩, ⟨_, hmem.1, hmem.2⟩⟩
    · rintro ⟨⟨a, ha1, ha2⟩, ⟨b, hb1, hb2⟩⟩
      obtain ⟨rfl, rfl⟩ := hpar ha1 ha2 hb1 hb2
      exact congrArg some (Prod.ext ha1.symm ha2.symm)

theorem onSeg_comm (p q z : Pt) : OnSeg p q z ↔ OnSeg q p z := by
  have : ∀ p q : Pt, OnSeg p q z → OnSeg q p z := by
    rintro p q ⟨a, h0, h1, hx, hy⟩
    exact ⟨1 - a, by linarith, by linarith, by rw [hx]; ring, by rw [hy]; ring⟩
  exact ⟨this p q, this q p⟩

theorem parallel_comm (p q r s : Pt) :
    (Parallel p q r s ↔ Parallel q p r s) ∧ (Parallel p q r s ↔ Parallel r s p q) := by
  unfold Parallel
  constructor <;> constructor <;> intro h <;> linarith

theorem option_ext {a b : Option Pt} (h : ∀ z, a = some z ↔ b = some z) : a = b := by
  cases a with
  | none =>
    cases b with
    | none => rfl
    | some y => exact absurd ((h y).2 rfl) (by simp)
  | some x => exact ((h x).1 rfl).symm

/-- **C08 (symmetry).** Reversing a segment or swapping the segments does not change the result. -/
theorem C08_symmetric (p q r s : Pt) :
    intersection q p r s true = intersection p q r s true ∧
    intersection p q s r true = intersection p q r s true ∧
    intersection r s p q true = intersection p q r s true := by
  have h1 : ∀ p q r s, intersection q p r s true = intersection p q r s true := by
    intro p q r s
    apply option_ext; intro z
    rw [C08_segments, C08_segments, onSeg_comm q p, (parallel_comm p q r s).1]
  have h3 : ∀ p q r s, intersection r s p q true = intersection p q r s true := by
    intro p q r s
    apply option_ext; intro z
    rw [C08_segments, C08_segments, (parallel_comm p q r s).2]
    tauto
  refine ⟨h1 p q r s, ?_, h3 p q r s⟩
  rw [← h3 p q s r, h1, h3]

example : ¬ Parallel (0, 0) (2, 2) (0, 2) (2, 0) ∧ OnSeg (0, 0) (2, 2) (1, 1) ∧ OnSeg (0, 2) (2, 0) (1, 1) := by
  refine ⟨by simp [Parallel]; norm_num, ⟨1/2, ?_⟩, ⟨1/2, ?_⟩⟩ <;> norm_num

/-- Touching at an end point counts. -/
example : intersection (0, 0) (2, 2) (2, 2) (3, 0) true = some (2, 2) := by decide +kernel

/-! ### C09 -/

/-- All consecutive pairs of a list of points. -/
def pairs (l : List Pt) : List (Pt × Pt) := l.zip l.tail

/-- All intersections of all waveform segments with all segments of a path, in order. -/
def allHitsPath (w path : List Pt) : List Pt :=
  (pairs w).flatMap (fun a => (pairs path).filterMap (fun b => intersection a.1 a.2 b.1 b.2 true))

/-- All intersections, path by path. -/
def allHits (w : List Pt) (paths : List (List Pt)) : List Pt := paths.flatMap (allHitsPath w)

theorem segs_eq_pairs (l : List Pt) : segs l = pairs l := by
  induction l with
  | nil => rfl
  | cons a l ih =>
    match l with
    | [] => rfl
    | b :: rest =>
      rw [segs, ih]; rfl

theorem foldl_min_le (f : Pt → ℚ) (ps : List Pt) : ∀ m : ℚ, ps.foldl (fun m q => min m (f q)) m ≤ m ∧
    ∀ q ∈ ps, ps.foldl (fun m q => min m (f q)) m ≤ f q := by
  induction ps with
  | nil => intro m; exact ⟨le_refl _, by simp⟩
  | cons p ps ih =>
    intro m
    obtain ⟨h1, h2⟩ := ih (min m (f p))
    refine ⟨h1.trans (min_le_left _ _), ?_⟩
    intro q hq
    rw [List.mem_cons] at hq
    rcases hq with rfl | hq
    · exact h1.trans (min_le_right _ _)
    · exact h2 q hq

theorem foldl_max_ge (f : Pt → ℚ) (ps : List Pt) : ∀ m : ℚ, m ≤ ps.foldl (fun m q => max m (f q)) m ∧
    ∀ q ∈ ps, f q ≤ ps.foldl (fun m q => max m (f q)) m := by
  induction ps with
  | nil => intro m; exact ⟨le_refl _, by simp⟩
  | cons p ps ih =>
    intro m
    obtain ⟨h1, h2⟩ := ih (max m (f p))
    refine ⟨(le_max_left _ _).trans h1, ?_⟩
    intro q hq
    rw [List.mem_cons] at hq
    rcases hq with rfl | hq
    · exact (le_max_right _ _).trans h1
    · exact h2 q hq

theorem bbox_spec {path : List Pt} (hne : path ≠ []) :
    ∃ b, bbox path = .ok b ∧ ∀ q ∈ path, b.1 ≤ q.1 ∧ q.1 ≤ b.2.1 ∧ b.2.2.1 ≤ q.2 ∧ q.2 ≤ b.2.2.2 := by
  match path, hne with
  | p :: ps, _ =>
    refine ⟨_, rfl, ?_⟩
    intro q hq
    have a1 := foldl_min_le (·.1) ps p.1
    have a2 := foldl_max_ge (·.1) ps p.1
    have a3 := foldl_min_le (·.2) ps p.2
    have a4 := foldl_max_ge (·.2) ps p.2
    rw [List.mem_cons] at hq
    rcases hq with rfl | hq
    · exact ⟨a1.1, a2.1, a3.1, a4.1⟩
    · exact ⟨a1.2 q hq, a2.2 q hq, a3.2 q hq, a4.2 q hq⟩

theorem onSeg_bounds {p q z : Pt} (h : OnSeg p q z) :
    min p.1 q.1 ≤ z.1 ∧ z.1 ≤ max p.1 q.1 ∧ min p.2 q.2 ≤ z.2 ∧ z.2 ≤ max p.2 q.2 := by
  obtain ⟨a, h0, h1, hx, hy⟩ := h
  have key : ∀ u v : ℚ, min u v ≤ u + a * (v - u) ∧ u + a * (v - u) ≤ max u v := by
    intro u v
    rcases le_total u v with h | h
    · rw [min_eq_left h, max_eq_right h]
      constructor
      · nlinarith
      · nlinarith
    · rw [min_eq_right h, max_eq_left h]
      constructor
      · nlinarith
      · nlinarith
  rw [hx, hy]
  exact ⟨(key _ _).1, (key _ _).2, (key _ _).1, (key _ _).2⟩

theorem mem_pairs {l : List Pt} {a : Pt × Pt} (h : a ∈ pairs l) : a.1 ∈ l ∧ a.2 ∈ l := by
  have := List.of_mem_zip (show (a.1, a.2) ∈ l.zip l.tail from h)
  exact ⟨this.1, List.mem_of_mem_tail this.2⟩

/-- The bounding box filter only drops segments without intersection. -/
theorem skipSeg_sound {path : List Pt} {b : ℚ × ℚ × ℚ × ℚ}
    (hb : ∀ q ∈ path, b.1 ≤ q.1 ∧ q.1 ≤ b.2.1 ∧ b.2.2.1 ≤ q.2 ∧ q.2 ≤ b.2.2.2)
    {prev cur : Pt} (ht : prev.1 ≤ cur.1) (hs : skipSeg b.1 b.2.1 b.2.2.1 b.2.2.2 prev cur = true)
    {e : Pt × Pt} (he : e ∈ pairs path) : intersection cur prev e.2 e.1 true = none := by
  by_contra hne
  obtain ⟨z, hz⟩ := Option.ne_none_iff_exists'.1 hne
  rw [C08_segments] at hz
  obtain ⟨_, h1, h2⟩ := hz
  have b1 := onSeg_bounds h1
  have b2 := onSeg_bounds h2
  have m := mem_pairs he
  have c1 := hb _ m.1
  have c2 := hb _ m.2
  have d1 : b.1 ≤ z.1 := (le_min c2.1 c1.1).trans b2.1
  have d2 : z.1 ≤ b.2.1 := b2.2.1.trans (max_le c2.2.1 c1.2.1)
  have d3 : b.2.2.1 ≤ z.2 := (le_min c2.2.2.1 c1.2.2.1).trans b2.2.2.1
  have d4 : z.2 ≤ b.2.2.2 := b2.2.2.2.trans (max_le c2.2.2.2 c1.2.2.2)
  rw [min_eq_right ht, max_eq_left ht] at b1
  unfold skipSeg at hs
  split at hs
  · rename_i h
    rcases h with h | h
    · linarith [b1.2.1]
    · linarith [b1.1]
  · split at hs
    · rename_i h
      rw [min_eq_right h.le, max_eq_left h.le] at b1
      rw [decide_eq_true_iff] at hs
      rcases hs with hs | hs
      · linarith [b1.2.2.2]
      · linarith [b1.2.2.1]
    · rename_i h
      push Not at h
      rw [min_eq_left h, max_eq_right h] at b1
      rw [decide_eq_true_iff] at hs
      rcases hs with hs | hs
      · linarith [b1.2.2.1]
      · linarith [b1.2.2.2]

theorem inter_flip (a b : Pt × Pt) : intersection a.2 a.1 b.2 b.1 true = intersection a.1 a.2 b.1 b.2 true := by
  rw [(C08_symmetric a.1 a.2 b.2 b.1).1, (C08_symmetric a.1 a.2 b.1 b.2).2.1]

/-- Times never decrease along the waveform. -/
def NonDecreasing (w : List Pt) : Prop := ∀ a ∈ pairs w, a.1.1 ≤ a.2.1

theorem hitsPath_eq {w path : List Pt} (hne : path ≠ []) (hw : NonDecreasing w) :
    hitsPath w path = .ok (allHitsPath w path) := by
  obtain ⟨b, hb, hbb⟩ := bbox_spec hne
  unfold hitsPath allHitsPath
  rw [hb]
  simp only [bind, Except.bind, pure, Except.pure, segs_eq_pairs]
  congr 1
  apply List.flatMap_congr
  intro a ha
  have hstep : (pairs path).filterMap (fun e => intersection a.2 a.1 e.2 e.1 true) =
      (pairs path).filterMap (fun e => intersection a.1 a.2 e.1 e.2 true) := by
    apply List.filterMap_congr
    intro e _
    exact inter_flip a e
  split
  · rename_i hs
    symm
    rw [← hstep, List.filterMap_eq_nil_iff]
    intro e he
    exact skipSeg_sound hbb (hw a ha) hs he
  · unfold hitsSeg
    rw [segs_eq_pairs]
    exact hstep

/-- **C09.** For a waveform with non-decreasing time and non-empty paths, `hits` returns exactly the intersections of
all waveform segments with all path segments, in order: the bounding box filter loses nothing. -/
theorem C09_hits (w : List Pt) (paths : List (List Pt)) (hw : NonDecreasing w) (hne : ∀ p ∈ paths, p ≠ []) :
    hits w paths = .ok (allHits w paths) := by
  induction paths with
  | nil => rfl
  | cons p ps ih =>
    rw [hits, hitsPath_eq (hne p (by simp)) hw, ih (fun q hq => hne q (List.mem_cons_of_mem _ hq))]
    rfl

/-- An empty path makes `hits` raise ValueError. -/
theorem C09_empty_path (w : List Pt) (paths : List (List Pt)) (h : [] ∈ paths) :
    hits w paths = .error .valueError := by
  induction paths with
  | nil => simp at h
  | cons p ps ih =>
    rw [hits]
    by_cases hp : p = []
    · subst hp; rfl
    · obtain ⟨b, hb, _⟩ := bbox_spec hp
      have : [] ∈ ps := by
        rw [List.mem_cons] at h
        rcases h with h | h
        · exact absurd h.symm hp
        · exact h
      unfold hitsPath
      rw [hb, ih this]
      rfl

theorem isHittingPath_eq {w path : List Pt} (hne : path ≠ []) :
    ∃ l, hitsPath w path = .ok l ∧ isHittingPath w path = .ok (decide (l ≠ [])) := by
  obtain ⟨b, hb, _⟩ := bbox_spec hne
  unfold hitsPath isHittingPath
  rw [hb]
  refine ⟨_, rfl, ?_⟩
  simp only [bind, Except.bind, pure, Except.pure]
  congr 1
  rw [Bool.eq_iff_iff, decide_eq_true_iff, ne_eq, List.flatMap_eq_nil_iff, List.any_eq_true]
  simp only [Bool.and_eq_true, List.any_eq_true, Bool.not_eq_true']
  constructor
  · rintro ⟨a, ha, hs, e, he, hi⟩ hall
    have := hall a ha
    rw [hs] at this
    simp only [Bool.false_eq_true, if_false, hitsSeg, List.filterMap_eq_nil_iff] at this
    rw [this e he] at hi
    simp at hi
  · intro hall
    push Not at hall
    obtain ⟨a, ha, hn⟩ := hall
    by_cases hs : skipSeg b.1 b.2.1 b.2.2.1 b.2.2.2 a.1 a.2 = true
    · rw [if_pos hs] at hn; exact absurd rfl hn
    · rw [if_neg hs] at hn
      have hs' : skipSeg b.1 b.2.1 b.2.2.1 b.2.2.2 a.1 a.2 = false := by simpa using hs
      rw [hitsSeg, Ne, List.filterMap_eq_nil_iff] at hn
      push Not at hn
      obtain ⟨e, he, hi⟩ := hn
      refine ⟨a, ha, hs', e, he, ?_⟩
      exact Option.ne_none_iff_isSome.1 hi

/-- **C09.** `is_hitting` is true exactly when `hits` is not empty (for any waveform, whether or not its times are
ordered). -/
theorem C09_is_hitting (w : List Pt) (paths : List (List Pt)) (hne : ∀ p ∈ paths, p ≠ []) :
    ∃ l, hits w paths = .ok l ∧ isHitting w paths = .ok (decide (l ≠ [])) := by
  induction paths with
  | nil => exact ⟨[], rfl, rfl⟩
  | cons p ps ih =>
    obtain ⟨l1, h1, h2⟩ := isHittingPath_eq (w := w) (hne p (by simp))
    obtain ⟨l2, h3, h4⟩ := ih (fun q hq => hne q (List.mem_cons_of_mem _ hq))
    refine ⟨l1 ++ l2, by rw [hits, h1, h3]; rfl, ?_⟩
    rw [isHitting, h2]
    simp only [bind, Except.bind]
    by_cases hl : l1 = []
    · subst hl
      simp [h4]
    · simp [hl, pure, Except.pure]

/-- **C09.** Hence `is_hitting` is true exactly if some waveform segment properly meets some path segment. -/
theorem C09_is_hitting_geometric (w : List Pt) (paths : List (List Pt)) (hw : NonDecreasing w)
    (hne : ∀ p ∈ paths, p ≠ []) :
    ∃ b, isHitting w paths = .ok b ∧ (b = true ↔ ∃ path ∈ paths, ∃ a ∈ pairs w, ∃ e ∈ pairs path,
      ¬ Parallel a.1 a.2 e.1 e.2 ∧ ∃ z, OnSeg a.1 a.2 z ∧ OnSeg e.1 e.2 z) := by
  obtain ⟨l, h1, h2⟩ := C09_is_hitting w paths hne
  rw [C09_hits w paths hw hne] at h1
  obtain rfl := Except.ok.inj h1
  refine ⟨_, h2, ?_⟩
  rw [decide_eq_true_iff]
  constructor
  · intro h
    obtain ⟨z, hz⟩ := List.exists_mem_of_ne_nil _ h
    simp only [allHits, allHitsPath, List.mem_flatMap, List.mem_filterMap] at hz
    obtain ⟨path, hp, a, ha, e, he, hi⟩ := hz
    rw [C08_segments] at hi
    exact ⟨path, hp, a, ha, e, he, hi.1, z, hi.2⟩
  · rintro ⟨path, hp, a, ha, e, he, hpar, z, hz⟩
    apply List.ne_nil_of_mem (a := z)
    simp only [allHits, allHitsPath, List.mem_flatMap, List.mem_filterMap]
    exact ⟨path, hp, a, ha, e, he, (C08_segments _ _ _ _ _).2 ⟨hpar, hz⟩⟩

/-- The time order hypothesis is needed: with decreasing time a hit is lost. -/
theorem C09_unordered_time_loses_hits :
    hits [(3, 0), (0, 3)] [[(0, 0), (2, 2)]] = .ok [] ∧
    allHits [(3, 0), (0, 3)] [[(0, 0), (2, 2)]] = [(3/2, 3/2)] := by decide +kernel

example : NonDecreasing [(0, 3), (3, 0), (4, 5)] ∧
    hits [(0, 3), (3, 0), (4, 5)] [[(0, 0), (2, 2)]] = .ok [(3/2, 3/2)] := by
  constructor
  · intro a ha
    simp [pairs] at ha
    rcases ha with rfl | rfl <;> norm_num
  · decide +kernel

end Verif.Props.Intersect
