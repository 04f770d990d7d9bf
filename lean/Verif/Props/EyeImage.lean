import Verif.Props.EyeMask
import Verif.Props.Raster
import Mathlib.Algebra.BigOperators.Intervals
import Mathlib.Algebra.BigOperators.Ring.Finset

/-!
C55: image coordinates.  C56: fallback clock and symbol period.  C59: heat map.
-/

namespace Verif.Props.EyeImage

open Verif Verif.Lines Verif.Eye Verif.Props.Raster Verif.Props.EyeWindow Verif.Props.EyeMask

/-! ### C55 -/

/-- C55: larger coordinates are further right (up). -/
theorem C55_monotone (res : ℕ) (u v : ℚ) (h : u ≤ v) : uiaPos res u ≤ uiaPos res v := by
  unfold uiaPos
  apply pyInt_mono
  have : (0 : ℚ) ≤ res := Nat.cast_nonneg res
  have : (u + 1 / 2) / 2 ≤ (v + 1 / 2) / 2 := by linarith
  exact mul_le_mul_of_nonneg_right this (Nat.cast_nonneg res)

theorem pos_floor (res : ℕ) (u : ℚ) (h : -1 / 2 ≤ u) : uiaPos res u = ⌊(u + 1 / 2) / 2 * res⌋ := by
  unfold uiaPos
  refine pyInt_nonneg _ (mul_nonneg ?_ (Nat.cast_nonneg res))
  linarith

/-- C55: the range [-0.5, 1.5) is mapped onto the pixels of the image. -/
theorem C55_range (res : ℕ) (hr : 0 < res) (k : ℤ) :
    (∃ u : ℚ, -1 / 2 ≤ u ∧ u < 3 / 2 ∧ uiaPos res u = k ∧ uiaToImage res u = [k]) ↔ 0 ≤ k ∧ k < res := by
  have hq : (0 : ℚ) < res := by exact_mod_cast hr
  constructor
  · rintro ⟨u, h1, h2, rfl, -⟩
    rw [pos_floor res u h1]
    constructor
    · exact Int.floor_nonneg.2 (mul_nonneg (by linarith) hq.le)
    · rw [Int.floor_lt]
      push_cast
      have : (u + 1 / 2) / 2 < 1 := by linarith
      nlinarith
  · rintro ⟨h1, h2⟩
    have hk : (0 : ℚ) ≤ k := by exact_mod_cast h1
    have hk2 : (k : ℚ) < res := by exact_mod_cast h2
    have hlt : (k : ℚ) / res < 1 := (div_lt_one hq).2 hk2
    have hge : 0 ≤ (k : ℚ) / res := div_nonneg hk hq.le
    have hp : uiaPos res (2 * (k / res) - 1 / 2) = k := by
      rw [pos_floor res _ (by linarith)]
      have : (2 * ((k : ℚ) / res) - 1 / 2 + 1 / 2) / 2 * res = k := by
        have := div_mul_cancel₀ (k : ℚ) hq.ne'
        linarith
      rw [this, Int.floor_intCast]
    refine ⟨2 * (k / res) - 1 / 2, by linarith, by linarith, hp, ?_⟩
    unfold uiaToImage
    rw [hp, if_pos ⟨h1, h2.le⟩]

/-- C55, except for one pixel to the right of the image (see `C55_edge_fails`): a position returned for drawing is inside the image. -/
theorem C55_inside_partial (res : ℕ) (hr : 0 < res) (u : ℚ) (hu : ¬ (3 / 2 ≤ u ∧ u < 3 / 2 + 2 / res)) :
    ∀ p ∈ uiaToImage res u, 0 ≤ p ∧ p < res := by
  have hq : (0 : ℚ) < res := by exact_mod_cast hr
  intro p hp
  unfold uiaToImage at hp
  split at hp
  · rename_i h
    rw [List.mem_singleton.1 hp]
    refine ⟨h.1, ?_⟩
    by_contra hc
    push Not at hc
    have he : uiaPos res u = res := le_antisymm h.2 hc
    by_cases h0 : -1 / 2 ≤ u
    · rw [pos_floor res u h0, Int.floor_eq_iff] at he
      push_cast at he
      obtain ⟨h1, h2⟩ := he
      refine hu ⟨?_, ?_⟩
      · by_contra hc2
        push Not at hc2
        have : (u + 1 / 2) / 2 < 1 := by linarith
        nlinarith
      · by_contra hc2
        push Not at hc2
        have h3 : 1 + 1 / (res : ℚ) ≤ (u + 1 / 2) / 2 := by
          have : (2 : ℚ) / res = 2 * (1 / res) := by ring
          linarith
        have h4 : (1 + 1 / (res : ℚ)) * res = res + 1 := by
          have := div_mul_cancel₀ (1 : ℚ) hq.ne'
          linarith
        have h5 := mul_le_mul_of_nonneg_right h3 hq.le
        linarith
    · push Not at h0
      have := C55_monotone res u (-1 / 2) h0.le
      rw [he, pos_floor res (-1 / 2) (le_refl _)] at this
      norm_num at this
      omega
  · simp at hp

/-- **C55 fails** at 1.5: the position is outside the image. -/
theorem C55_edge_fails (res : ℕ) : uiaToImage res (3 / 2) = [(res : ℤ)] := by
  have : uiaPos res (3 / 2) = res := by
    rw [pos_floor res _ (by norm_num)]
    norm_num
  unfold uiaToImage
  rw [this, if_pos ⟨by positivity, le_refl _⟩]

/-- C55, exactly: the positions outside the image are those of the first pixel to the right of it, and they are all that column. -/
theorem C55_outside (res : ℕ) (hr : 0 < res) (u : ℚ) :
    (∃ p ∈ uiaToImage res u, ¬ (0 ≤ p ∧ p < res)) ↔ (3 / 2 ≤ u ∧ u < 3 / 2 + 2 / res) := by
  have hq : (0 : ℚ) < res := by exact_mod_cast hr
  constructor
  · rintro ⟨p, hp, hn⟩
    by_contra hc
    exact hn (C55_inside_partial res hr u hc p hp)
  · rintro ⟨h1, h2⟩
    have : uiaPos res u = res := by
      rw [pos_floor res u (by linarith), Int.floor_eq_iff]
      have h3 : 1 ≤ (u + 1 / 2) / 2 := by linarith
      have h4 : (u + 1 / 2) / 2 < 1 + 1 / (res : ℚ) := by
        have : (2 : ℚ) / res = 2 * (1 / res) := by ring
        linarith
      have h5 := mul_le_mul_of_nonneg_right h3 hq.le
      have h6 := mul_lt_mul_of_pos_right h4 hq
      have h7 : (1 + 1 / (res : ℚ)) * res = res + 1 := by
        have := div_mul_cancel₀ (1 : ℚ) hq.ne'
        linarith
      push_cast
      constructor <;> linarith
    refine ⟨res, ?_, by omega⟩
    unfold uiaToImage
    rw [this, if_pos ⟨by positivity, le_refl _⟩]
    simp

/-- The hypotheses of the C55 theorems are met. -/
example : uiaToImage 1000 1 = [750] ∧ ¬ ((3 : ℚ) / 2 ≤ 1 ∧ (1 : ℚ) < 3 / 2 + 2 / (1000 : ℕ)) ∧ uiaToImage 1000 (8 / 5) = [] := by decide +kernel

/-! ### C56 -/

/-- C56: without a recoverable clock the edges are whole periods after the first sample and before the last one, all of them. -/
theorem C56_fallback (t : List ℚ) (first last p : ℚ) (h1 : t.head? = some first) (h2 : t.getLast? = some last) (hp : 0 < p) :
    ∃ e, fallbackEdges t p = .ok e ∧ (∀ x ∈ e, first < x ∧ x < last) ∧
      (∀ k (h : k < e.length), e[k] = first + (k + 1) * p) ∧ ∀ k : ℕ, first + (k + 1) * p < last → k < e.length := by
  unfold fallbackEdges
  rw [h1, h2]
  simp only [hp.ne', if_false]
  refine ⟨_, rfl, ?_, ?_, ?_⟩
  · intro x hx
    unfold arange at hx
    obtain ⟨k, hk, rfl⟩ := List.mem_map.1 hx
    rw [List.mem_range] at hk
    have hk0 : (0 : ℚ) ≤ k := Nat.cast_nonneg k
    refine ⟨by nlinarith, ?_⟩
    have hk' : (k : ℤ) < ⌈(last - (first + p)) / p⌉ := by omega
    rw [Int.lt_ceil] at hk'
    push_cast at hk'
    rw [lt_div_iff₀ hp] at hk'
    linarith
  · intro k h
    simp only [arange, List.getElem_map, List.getElem_range]
    ring
  · intro k hk
    unfold arange
    rw [List.length_map, List.length_range]
    have : (k : ℤ) < ⌈(last - (first + p)) / p⌉ := by
      rw [Int.lt_ceil]
      push_cast
      rw [lt_div_iff₀ hp]
      linarith
    omega

/-- C56: a period of 0 and a waveform without samples are errors. -/
theorem C56_fallback_errors (t : List ℚ) (p : ℚ) : (t = [] → fallbackEdges t p = .error .indexError) ∧
    (t ≠ [] → p = 0 → fallbackEdges t p = .error .zeroDivision) := by
  constructor
  · rintro rfl; rfl
  · rintro h rfl
    cases t with
    | nil => exact absurd rfl h
    | cons a t =>
      unfold fallbackEdges
      rw [List.getLast?_eq_some_getLast h]
      simp

theorem sum_le_const (l : List ℚ) (c : ℚ) (h : ∀ x ∈ l, c ≤ x) : l.length * c ≤ l.sum := by
  induction l with
  | nil => simp
  | cons a l ih =>
    rw [List.sum_cons, List.length_cons]
    have h1 := h a (by simp)
    have h2 := ih (fun x hx => h x (List.mem_cons_of_mem _ hx))
    push_cast
    linarith

theorem sum_pos (l : List ℚ) (hne : l ≠ []) (h : ∀ x ∈ l, 0 < x) : 0 < l.sum := by
  cases l with
  | nil => exact absurd rfl hne
  | cons a l =>
    have h1 := h a (by simp)
    have h2 : 0 ≤ l.sum := List.sum_nonneg fun x hx => (h x (List.mem_cons_of_mem _ hx)).le
    rw [List.sum_cons]
    linarith

/-- The intervals between consecutive edges of one waveform. -/
theorem mem_diffs (l : List ℚ) (d : ℚ) : d ∈ diffs l ↔ ∃ k, ∃ h : k + 1 < l.length, d = l[k + 1] - l[k] := by
  induction l with
  | nil => simp [diffs]
  | cons a l ih =>
    cases l with
    | nil => simp [diffs]
    | cons b l =>
      rw [diffs, List.mem_cons, ih]
      constructor
      · rintro (rfl | ⟨k, h, rfl⟩)
        · exact ⟨0, by simp, rfl⟩
        · exact ⟨k + 1, by simpa using h, rfl⟩
      · rintro ⟨k, h, rfl⟩
        cases k with
        | zero => left; rfl
        | succ k => right; exact ⟨k, by simpa using h, rfl⟩

/-- C56: the symbol period is the mean of the intervals that are less than ten times the mean of all of them; for increasing edges, with two in
some waveform, there are such intervals and the period is positive and less than ten times the mean interval. -/
theorem C56_period (edges : List (List ℚ)) (hinc : ∀ e ∈ edges, e.Pairwise (· < ·)) (h2 : ∃ e ∈ edges, 2 ≤ e.length) :
    ∃ (ds kept : List ℚ) (m T : ℚ), (∀ d, d ∈ ds ↔ ∃ e ∈ edges, ∃ k, ∃ h : k + 1 < e.length, d = e[k + 1] - e[k]) ∧ m = ds.sum / ds.length ∧
      kept = ds.filter (· < 10 * m) ∧ kept ≠ [] ∧ T = kept.sum / kept.length ∧ symbolPeriod edges = .ok (some T) ∧ 0 < T ∧ T < 10 * m := by
  set ds := (edges.map diffs).flatten with hds
  have hmem : ∀ d, d ∈ ds ↔ ∃ e ∈ edges, ∃ k, ∃ h : k + 1 < e.length, d = e[k + 1] - e[k] := by
    intro d
    rw [hds, List.mem_flatten]
    constructor
    · rintro ⟨l, hl, hd⟩
      obtain ⟨e, he, rfl⟩ := List.mem_map.1 hl
      exact ⟨e, he, (mem_diffs e d).1 hd⟩
    · rintro ⟨e, he, hd⟩
      exact ⟨_, List.mem_map.2 ⟨e, he, rfl⟩, (mem_diffs e d).2 hd⟩
  have hpos : ∀ d ∈ ds, 0 < d := by
    intro d hd
    obtain ⟨e, he, k, h, rfl⟩ := (hmem d).1 hd
    have := List.pairwise_iff_getElem.1 (hinc e he) k (k + 1) (by omega) h (by omega)
    linarith
  have hne : ds ≠ [] := by
    obtain ⟨e, he, h⟩ := h2
    exact List.ne_nil_of_mem ((hmem _).2 ⟨e, he, 0, by omega, rfl⟩)
  have hlen : (0 : ℚ) < ds.length := by exact_mod_cast List.length_pos_of_ne_nil hne
  set m := ds.sum / ds.length with hm
  have hm0 : 0 < m := div_pos (sum_pos ds hne hpos) hlen
  set kept := ds.filter (fun d => decide (d < 10 * m)) with hk
  have hkne : kept ≠ [] := by
    intro hc
    rw [hk, List.filter_eq_nil_iff] at hc
    have h1 : ∀ x ∈ ds, 10 * m ≤ x := by
      intro x hx
      have := hc x hx
      simpa using this
    have h2 := sum_le_const ds _ h1
    have h3 : ds.sum = m * ds.length := by rw [hm]; field_simp
    nlinarith
  have hklen : (0 : ℚ) < kept.length := by exact_mod_cast List.length_pos_of_ne_nil hkne
  have hkpos : ∀ d ∈ kept, 0 < d := fun d hd => hpos d (List.mem_filter.1 hd).1
  refine ⟨ds, kept, m, kept.sum / kept.length, hmem, rfl, rfl, hkne, rfl, ?_, div_pos (sum_pos kept hkne hkpos) hklen, ?_⟩
  · unfold symbolPeriod
    have he : edges ≠ [] := by
      obtain ⟨e, he, -⟩ := h2
      exact List.ne_nil_of_mem he
    rw [if_neg he]
    simp only
    rw [← hds]
    have : mean ds = some m := by unfold mean; rw [if_neg hne]
    rw [this]
    simp only
    rw [← hk]
    unfold mean
    rw [if_neg hkne]
  · rw [div_lt_iff₀ hklen]
    have h1 : ∀ x ∈ kept, x < 10 * m := fun x hx => by simpa using (List.mem_filter.1 hx).2
    have key : ∀ l : List ℚ, l ≠ [] → (∀ x ∈ l, x < 10 * m) → l.sum < 10 * m * l.length := by
      intro l
      induction l with
      | nil => intro h; exact absurd rfl h
      | cons a l ih =>
        intro _ h
        rw [List.sum_cons, List.length_cons]
        push_cast
        have ha := h a (by simp)
        by_cases hl : l = []
        · subst hl; simp; linarith
        · have := ih hl (fun x hx => h x (List.mem_cons_of_mem _ hx))
          linarith
    exact key kept hkne h1

/-- C56: edges at one distance have that period, whatever their number. -/
theorem C56_regular (t0 p : ℚ) (hp : 0 < p) (n : ℕ) (hn : 2 ≤ n) : symbolPeriod [(List.range n).map fun k : ℕ => t0 + k * p] = .ok (some p) := by
  obtain ⟨ds, kept, m, T, hmem, hm, hk, hkne, hT, he, -, -⟩ := C56_period [(List.range n).map fun k : ℕ => t0 + k * p] (by
    intro e he
    rw [List.mem_singleton] at he
    subst he
    rw [List.pairwise_map]
    refine List.pairwise_lt_range.imp ?_
    intro a b hab
    have : (a : ℚ) < b := by exact_mod_cast hab
    nlinarith) ⟨_, List.mem_singleton.2 rfl, by simpa using hn⟩
  rw [he]
  congr 2
  have hall : ∀ d ∈ ds, d = p := by
    intro d hd
    obtain ⟨e, he, k, h, rfl⟩ := (hmem d).1 hd
    rw [List.mem_singleton] at he
    subst he
    simp only [List.getElem_map, List.getElem_range]
    push_cast
    ring
  have hkall : ∀ d ∈ kept, d = p := fun d hd => hall d (by rw [hk] at hd; exact (List.mem_filter.1 hd).1)
  have hsum : kept.sum = kept.length * p := by
    rw [List.eq_replicate_of_mem hkall]
    simp
  have hklen : (0 : ℚ) < kept.length := by exact_mod_cast List.length_pos_of_ne_nil hkne
  rw [hT, hsum]
  field_simp

/-- The hypotheses of the C56 theorems are met; an idle time between two bursts is left out. -/
example : fallbackEdges [0, 1, 2, 3, 4] (3 / 2) = .ok [3 / 2, 3] ∧
    (∀ e ∈ [[(0 : ℚ), 1, 2, 3, 4, 5, 6, 7, 8, 9, 10, 11, 12, 500]], e.Pairwise (· < ·)) ∧
    symbolPeriod [[0, 1, 2, 3, 4, 5, 6, 7, 8, 9, 10, 11, 12, 500]] = .ok (some 1) := by decide +kernel

/-! ### C59 -/

/-- C59: the heat map shows the cell at `x` from the left and `y` from below in column `x` and row `y` from below. -/
theorem C59_orientation (g : Grid) (n x y : ℕ) (hy : y < g.ny) : heatmap g n false (g.ny - 1 - y) x = g.cell x y := by
  unfold heatmap rot90 scaled
  simp only [Bool.false_eq_true, if_false]
  have : g.ny - 1 - (g.ny - 1 - y) = y := by omega
  rw [this]

theorem lineSum_eq (g : Grid) (x : ℕ) : lineSum g x = ∑ y ∈ Finset.range g.ny, g.cell x y := by
  unfold lineSum
  rw [Finset.sum_range, ← List.sum_ofFn]
  congr 1
  apply List.ext_getElem
  · simp
  · intro k h1 h2
    simp

theorem flip_sum (ny : ℕ) (f : ℕ → ℚ) : ∑ r ∈ Finset.range ny, f (ny - 1 - r) = ∑ y ∈ Finset.range ny, f y := Finset.sum_range_reflect f ny

/-- C59: no count is lost. -/
theorem C59_total (g : Grid) (n : ℕ) :
    ∑ c ∈ Finset.range g.nx, ∑ r ∈ Finset.range g.ny, heatmap g n false r c = total g := by
  unfold total
  push_cast
  refine Finset.sum_congr rfl fun c _ => ?_
  unfold heatmap rot90
  rw [flip_sum g.ny (fun y => scaled g n false c y)]
  refine Finset.sum_congr rfl fun y _ => ?_
  simp [scaled]

/-- C59: in point cloud mode every column that is not empty sums to the number of symbols, empty columns stay zero, and the proportions within a
column are those of the counts. -/
theorem C59_point_cloud (g : Grid) (n c : ℕ) :
    ((∃ y < g.ny, g.cell c y ≠ 0) → ∑ r ∈ Finset.range g.ny, heatmap g n true r c = n) ∧
    ((∀ y < g.ny, g.cell c y = 0) → ∀ r < g.ny, heatmap g n true r c = 0) ∧
    ∃ s : ℚ, ∀ y < g.ny, heatmap g n true (g.ny - 1 - y) c = s * g.cell c y := by
  refine ⟨?_, ?_, ⟨(n : ℚ) / max 1 (lineSum g c), ?_⟩⟩
  · rintro ⟨y, hy, hc⟩
    unfold heatmap rot90
    rw [flip_sum g.ny (fun y => scaled g n true c y)]
    unfold scaled
    simp only [if_true]
    rw [← Finset.sum_mul]
    have h1 : 1 ≤ lineSum g c := by
      rw [lineSum_eq]
      have := Finset.single_le_sum (f := fun y : ℕ => g.cell c y) (fun i _ => Nat.zero_le _) (Finset.mem_range.2 hy)
      omega
    have h2 : (lineSum g c : ℚ) = ∑ y ∈ Finset.range g.ny, (g.cell c y : ℚ) := by rw [lineSum_eq]; push_cast; rfl
    have h3 : ((max 1 (lineSum g c) : ℕ) : ℚ) = lineSum g c := by rw [max_eq_right h1]
    have h4 : (0 : ℚ) < lineSum g c := by exact_mod_cast h1
    rw [← h2]
    push_cast at h3 ⊢
    rw [h3]
    field_simp
  · intro h r hr
    unfold heatmap rot90 scaled
    simp only [if_true]
    have := h (g.ny - 1 - r) (by omega)
    rw [this]
    simp
  · intro y hy
    unfold heatmap rot90 scaled
    simp only [if_true]
    have : g.ny - 1 - (g.ny - 1 - y) = y := by omega
    rw [this]
    push_cast
    ring

/-! ### The counts -/

theorem zip_map_snd {f : ℚ → ℚ} (a b : List ℚ) : a.zip (b.map f) = (a.zip b).map fun p => (p.1, f p.2) := by
  rw [List.zip_map_right]
  rfl

theorem pySlice_map {α β : Type} (f : α → β) (l : List α) (a b : ℤ) : pySlice (l.map f) a b = (pySlice l a b).map f := by
  unfold pySlice
  simp only [List.length_map, List.map_drop, List.map_take]

/-- C59: the points of a symbol are drawn where the mask and the reference lines are drawn for the same UI and UA. -/
theorem C59_pixels (y : List ℚ) (T δ yZero yUa : ℚ) (hy : yUa ≠ 0) (res : ℕ) (c : Center) :
    pixels y δ T (-1 / 2 * yUa + yZero) (3 / 2 * yUa + yZero) res c =
      (window (normalise y yZero yUa) T δ c).map fun p => (uiaPos res p.1, uiaPos res p.2) := by
  unfold pixels normalise window
  simp only [pySlice_map, zip_map_snd, List.map_map]
  apply List.map_congr_left
  intro p _
  simp only [Function.comp, uiaPos, Prod.mk.injEq, true_and]
  congr 2
  have e : 3 / 2 * yUa + yZero - (-1 / 2 * yUa + yZero) = 2 * yUa := by ring
  rw [e]
  field_simp
  ring

/-- The cells that one symbol is drawn on: its points, or the segments between them (C01 to C03). -/
def symbolCells (pointCloud : Bool) (res : ℕ) (w : List Pt) : List (ℤ × ℤ) :=
  let px := w.map fun p => (uiaPos res p.1, uiaPos res p.2)
  if pointCloud then px else polyCells px

theorem window_length (ys : List ℚ) (T δ : ℚ) (hT : 0 < T) (hδ : 0 < δ) (c : Center) (hc : Inside T δ ys.length c) :
    2 ≤ (window ys T δ c).length := by
  rw [window_eq ys T δ hT hδ c hc]
  obtain ⟨-, -, h⟩ := iWidth_ge T δ hT hδ
  rw [List.length_map, List.length_range]
  omega

theorem stack_eq (w : Wf) (T δ yZero yUa : ℚ) (hT : 0 < T) (hδ : 0 < δ) (hy : yUa ≠ 0) (res : ℕ) (pc : Bool)
    (hin : ∀ c ∈ w.centers, Inside T δ w.y.length c) (g : Grid) :
    stack w.y w.centers δ T (-1 / 2 * yUa + yZero) (3 / 2 * yUa + yZero) res pc g =
      .ok (addCells g ((wfWindows T δ yZero yUa w).flatMap (symbolCells pc res))) := by
  obtain ⟨y, cs⟩ := w
  unfold stack wfWindows windows
  simp only at hin ⊢
  induction cs generalizing g with
  | nil => rfl
  | cons c cs ih =>
    have hc := hin c (by simp)
    have hl := window_length (normalise y yZero yUa) T δ hT hδ c (by simpa [normalise] using hc)
    rw [List.foldlM_cons]
    have hstep : (if pc = true then Except.ok (drawPoints (pixels y δ T (-1 / 2 * yUa + yZero) (3 / 2 * yUa + yZero) res c) g)
        else draw (pixels y δ T (-1 / 2 * yUa + yZero) (3 / 2 * yUa + yZero) res c) g) =
        .ok (addCells g (symbolCells pc res (window (normalise y yZero yUa) T δ c))) := by
      rw [C59_pixels y T δ yZero yUa hy res c]
      cases pc with
      | true => rfl
      | false =>
        simp only [Bool.false_eq_true, if_false, symbolCells]
        rw [draw_eq, if_neg (by rw [List.length_map]; omega)]
    rw [hstep]
    simp only [bind, Except.bind]
    rw [ih _ (fun c hc => hin c (List.mem_cons_of_mem _ hc)), List.map_cons, List.flatMap_cons, addCells_append]

theorem stackAll_eq (wfs : List Wf) (T δ yZero yUa : ℚ) (hT : 0 < T) (hδ : 0 < δ) (hy : yUa ≠ 0) (res : ℕ) (pc : Bool)
    (hin : ∀ w ∈ wfs, ∀ c ∈ w.centers, Inside T δ w.y.length c) :
    stackAll wfs δ T yZero yUa res pc =
      .ok (addCells ⟨res, res, fun _ _ => 0⟩ ((wfs.flatMap (wfWindows T δ yZero yUa)).flatMap (symbolCells pc res))) := by
  unfold stackAll
  generalize (⟨res, res, fun _ _ => 0⟩ : Grid) = g
  induction wfs generalizing g with
  | nil => rfl
  | cons w wfs ih =>
    rw [List.foldlM_cons, stack_eq w T δ yZero yUa hT hδ hy res pc (hin w (by simp)) g]
    simp only [bind, Except.bind]
    rw [ih (fun w hw => hin w (List.mem_cons_of_mem _ hw)), List.flatMap_cons, List.flatMap_append, addCells_append]

/-- C59: the count of a cell of the image is the number of times the symbols of all waveforms are drawn on it. -/
theorem C59_counts (wfs : List Wf) (T δ yZero yUa : ℚ) (hT : 0 < T) (hδ : 0 < δ) (hy : yUa ≠ 0) (res : ℕ) (pc : Bool)
    (hin : ∀ w ∈ wfs, ∀ c ∈ w.centers, Inside T δ w.y.length c) :
    ∃ g, stackAll wfs δ T yZero yUa res pc = .ok g ∧ g.nx = res ∧ g.ny = res ∧ ∀ a b : ℤ, 0 ≤ a → a < res → 0 ≤ b → b < res →
      g.cell a b = ((wfs.flatMap (wfWindows T δ yZero yUa)).flatMap (symbolCells pc res)).count (a, b) := by
  refine ⟨_, stackAll_eq wfs T δ yZero yUa hT hδ hy res pc hin, addCells_nx _ _, addCells_ny _ _, ?_⟩
  intro a b h1 h2 h3 h4
  have := (addsCells_addCells ⟨res, res, fun _ _ => 0⟩ ((wfs.flatMap (wfWindows T δ yZero yUa)).flatMap (symbolCells pc res))).2.2 a b
  rw [this, if_pos ⟨h1, h2, h3, h4⟩]
  simp

/-- C59: the order of the waveforms does not matter. -/
theorem C59_order (wfs wfs' : List Wf) (hp : wfs.Perm wfs') (T δ yZero yUa : ℚ) (hT : 0 < T) (hδ : 0 < δ) (hy : yUa ≠ 0) (res : ℕ) (pc : Bool)
    (hin : ∀ w ∈ wfs, ∀ c ∈ w.centers, Inside T δ w.y.length c) :
    ∃ g, stackAll wfs δ T yZero yUa res pc = .ok g ∧ stackAll wfs' δ T yZero yUa res pc = .ok g := by
  refine ⟨_, stackAll_eq wfs T δ yZero yUa hT hδ hy res pc hin, ?_⟩
  rw [stackAll_eq wfs' T δ yZero yUa hT hδ hy res pc (fun w hw => hin w (hp.mem_iff.2 hw))]
  have h := (hp.flatMap_right (wfWindows T δ yZero yUa)).flatMap_right (symbolCells pc res)
  have hcell : ∀ (l l' : List (ℤ × ℤ)), l.Perm l' → ∀ g : Grid, addCells g l = addCells g l' := by
    intro l l' hl g
    have h1 : (addCells g l).nx = (addCells g l').nx := by rw [addCells_nx, addCells_nx]
    have h2 : (addCells g l).ny = (addCells g l').ny := by rw [addCells_ny, addCells_ny]
    have h3 : (addCells g l).cell = (addCells g l').cell := by
      funext a b
      rw [addCells_cell, addCells_cell, hl.count_eq]
    generalize addCells g l = x at h1 h2 h3
    generalize addCells g l' = y at h1 h2 h3
    cases x; cases y
    simp only at h1 h2 h3
    subst h1 h2 h3
    rfl
  rw [hcell _ _ h.symm]

/-- The hypotheses of the C59 theorems are met. -/
example : (∀ w ∈ exWfs, ∀ c ∈ w.centers, Inside 4 1 w.y.length c) ∧ (exWfs.flatMap (wfWindows 4 1 0 1)).length = 3 ∧
    (∃ y < 2, (⟨2, 2, fun _ _ => 1⟩ : Grid).cell 1 y ≠ 0) := by
  refine ⟨?_, by decide +kernel, 0, by norm_num, by norm_num⟩
  intro w hw
  simp only [exWfs, List.mem_cons, List.not_mem_nil, or_false] at hw
  rcases hw with rfl | rfl
  · exact fun c hc => (sampled_ok 4 1 0 (by norm_num) 18 _ c hc).1
  · exact fun c hc => (sampled_ok 4 1 0 (by norm_num) 18 _ c hc).1

end Verif.Props.EyeImage
