import Verif.Model.Heatmap
import Verif.Props.Single
import Verif.Props.EyeImage

/-!
C86: what is left of the counts in the heat map, which is stored in single precision.
-/

namespace Verif.Props.Heatmap

open Verif Verif.Eye Verif.Lines Verif.LinesC Verif.Float Verif.Heatmap Verif.Props.FloatStats Verif.Props.EyeImage Verif.Props.Raster

/-! ### Single precision -/

theorem single_neg (x : ℚ) : single (-x) = -single x := by
  unfold single
  rw [abs_neg, neg_mul, roundEven_neg]
  push_cast
  ring

theorem scaled_bounds {x : ℚ} (hx : 0 < x) :
    (2:ℚ) ^ (23:ℤ) ≤ x * 2 ^ (23 - Int.log 2 |x|) ∧ x * 2 ^ (23 - Int.log 2 |x|) < 2 ^ (24:ℤ) := by
  rw [abs_of_pos hx]
  have h1 : (2:ℚ) ^ Int.log 2 x ≤ x := Int.zpow_log_le_self (by norm_num) hx
  have h2 : x < (2:ℚ) ^ (Int.log 2 x + 1) := Int.lt_zpow_succ_log_self (by norm_num) x
  have hs := two_zpow_pos (23 - Int.log 2 x)
  constructor
  · calc (2:ℚ) ^ (23:ℤ) = 2 ^ Int.log 2 x * 2 ^ (23 - Int.log 2 x) := by
          rw [← zpow_add₀ (by norm_num)]; congr 1; ring
      _ ≤ _ := mul_le_mul_of_nonneg_right h1 hs.le
  · calc x * 2 ^ (23 - Int.log 2 x) < 2 ^ (Int.log 2 x + 1) * 2 ^ (23 - Int.log 2 x) := mul_lt_mul_of_pos_right h2 hs
      _ = 2 ^ (24:ℤ) := by rw [← zpow_add₀ (by norm_num)]; congr 1; ring

theorem rounded_bounds {x : ℚ} (hx : 0 < x) :
    2 ^ 23 ≤ roundEven (x * 2 ^ (23 - Int.log 2 |x|)) ∧ roundEven (x * 2 ^ (23 - Int.log 2 |x|)) ≤ 2 ^ 24 := by
  obtain ⟨h1, h2⟩ := scaled_bounds hx
  constructor
  · have h := roundEven_mono (x := ((2 ^ 23 : ℤ) : ℚ)) (y := x * 2 ^ (23 - Int.log 2 |x|)) (by
      push_cast; norm_num at h1 ⊢; exact h1)
    rwa [roundEven_int] at h
  · have h := roundEven_mono (y := ((2 ^ 24 : ℤ) : ℚ)) (x := x * 2 ^ (23 - Int.log 2 |x|)) (by
      push_cast; norm_num at h2 ⊢; exact h2.le)
    rwa [roundEven_int] at h

theorem single_eq (x : ℚ) : single x = roundEven (x * 2 ^ (23 - Int.log 2 |x|)) * 2 ^ (Int.log 2 |x| - 23) := by
  unfold single
  rw [div_eq_mul_inv, ← zpow_neg]
  congr 2
  ring

theorem single_pos_mono {x y : ℚ} (hx : 0 < x) (h : x ≤ y) : single x ≤ single y := by
  have hy := hx.trans_le h
  have hlog : Int.log 2 |x| ≤ Int.log 2 |y| := by
    rw [abs_of_pos hx, abs_of_pos hy]; exact Int.log_mono_right hx h
  rcases lt_or_eq_of_le hlog with hlt | heq
  · rw [single_eq x, single_eq y]
    obtain ⟨_, h1⟩ := rounded_bounds hx
    obtain ⟨h2, _⟩ := rounded_bounds hy
    have h1' : ((roundEven (x * 2 ^ (23 - Int.log 2 |x|)) : ℤ) : ℚ) ≤ 2 ^ (24:ℤ) := by
      have : ((roundEven (x * 2 ^ (23 - Int.log 2 |x|)) : ℤ) : ℚ) ≤ ((2 ^ 24 : ℤ) : ℚ) := by exact_mod_cast h1
      norm_num at this ⊢; exact this
    have h2' : (2:ℚ) ^ (23:ℤ) ≤ ((roundEven (y * 2 ^ (23 - Int.log 2 |y|)) : ℤ) : ℚ) := by
      have : ((2 ^ 23 : ℤ) : ℚ) ≤ ((roundEven (y * 2 ^ (23 - Int.log 2 |y|)) : ℤ) : ℚ) := by exact_mod_cast h2
      norm_num at this ⊢; exact this
    calc _ ≤ (2:ℚ) ^ (24:ℤ) * 2 ^ (Int.log 2 |x| - 23) := mul_le_mul_of_nonneg_right h1' (two_zpow_pos _).le
      _ = 2 ^ (Int.log 2 |x| + 1) := by rw [← zpow_add₀ (by norm_num)]; congr 1; ring
      _ ≤ 2 ^ (Int.log 2 |y|) := zpow_le_zpow_right₀ (by norm_num) (by omega)
      _ = 2 ^ (23:ℤ) * 2 ^ (Int.log 2 |y| - 23) := by rw [← zpow_add₀ (by norm_num)]; congr 1; ring
      _ ≤ _ := mul_le_mul_of_nonneg_right h2' (two_zpow_pos _).le
  · unfold single
    rw [heq]
    have hs := two_zpow_pos (23 - Int.log 2 |y|)
    apply div_le_div_of_nonneg_right _ hs.le
    exact_mod_cast roundEven_mono (mul_le_mul_of_nonneg_right h hs.le)

theorem single_zero : single 0 = 0 := by simp [single, roundEven]

theorem single_pos {x : ℚ} (hx : 0 < x) : 0 < single x := by
  have h := Single.C12_single_near x
  rw [abs_of_pos hx] at h
  have h2 := (abs_le.1 h).1
  norm_num at h2
  linarith

theorem single_nonneg {x : ℚ} (hx : 0 ≤ x) : 0 ≤ single x := by
  rcases lt_or_eq_of_le hx with h | h
  · exact (single_pos h).le
  · rw [← h, single_zero]

/-- C86: rounding to single precision keeps the order. -/
theorem C86_single_mono {x y : ℚ} (h : x ≤ y) : single x ≤ single y := by
  by_cases hx : 0 < x
  · exact single_pos_mono hx h
  · push Not at hx
    by_cases hy : 0 ≤ y
    · have h1 := single_nonneg (x := -x) (by linarith)
      rw [single_neg] at h1
      linarith [single_nonneg hy]
    · push Not at hy
      have h1 := single_pos_mono (x := -y) (y := -x) (by linarith) (by linarith)
      rw [single_neg, single_neg] at h1
      linarith

theorem single_nat (n : ℕ) (h : n ≤ 2 ^ 24) : single n = n := by
  have := Single.C12_single_fits n 0 (by rw [Nat.abs_cast]; exact_mod_cast h)
  simpa using this

/-- C86: single precision is a rounding. -/
def singles : Rounding where
  fl := single
  u := 1 / 2 ^ 24
  u_nonneg := by norm_num
  u_small := by norm_num
  err := Single.C12_single_near

/-! ### Counts -/

/-- C86: cells with up to 2^24 counts are stored as they are. -/
theorem C86_counts (D M : Rounding) (g : Grid) (n r c : ℕ) (h : g.cell c ((g.ny - 1 - r : ℕ) : ℤ) ≤ 2 ^ 24) :
    heatmap32 D M g n false r c = heatmap g n false r c := by
  unfold heatmap32 heatmap rot90 scaled32 scaled
  simp only [Bool.false_eq_true, if_false]
  exact single_nat _ h

/-- C86: so with up to 2^24 counts in each cell no count is lost. -/
theorem C86_total_partial (D M : Rounding) (g : Grid) (n : ℕ) (h : ∀ x < g.nx, ∀ y < g.ny, g.cell x y ≤ 2 ^ 24) :
    ∑ c ∈ Finset.range g.nx, ∑ r ∈ Finset.range g.ny, heatmap32 D M g n false r c = total g := by
  rw [← C59_total g n]
  refine Finset.sum_congr rfl fun c hc => Finset.sum_congr rfl fun r hr => C86_counts D M g n r c ?_
  exact h c (Finset.mem_range.1 hc) _ (by have := Finset.mem_range.1 hr; omega)

/-- C86 fails for larger counts: one of 2^24 + 1 is lost. -/
theorem C86_total_fails (D M : Rounding) : let g : Grid := ⟨1, 1, fun _ _ => 2 ^ 24 + 1⟩
    ∑ c ∈ Finset.range g.nx, ∑ r ∈ Finset.range g.ny, heatmap32 D M g 1 false r c = total g - 1 := by
  have h : single 16777217 = 16777216 := by decide +kernel
  simp only [Finset.range_one, Finset.sum_singleton, heatmap32, rot90, scaled32, Bool.false_eq_true, if_false, total]
  push_cast
  rw [h]
  norm_num

/-- C86: larger ones with a relative error of at most 2^-24. -/
theorem C86_near (D M : Rounding) (g : Grid) (n r c : ℕ) :
    |heatmap32 D M g n false r c - heatmap g n false r c| ≤ 1 / 2 ^ 24 * heatmap g n false r c := by
  unfold heatmap32 heatmap rot90 scaled32 scaled
  simp only [Bool.false_eq_true, if_false]
  refine (Single.C12_single_near _).trans (le_of_eq ?_)
  rw [abs_of_nonneg (Nat.cast_nonneg _)]

/-- C86: a cell with more counts is not shown with fewer. -/
theorem C86_order (D M : Rounding) (g : Grid) (n r c r' c' : ℕ) (h : heatmap g n false r c ≤ heatmap g n false r' c') :
    heatmap32 D M g n false r c ≤ heatmap32 D M g n false r' c' := by
  unfold heatmap rot90 scaled at h
  unfold heatmap32 rot90 scaled32
  simp only [Bool.false_eq_true, if_false] at h ⊢
  exact C86_single_mono h

/-! ### Point cloud -/

theorem sum32_exact (l : List ℕ) (a : ℕ) (h : a + l.sum ≤ 2 ^ 24) : (l.map fun c : ℕ => single c).foldl (fun a c => single (a + c)) a = (a + l.sum : ℕ) := by
  induction l generalizing a with
  | nil => simp
  | cons b l ih =>
    rw [List.sum_cons] at h
    rw [List.map_cons, List.foldl_cons, single_nat b (by omega)]
    have e : single ((a : ℚ) + b) = ((a + b : ℕ) : ℚ) := by
      have := single_nat (a + b) (by omega)
      push_cast at this ⊢
      exact this
    rw [e, ih (a + b) (by omega), List.sum_cons, add_assoc]

theorem line_sum32 (g : Grid) (x : ℕ) (h : lineSum g x ≤ 2 ^ 24) : sum32 ((List.range g.ny).map fun y : ℕ => single (g.cell x y)) = lineSum g x := by
  have := sum32_exact ((List.range g.ny).map fun y : ℕ => g.cell x y) 0 (by unfold lineSum at h; omega)
  unfold sum32 lineSum
  rw [List.map_map] at this
  push_cast at this
  simpa [Function.comp_def] using this

theorem sum32_nonneg (l : List ℚ) (h : ∀ x ∈ l, 0 ≤ x) : 0 ≤ sum32 l := by
  have : ∀ (l : List ℚ) (a : ℚ), 0 ≤ a → (∀ x ∈ l, 0 ≤ x) → 0 ≤ l.foldl (fun a c => single (a + c)) a := by
    intro l
    induction l with
    | nil => intro a ha _; exact ha
    | cons b l ih =>
      intro a ha hl
      exact ih _ (single_nonneg (add_nonneg ha (hl b List.mem_cons_self))) fun x hx => hl x (List.mem_cons_of_mem _ hx)
  exact this l 0 le_rfl h

theorem fl_zero (R : Rounding) : R.fl 0 = 0 := by
  have := R.err 0
  simpa using this

theorem fl_pos' (R : Rounding) {x : ℚ} (hx : 0 < x) : 0 < R.fl x := by
  have h := R.err x
  rw [abs_of_pos hx] at h
  have h2 := (abs_le.1 h).1
  have := R.u_small
  nlinarith

/-- C86: in both modes, whatever the counts, a value is zero (and the image transparent there) exactly where nothing was drawn. -/
theorem C86_zero (D M : Rounding) (g : Grid) (n r c : ℕ) (hn : 0 < n) (pc : Bool) :
    0 ≤ heatmap32 D M g n pc r c ∧ (heatmap32 D M g n pc r c = 0 ↔ g.cell c ((g.ny - 1 - r : ℕ) : ℤ) = 0) := by
  unfold heatmap32 rot90 scaled32
  set k := g.cell c ((g.ny - 1 - r : ℕ) : ℤ)
  cases pc with
  | false =>
    simp only [Bool.false_eq_true, if_false]
    rcases Nat.eq_zero_or_pos k with h | h
    · rw [h]
      simp [single_zero]
    · have := single_pos (x := (k : ℚ)) (by exact_mod_cast h)
      exact ⟨this.le, by constructor <;> intro hh <;> [linarith; omega]⟩
  | true =>
    simp only [if_true]
    set f := D.fl (n / max 1 (sum32 ((List.range g.ny).map fun y : ℕ => single (g.cell c y))))
    have hf : 0 < f := fl_pos' D (div_pos (by exact_mod_cast hn) (lt_max_of_lt_left one_pos))
    rcases Nat.eq_zero_or_pos k with h | h
    · rw [h]
      simp [single_zero, fl_zero]
    · have h1 := single_pos (x := (k : ℚ)) (by exact_mod_cast h)
      have := fl_pos' M (mul_pos h1 hf)
      exact ⟨this.le, by constructor <;> intro hh <;> [linarith; omega]⟩

/-- C86: in point cloud mode, each value of a column with up to 2^24 points has the relative error of its two roundings. -/
theorem C86_cloud_near (D M : Rounding) (g : Grid) (n r c : ℕ) (h : lineSum g c ≤ 2 ^ 24) (hr : r < g.ny) :
    |heatmap32 D M g n true r c - heatmap g n true r c| ≤ ((1 + D.u) * (1 + M.u) - 1) * heatmap g n true r c := by
  unfold heatmap32 heatmap rot90 scaled32 scaled
  simp only [if_true]
  have hcell : g.cell c ((g.ny - 1 - r : ℕ) : ℤ) ≤ lineSum g c := by
    rw [lineSum_eq]
    exact Finset.single_le_sum (f := fun y : ℕ => g.cell c y) (fun i _ => Nat.zero_le _) (Finset.mem_range.2 (by omega : g.ny - 1 - r < g.ny))
  set k := g.cell c ((g.ny - 1 - r : ℕ) : ℤ)
  rw [line_sum32 g c h, single_nat k (by omega)]
  set q : ℚ := (n : ℚ) / max 1 (lineSum g c : ℚ) with hq
  have hq0 : 0 ≤ q := div_nonneg (Nat.cast_nonneg _) (le_max_of_le_left zero_le_one)
  have hk0 : (0 : ℚ) ≤ k := Nat.cast_nonneg _
  have hd := D.err q
  rw [abs_of_nonneg hq0] at hd
  have hm := M.err (k * D.fl q)
  have hD := D.u_nonneg
  have hM := M.u_nonneg
  have hprod : |(k : ℚ) * D.fl q - k * q| ≤ D.u * (k * q) := by
    rw [← mul_sub, abs_mul, abs_of_nonneg hk0]
    have := mul_le_mul_of_nonneg_left hd hk0
    linarith
  have habs : |(k : ℚ) * D.fl q| ≤ (1 + D.u) * (k * q) := by
    have h1 : |(k : ℚ) * D.fl q| ≤ |(k : ℚ) * D.fl q - k * q| + |(k : ℚ) * q| := by
      have := abs_add_le ((k : ℚ) * D.fl q - k * q) (k * q)
      rwa [sub_add_cancel] at this
    rw [abs_of_nonneg (mul_nonneg hk0 hq0)] at h1
    linarith
  have h2 : |M.fl (k * D.fl q) - k * q| ≤ |M.fl (k * D.fl q) - k * D.fl q| + |(k : ℚ) * D.fl q - k * q| := abs_sub_le _ _ _
  have h3 := mul_le_mul_of_nonneg_left habs hM
  have e : ((1 + D.u) * (1 + M.u) - 1) * (k * q) = M.u * ((1 + D.u) * (k * q)) + D.u * (k * q) := by ring
  push_cast
  rw [e]
  linarith

/-- C86: so the column sums to the number of symbols, up to the same relative error. -/
theorem C86_cloud_sum (D M : Rounding) (g : Grid) (n c : ℕ) (h : lineSum g c ≤ 2 ^ 24) (hc : ∃ y < g.ny, g.cell c y ≠ 0) :
    |∑ r ∈ Finset.range g.ny, heatmap32 D M g n true r c - n| ≤ ((1 + D.u) * (1 + M.u) - 1) * n := by
  have h1 := (C59_point_cloud g n c).1 hc
  rw [← h1, ← Finset.sum_sub_distrib, Finset.mul_sum]
  refine (Finset.abs_sum_le_sum_abs _ _).trans ?_
  exact Finset.sum_le_sum fun r hr => C86_cloud_near D M g n r c h (Finset.mem_range.1 hr)

/-- C86: within a column a cell with more points is not shown with fewer. -/
theorem C86_cloud_order (D M : Rounding) (hM : Monotone M.fl) (g : Grid) (n c r r' : ℕ)
    (h : g.cell c ((g.ny - 1 - r : ℕ) : ℤ) ≤ g.cell c ((g.ny - 1 - r' : ℕ) : ℤ)) : heatmap32 D M g n true r c ≤ heatmap32 D M g n true r' c := by
  unfold heatmap32 rot90 scaled32
  simp only [if_true]
  apply hM
  apply mul_le_mul_of_nonneg_right
  · exact C86_single_mono (by exact_mod_cast h)
  · rcases Nat.eq_zero_or_pos n with hn | hn
    · rw [hn]
      simp [fl_zero]
    · exact (fl_pos' D (div_pos (by exact_mod_cast hn) (lt_max_of_lt_left one_pos))).le

/-! ### Colours -/

/-- C86: the fraction that is coloured is positive, at most one, and one where the heat map is largest. -/
theorem C86_fraction (res : ℕ) (heat : ℕ → ℕ → ℚ) (h0 : ∀ r c, 0 ≤ heat r c) (r c : ℕ) (hr : r < res) (hc : c < res) :
    (heat r c = 0 → fraction32 res heat r c = none) ∧
    (heat r c ≠ 0 → ∃ f, fraction32 res heat r c = some f ∧ 0 < f ∧ f ≤ 1 ∧ ((∀ r' < res, ∀ c' < res, heat r' c' ≤ heat r c) → f = 1)) := by
  unfold fraction32
  constructor
  · intro h
    rw [if_pos h]
  · intro h
    rw [if_neg h]
    set l := ((List.range res).flatMap fun r : ℕ => (List.range res).map fun c : ℕ => heat r c).filter (· ≠ 0)
    have hmem : heat r c ∈ l := List.mem_filter.2 ⟨List.mem_flatMap.2 ⟨r, List.mem_range.2 hr, List.mem_map.2 ⟨c, List.mem_range.2 hc, rfl⟩⟩, by simpa using h⟩
    cases hm : l.max? with
    | none =>
      rw [List.max?_eq_none_iff] at hm
      rw [hm] at hmem
      cases hmem
    | some m =>
      rw [List.max?_eq_some_iff] at hm
      have hle := hm.2 _ hmem
      have hpos : 0 < heat r c := lt_of_le_of_ne (h0 r c) (Ne.symm h)
      have hm0 : 0 < m := by linarith
      have one : single 1 = 1 := by simpa using single_nat 1 (by norm_num)
      refine ⟨single (heat r c / m), rfl, single_pos (div_pos hpos hm0), ?_, ?_⟩
      · rw [← one]
        exact C86_single_mono (by rw [div_le_one hm0]; exact hle)
      · intro hall
        have hm' : m = heat r c := by
          apply le_antisymm _ hle
          obtain ⟨r', hr', hx⟩ := List.mem_flatMap.1 (List.mem_filter.1 hm.1).1
          obtain ⟨c', hc', rfl⟩ := List.mem_map.1 hx
          exact hall r' (List.mem_range.1 hr') c' (List.mem_range.1 hc')
        rw [hm', div_self hpos.ne', one]

/-! ### Examples -/

/-- The hypotheses are met: a grid with some counts. -/
example : let g : Grid := ⟨2, 2, fun x y => (2 * x + y).toNat⟩
    (∀ x < g.nx, ∀ y < g.ny, g.cell x y ≤ 2 ^ 24) ∧ lineSum g 1 ≤ 2 ^ 24 ∧ (∃ y < g.ny, g.cell 1 y ≠ 0) ∧
    heatmap g 7 false 1 1 ≤ heatmap g 7 false 0 1 ∧ Monotone singles.fl ∧
    heatmap32 singles singles g 7 true 0 1 ≠ heatmap g 7 true 0 1 := by
  refine ⟨by decide +kernel, by decide +kernel, ⟨1, by decide +kernel⟩, by decide +kernel, fun _ _ h => C86_single_mono h, by decide +kernel⟩

end Verif.Props.Heatmap
