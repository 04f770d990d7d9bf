import Verif.Model.Eye
import Mathlib.Algebra.Order.Floor.Ring
import Mathlib.Tactic.FieldSimp
import Mathlib.Tactic.Linarith
import Mathlib.Tactic.Positivity
import Mathlib.Tactic.Ring

/-!
C43: the windows of the sampled symbols.
-/

namespace Verif.Props.EyeWindow

open Verif Verif.Lines Verif.Eye

/-! ### Rounding -/

theorem pyInt_nonneg (x : ℚ) (h : 0 ≤ x) : pyInt x = ⌊x⌋ := by unfold pyInt; rw [if_pos h]

theorem pyInt_neg (x : ℚ) (h : x < 0) : pyInt x ≤ 0 := by
  unfold pyInt
  rw [if_neg (not_le.2 h)]
  exact Int.ceil_le.2 (by simpa using h.le)

theorem pyInt_mono (x y : ℚ) (h : x ≤ y) : pyInt x ≤ pyInt y := by
  unfold pyInt
  split <;> split
  · exact Int.floor_le_floor h
  · linarith
  · rename_i h1 h2
    have a : ⌈x⌉ ≤ 0 := Int.ceil_le.2 (by push_cast; linarith)
    have b : 0 ≤ ⌊y⌋ := Int.floor_nonneg.2 h2
    exact a.trans b
  · exact Int.ceil_le_ceil h

theorem iWidth_ge (T δ : ℚ) (hT : 0 < T) (hδ : 0 < δ) : T / δ + 3 / 2 < iWidth T δ ∧ (iWidth T δ : ℚ) ≤ T / δ + 5 / 2 ∧ 2 ≤ iWidth T δ := by
  unfold iWidth
  have h := div_pos hT hδ
  rw [pyInt_nonneg _ (by linarith)]
  have h1 := Int.lt_floor_add_one (T / δ + 1 / 2)
  have h2 := Int.floor_le (T / δ + 1 / 2)
  have h3 : 0 ≤ ⌊T / δ + 1 / 2⌋ := Int.floor_nonneg.2 (by linarith)
  push_cast
  refine ⟨by linarith, by linarith, by omega⟩

theorem pyMod_spec (b d : ℚ) (hd : 0 < d) : 0 ≤ pyMod b d ∧ pyMod b d < d ∧ ∃ k : ℤ, b - pyMod b d = d * k := by
  unfold pyMod
  have h1 := Int.lt_floor_add_one (b / d)
  have h2 := Int.floor_le (b / d)
  have e : d * (b / d) = b := mul_div_cancel₀ b hd.ne'
  refine ⟨?_, ?_, ⌊b / d⌋, by ring⟩
  · nlinarith
  · nlinarith

/-! ### The points of a window -/

/-- A centre whose window is inside a record of `n` samples. -/
def Inside (T δ : ℚ) (n : ℕ) (c : Center) : Prop := 0 ≤ c.i - iWidth T δ ∧ c.i + iWidth T δ < n

theorem pySlice_inside {α : Type} (l : List α) (a n : ℕ) (h : a + n ≤ l.length) : pySlice l (a : ℤ) ((a : ℤ) + n) = (l.drop a).take n := by
  unfold pySlice
  simp only
  rw [if_neg (by omega), if_neg (by omega)]
  have e1 : min ((a : ℤ) + n).toNat l.length = a + n := by omega
  have e2 : min (a : ℤ).toNat l.length = a := by omega
  rw [e1, e2, List.drop_take]
  congr 1
  omega

/-- The points: time in UI and value. -/
theorem window_eq (ys : List ℚ) (T δ : ℚ) (hT : 0 < T) (hδ : 0 < δ) (c : Center) (hc : Inside T δ ys.length c) :
    window ys T δ c = (List.range (2 * (iWidth T δ).toNat + 1)).map fun k : ℕ =>
      (1 / 2 + ((k : ℚ) - iWidth T δ) * δ / T + c.t / T, ys.getD (c.i.toNat - (iWidth T δ).toNat + k) 0) := by
  obtain ⟨hc1, hc2⟩ := hc
  obtain ⟨-, -, hw⟩ := iWidth_ge T δ hT hδ
  obtain ⟨w, hwe⟩ := Int.eq_ofNat_of_zero_le (by omega : 0 ≤ iWidth T δ)
  obtain ⟨i, hie⟩ := Int.eq_ofNat_of_zero_le (by omega : 0 ≤ c.i)
  rw [hwe, hie] at hc1 hc2
  rw [hwe] at hw
  have hs : pySlice ys (c.i - iWidth T δ) (c.i + iWidth T δ + 1) = (ys.drop (i - w)).take (2 * w + 1) := by
    rw [hwe, hie]
    rw [show (i : ℤ) - w = ((i - w : ℕ) : ℤ) by omega, show (i : ℤ) + w + 1 = ((i - w : ℕ) : ℤ) + ((2 * w + 1 : ℕ) : ℤ) by omega]
    exact pySlice_inside ys (i - w) (2 * w + 1) (by omega)
  unfold window
  simp only
  rw [hs]
  have hn : (2 * iWidth T δ).toNat = 2 * w := by omega
  apply List.ext_getElem
  · simp only [List.length_zip, List.length_map, List.length_take, List.length_drop, List.length_range, gridT, Stats.linspace, hn]
    rw [hwe]
    omega
  · intro k h1 h2
    simp only [List.length_map, List.length_range, hwe] at h2
    have hk : k < 2 * w + 1 := by simpa using h2
    simp only [List.getElem_zip, List.getElem_map, List.getElem_take, List.getElem_drop, List.getElem_range, gridT, Stats.linspace, hn, hwe,
      hie]
    have h3 : i - w + k < ys.length := by omega
    rw [Prod.mk.injEq]
    constructor
    · have hw0 : (w : ℚ) ≠ 0 := by exact_mod_cast (by omega : w ≠ 0)
      have e : ((1 : ℚ) / 2 + (w : ℤ) * δ / T - (1 / 2 - (w : ℤ) * δ / T)) / ((2 * w : ℕ) : ℚ) = δ / T := by
        push_cast
        rw [div_eq_iff (by positivity)]
        ring
      rw [show (2 * (w : ℤ)).toNat = 2 * w by omega, e]
      push_cast
      ring
    · rw [List.getD_eq_getElem?_getD]
      simp [h3]

/-! ### C43 -/

/-- C43: every sampled symbol has its window of `2 * i_width + 1` samples inside the waveform, and the window is the samples around the
centre. -/
theorem C43_inside (T δ tZero : ℚ) (hT : 0 < T) (hδ : 0 < δ) (ys : List ℚ) (edges : List ℚ) :
    ∀ c ∈ sampleEdges T δ tZero ys.length edges, ∃ a w : ℕ, (w : ℤ) = ⌊T / δ + 1 / 2⌋ + 2 ∧ (a : ℤ) = c.i - w ∧ a + (2 * w + 1) ≤ ys.length ∧
      (window ys T δ c).map Prod.snd = (ys.drop a).take (2 * w + 1) := by
  intro c hc
  obtain ⟨b, -, hb⟩ := List.mem_filterMap.1 hc
  unfold sampleEdge at hb
  simp only at hb
  split at hb
  · cases hb
  · rename_i h
    push Not at h
    obtain rfl := Option.some.inj hb
    obtain ⟨-, -, hw⟩ := iWidth_ge T δ hT hδ
    have hwd : iWidth T δ = ⌊T / δ + 1 / 2⌋ + 2 := by
      unfold iWidth
      rw [pyInt_nonneg _ (by have := div_pos hT hδ; linarith)]
    obtain ⟨w, hwe⟩ := Int.eq_ofNat_of_zero_le (by omega : 0 ≤ iWidth T δ)
    obtain ⟨i, hie⟩ := Int.eq_ofNat_of_zero_le (by omega : 0 ≤ pyInt ((b - tZero - pyMod b δ) / δ + 1 / 2))
    refine ⟨i - w, w, by rw [← hwd]; exact hwe.symm, by simp only; omega, by omega, ?_⟩
    rw [window_eq ys T δ hT hδ _ ⟨h.1, h.2⟩]
    apply List.ext_getElem
    · simp only [List.length_map, List.length_range, List.length_take, List.length_drop]
      omega
    · intro k h1 h2
      simp only [List.length_map, List.length_range] at h1
      have h3 : i - w + k < ys.length := by omega
      simp only [List.getElem_map, List.getElem_range, List.getElem_take, List.getElem_drop, hwe, hie, List.getD_eq_getElem?_getD]
      simp [h3]

/-- C43 (partial: the record begins at a multiple of the sample period, see `C43_unaligned_fails`).  The sampled symbols are, in the order
of the edges, those whose window fits around the last sample before the edge; sample `k` of the window is recorded with its time
relative to the edge. -/
theorem C43_aligned_partial (T δ tZero : ℚ) (hT : 0 < T) (hδ : 0 < δ) (hz : ∃ z : ℤ, tZero = z * δ) (ys : List ℚ) (edges : List ℚ) :
    ∃ w : ℕ, (w : ℤ) = ⌊T / δ + 1 / 2⌋ + 2 ∧
      (sampleEdges T δ tZero ys.length edges).map (window ys T δ) =
      (edges.filter fun b => decide ((w : ℤ) ≤ ⌊(b - tZero) / δ⌋ ∧ ⌊(b - tZero) / δ⌋ + w < ys.length)).map fun b =>
        (List.range (2 * w + 1)).map fun k : ℕ =>
          let i : ℕ := ⌊(b - tZero) / δ⌋.toNat - w + k
          (1 / 2 + (tZero + i * δ - b) / T, ys.getD i 0) := by
  obtain ⟨z, rfl⟩ := hz
  obtain ⟨-, -, hw⟩ := iWidth_ge T δ hT hδ
  have hwd : iWidth T δ = ⌊T / δ + 1 / 2⌋ + 2 := by
    unfold iWidth
    rw [pyInt_nonneg _ (by have := div_pos hT hδ; linarith)]
  obtain ⟨w, hwe⟩ := Int.eq_ofNat_of_zero_le (by omega : 0 ≤ iWidth T δ)
  refine ⟨w, by rw [← hwd]; exact hwe.symm, ?_⟩
  have hfl : ∀ b : ℚ, ⌊(b - z * δ) / δ⌋ = ⌊b / δ⌋ - z := by
    intro b
    rw [sub_div, mul_div_cancel_right₀ _ hδ.ne', Int.floor_sub_intCast]
  have hx : ∀ b : ℚ, (b - z * δ - pyMod b δ) / δ = ((⌊b / δ⌋ - z : ℤ) : ℚ) := by
    intro b
    unfold pyMod
    push_cast
    rw [div_eq_iff hδ.ne']
    ring
  have hI : ∀ n : ℤ, 0 ≤ n → pyInt ((n : ℚ) + 1 / 2) = n := by
    intro n hn
    rw [pyInt_nonneg _ (by have : (0 : ℚ) ≤ n := by exact_mod_cast hn
                           linarith)]
    rw [Int.floor_eq_iff]
    constructor <;> linarith
  have hI' : ∀ n : ℤ, n < 0 → pyInt ((n : ℚ) + 1 / 2) ≤ 0 := by
    intro n hn
    apply pyInt_neg
    have : (n : ℚ) ≤ -1 := by exact_mod_cast (by omega : n ≤ -1)
    linarith
  have hone : ∀ b : ℚ, (sampleEdge T δ (z * δ) ys.length b).map (window ys T δ) =
      if (w : ℤ) ≤ ⌊(b - z * δ) / δ⌋ ∧ ⌊(b - z * δ) / δ⌋ + w < ys.length then
        some ((List.range (2 * w + 1)).map fun k : ℕ =>
          let i : ℕ := ⌊(b - z * δ) / δ⌋.toNat - w + k
          (1 / 2 + (z * δ + i * δ - b) / T, ys.getD i 0)) else none := by
    intro b
    unfold sampleEdge
    simp only
    rw [hx, hfl, hwe]
    generalize hn : ⌊b / δ⌋ - z = n
    rcases lt_or_ge n 0 with hneg | hpos
    · have := hI' n hneg
      rw [if_pos (Or.inl (by omega)), if_neg (by omega)]
      rfl
    · rw [hI n hpos]
      by_cases hin : (w : ℤ) ≤ n ∧ n + w < ys.length
      · rw [if_neg (by omega), if_pos hin, Option.map_some,
          window_eq ys T δ hT hδ ⟨n, -pyMod b δ⟩ ⟨by simp only; omega, by simp only; omega⟩]
        congr 1
        rw [hwe]
        apply List.map_congr_left
        intro k hk
        simp only [Int.toNat_natCast, Prod.mk.injEq, and_true]
        obtain ⟨m, rfl⟩ := Int.eq_ofNat_of_zero_le hpos
        have hm : (w : ℕ) ≤ m := by omega
        have hbm : b - pyMod b δ = (m + z : ℚ) * δ := by
          have := hx b
          rw [hn, div_eq_iff hδ.ne'] at this
          push_cast at this
          linarith
        rw [Int.toNat_natCast]
        push_cast [Nat.cast_sub hm]
        rw [show pyMod b δ = b - (m + z : ℚ) * δ by linarith]
        ring
      · rw [if_pos (by omega), if_neg hin]
        rfl
  unfold sampleEdges
  induction edges with
  | nil => rfl
  | cons b bs ih =>
    have h := hone b
    rw [List.filterMap_cons, List.filter_cons]
    cases he : sampleEdge T δ (z * δ) ys.length b with
    | none =>
      rw [he] at h
      have hn : ¬ ((w : ℤ) ≤ ⌊(b - z * δ) / δ⌋ ∧ ⌊(b - z * δ) / δ⌋ + w < ys.length) := by
        intro hc
        rw [if_pos hc] at h
        cases h
      rw [if_neg (by simpa using hn)]
      exact ih
    | some c =>
      rw [he] at h
      have hc : (w : ℤ) ≤ ⌊(b - z * δ) / δ⌋ ∧ ⌊(b - z * δ) / δ⌋ + w < ys.length := by
        by_contra hc
        rw [if_neg hc] at h
        cases h
      rw [if_pos hc] at h
      rw [if_pos (by simpa using hc), List.map_cons, List.map_cons, ih]
      congr 1
      simpa using h

/-- C43: wherever the record begins, the recorded times are off by at most half a sample period. -/
theorem C43_half_sample (T δ tZero : ℚ) (hT : 0 < T) (hδ : 0 < δ) (ys : List ℚ) (edges : List ℚ) :
    ∀ c ∈ sampleEdges T δ tZero ys.length edges, ∃ b ∈ edges, ∀ k (h : k < (window ys T δ c).length),
      let i : ℤ := c.i - (⌊T / δ + 1 / 2⌋ + 2) + k
      |((window ys T δ c)[k]).1 - (1 / 2 + (tZero + i * δ - b) / T)| ≤ δ / T / 2 := by
  intro c hc
  obtain ⟨b, hbm, hb⟩ := List.mem_filterMap.1 hc
  refine ⟨b, hbm, ?_⟩
  unfold sampleEdge at hb
  simp only at hb
  split at hb
  · cases hb
  · rename_i h
    push Not at h
    obtain rfl := Option.some.inj hb
    obtain ⟨-, -, hw⟩ := iWidth_ge T δ hT hδ
    have hwd : iWidth T δ = ⌊T / δ + 1 / 2⌋ + 2 := by
      unfold iWidth
      rw [pyInt_nonneg _ (by have := div_pos hT hδ; linarith)]
    intro k hk
    simp only
    rw [← hwd]
    have e := window_eq ys T δ hT hδ ⟨pyInt ((b - tZero - pyMod b δ) / δ + 1 / 2), -pyMod b δ⟩ ⟨h.1, h.2⟩
    simp only [e, List.getElem_map, List.getElem_range]
    generalize hx : (b - tZero - pyMod b δ) / δ = x at *
    have hx' : b - tZero - pyMod b δ = x * δ := by rw [← hx, div_mul_cancel₀ _ hδ.ne']
    have hxp : 0 ≤ x + 1 / 2 := by
      by_contra hn
      push Not at hn
      have := pyInt_neg _ hn
      omega
    rw [pyInt_nonneg _ hxp]
    have f1 := Int.lt_floor_add_one (x + 1 / 2)
    have f2 := Int.floor_le (x + 1 / 2)
    generalize (⌊x + 1 / 2⌋ : ℤ) = n at *
    push_cast
    have : 1 / 2 + ((k : ℚ) - iWidth T δ) * δ / T + -pyMod b δ / T - (1 / 2 + (tZero + ((n : ℚ) - iWidth T δ + k) * δ - b) / T) =
        (x - n) * (δ / T) := by
      rw [show pyMod b δ = b - tZero - x * δ by linarith]
      field_simp
      ring
    rw [this, abs_mul, abs_of_pos (div_pos hδ hT)]
    have : |x - n| ≤ 1 / 2 := by rw [abs_le]; constructor <;> linarith
    have := mul_le_mul_of_nonneg_right this (div_pos hδ hT).le
    linarith

/-- A record of 20 samples. -/
def exYs : List ℚ := (List.range 20).map fun i : ℕ => (i : ℚ)

/-- **C43 fails** when the record does not begin at a multiple of the sample period: with a period of 1 and samples at 0.4, 1.4, ... the
sample at 9.4 is recorded as being at the edge at 9.0. -/
theorem C43_unaligned_fails : ∃ (T δ tZero b : ℚ) (ys : List ℚ) (c : Center), 0 < T ∧ 0 < δ ∧ sampleEdges T δ tZero ys.length [b] = [c] ∧
    ∃ k, ∃ h : k < (window ys T δ c).length, ((window ys T δ c)[k]).1 = 1 / 2 ∧
      tZero + (c.i - (⌊T / δ + 1 / 2⌋ + 2) + k : ℤ) * δ ≠ b :=
  ⟨4, 1, 2 / 5, 9, exYs, ⟨9, 0⟩, by norm_num, by norm_num, by decide +kernel, 6, by decide +kernel, by decide +kernel, by decide +kernel⟩

/-- The hypotheses of the C43 theorems are met: three edges, the first and the last do not fit. -/
example : sampleEdges 4 1 0 exYs.length [5 / 2, 9 + 1 / 4, 16] = [⟨9, -1 / 4⟩] ∧ (0 : ℚ) < 4 ∧ ∃ z : ℤ, (0 : ℚ) = z * 1 :=
  ⟨by decide +kernel, by norm_num, 0, by norm_num⟩

end Verif.Props.EyeWindow
