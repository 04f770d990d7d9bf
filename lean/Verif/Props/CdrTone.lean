import Verif.Props.CdrFft
import Mathlib.Analysis.SpecialFunctions.Complex.Log
import Mathlib.Algebra.BigOperators.Intervals

/-!
C65: the filter of the clock recovery, with the transforms of numpy, attenuates every tone of the jitter by the gain at its frequency.
-/

namespace Verif.Props.CdrTone

open Verif Verif.Cdr Verif.CdrFft Verif.Props.CdrFft

/-! ### Phases -/

theorem turn_add (n : ℕ) (a b : ℝ) : turn n (a + b) = turn n a * turn n b := by
  unfold turn
  rw [← Complex.exp_add]
  congr 1
  push_cast
  ring

theorem turn_zero (n : ℕ) : turn n 0 = 1 := by simp [turn]

theorem turn_re (n : ℕ) (m : ℝ) : (turn n m).re = Real.cos (2 * Real.pi * m / n) := by
  unfold turn
  rw [Complex.exp_ofReal_mul_I_re]

theorem turn_im (n : ℕ) (m : ℝ) : (turn n m).im = Real.sin (2 * Real.pi * m / n) := by
  unfold turn
  rw [Complex.exp_ofReal_mul_I_im]

theorem turn_pow (n : ℕ) (m : ℝ) (i : ℕ) : turn n (i * m) = turn n m ^ i := by
  unfold turn
  rw [← Complex.exp_nat_mul]
  congr 1
  push_cast
  ring

/-- Whole turns. -/
theorem turn_whole (n : ℕ) (hn : n ≠ 0) (m : ℤ) : turn n m = 1 ↔ (n : ℤ) ∣ m := by
  have hn' : (n : ℝ) ≠ 0 := by exact_mod_cast hn
  have hn'' : (n : ℂ) ≠ 0 := by exact_mod_cast hn
  unfold turn
  rw [Complex.exp_eq_one_iff]
  constructor
  · rintro ⟨k, hk⟩
    have hpi : (2 * (Real.pi : ℂ) * Complex.I) ≠ 0 := by simp [Real.pi_ne_zero]
    have h1 : ((m : ℂ) / n) * (2 * (Real.pi : ℂ) * Complex.I) = k * (2 * (Real.pi : ℂ) * Complex.I) := by
      rw [← hk]
      push_cast
      ring
    have h2 := mul_right_cancel₀ hpi h1
    rw [div_eq_iff hn''] at h2
    exact ⟨k, by rw [mul_comm]; exact_mod_cast h2⟩
  · rintro ⟨k, rfl⟩
    refine ⟨k, ?_⟩
    push_cast
    field_simp

/-- A whole number of turns over the record sums to nothing. -/
theorem turn_sum (n : ℕ) (hn : n ≠ 0) (m : ℤ) : ∑ i ∈ Finset.range n, turn n (i * m) = if (n : ℤ) ∣ m then (n : ℂ) else 0 := by
  simp only [turn_pow]
  split
  · rename_i h
    rw [(turn_whole n hn m).2 h]
    simp
  · rename_i h
    have h1 : turn n m ≠ 1 := fun h' => h ((turn_whole n hn m).1 h')
    have h2 : turn n m ^ n = 1 := by
      rw [← turn_pow]
      have := (turn_whole n hn (n * m)).2 ⟨m, rfl⟩
      rw [← this]
      push_cast
      rfl
    rw [geom_sum_eq h1, h2, sub_self, zero_div]

/-! ### Tones -/

/-- A tone of `k` periods in `n` samples. -/
noncomputable def tone (n k : ℕ) (A φ : ℝ) (i : ℕ) : ℝ := A * Real.cos (2 * Real.pi * k * i / n + φ)

theorem tone_exp (n k : ℕ) (A φ : ℝ) (i : ℕ) :
    (tone n k A φ i : ℂ) = A / 2 * (Complex.exp (φ * Complex.I) * turn n (i * k) + Complex.exp (-φ * Complex.I) * turn n (-(i * k))) := by
  unfold tone turn
  rw [← Complex.exp_add, ← Complex.exp_add]
  push_cast
  rw [Complex.cos]
  have e1 : (2 * (Real.pi : ℂ) * k * i / n + φ) * Complex.I = φ * Complex.I + 2 * (Real.pi : ℂ) * (i * k) / n * Complex.I := by ring
  have e2 : -(2 * (Real.pi : ℂ) * k * i / n + φ) * Complex.I = -φ * Complex.I + 2 * (Real.pi : ℂ) * -(i * k) / n * Complex.I := by ring
  rw [e1, e2]
  ring

/-- The spectrum of a tone. -/
theorem tone_spectrum (h : ℕ) (hh : 0 < h) (k j : ℕ) (hk : k ≤ h) (hj : j ≤ h) (A φ : ℝ) :
    (∑ i ∈ Finset.range (2 * h), (tone (2 * h) k A φ i : ℂ) * turn (2 * h) (-(i * j))) / ((2 * h : ℕ) : ℂ) =
      if j = k then A / 2 * (Complex.exp (φ * Complex.I) + if k = 0 ∨ k = h then Complex.exp (-φ * Complex.I) else 0) else 0 := by
  have hn : 2 * h ≠ 0 := by omega
  have hn' : ((2 * h : ℕ) : ℂ) ≠ 0 := by exact_mod_cast hn
  have step : ∀ i ∈ Finset.range (2 * h), (tone (2 * h) k A φ i : ℂ) * turn (2 * h) (-(i * j)) =
      A / 2 * Complex.exp (φ * Complex.I) * turn (2 * h) (i * ((k - j : ℤ) : ℝ)) +
        A / 2 * Complex.exp (-φ * Complex.I) * turn (2 * h) (i * ((-k - j : ℤ) : ℝ)) := by
    intro i _
    rw [tone_exp]
    have e1 : turn (2 * h) (i * ((k - j : ℤ) : ℝ)) = turn (2 * h) (i * k) * turn (2 * h) (-(i * j)) := by
      rw [← turn_add]
      congr 1
      push_cast
      ring
    have e2 : turn (2 * h) (i * ((-k - j : ℤ) : ℝ)) = turn (2 * h) (-(i * k)) * turn (2 * h) (-(i * j)) := by
      rw [← turn_add]
      congr 1
      push_cast
      ring
    rw [e1, e2]
    ring
  rw [Finset.sum_congr rfl step, Finset.sum_add_distrib, ← Finset.mul_sum, ← Finset.mul_sum, turn_sum _ hn, turn_sum _ hn]
  have d1 : (((2 * h : ℕ) : ℤ) ∣ (k - j : ℤ)) ↔ j = k := by
    constructor
    · intro hd
      obtain ⟨c, hc⟩ := hd
      have : c = 0 := by
        by_contra hc0
        rcases lt_or_gt_of_ne hc0 with h0 | h0
        · have : (2 * h : ℤ) * c ≤ 2 * h * (-1) := by apply mul_le_mul_of_nonneg_left <;> omega
          push_cast at hc
          omega
        · have : (2 * h : ℤ) * 1 ≤ 2 * h * c := by apply mul_le_mul_of_nonneg_left <;> omega
          push_cast at hc
          omega
      rw [this] at hc
      omega
    · rintro rfl
      simp
  have d2 : (((2 * h : ℕ) : ℤ) ∣ (-k - j : ℤ)) ↔ (j = k ∧ (k = 0 ∨ k = h)) := by
    constructor
    · intro hd
      obtain ⟨c, hc⟩ := hd
      push_cast at hc
      have hc1 : -1 ≤ c := by
        by_contra hc0
        have : (2 * h : ℤ) * c ≤ 2 * h * (-2) := by apply mul_le_mul_of_nonneg_left <;> omega
        omega
      have hc2 : c ≤ 0 := by
        by_contra hc0
        have : (2 * h : ℤ) * 1 ≤ 2 * h * c := by apply mul_le_mul_of_nonneg_left <;> omega
        omega
      rcases (by omega : c = -1 ∨ c = 0) with rfl | rfl
      · omega
      · omega
    · rintro ⟨rfl, rfl | rfl⟩
      · simp
      · exact ⟨-1, by push_cast; ring⟩
  simp only [d1, d2]
  by_cases hjk : j = k
  · by_cases hk' : k = 0 ∨ k = h
    · simp only [hjk, hk', and_self, if_true]
      field_simp
    · simp only [hjk, hk', and_false, if_true, if_false, mul_zero, add_zero]
      field_simp
  · simp only [hjk, false_and, if_false, mul_zero, add_zero, zero_div]

/-- The tone of a spectral line. -/
theorem tone_line (h : ℕ) (hh : 0 < h) (k : ℕ) (A φ c : ℝ) (i : ℕ) :
    (if k = 0 ∨ k = h then 1 else 2) * ((A / 2 * (Complex.exp (φ * Complex.I) + if k = 0 ∨ k = h then Complex.exp (-φ * Complex.I) else 0)) * (c : ℂ) *
      turn (2 * h) (i * k)).re = c * tone (2 * h) k A φ i := by
  have hh' : (h : ℝ) ≠ 0 := by exact_mod_cast hh.ne'
  have hcos : (Complex.exp (φ * Complex.I) * turn (2 * h) (i * k)).re = Real.cos (2 * Real.pi * k * i / (2 * h : ℕ) + φ) := by
    unfold turn
    rw [← Complex.exp_add, ← add_mul, ← Complex.ofReal_add, Complex.exp_ofReal_mul_I_re]
    congr 1
    ring
  have hcos2 : (Complex.exp (-φ * Complex.I) * turn (2 * h) (i * k)).re = Real.cos (2 * Real.pi * k * i / (2 * h : ℕ) - φ) := by
    unfold turn
    rw [← Complex.exp_add, ← add_mul, ← Complex.ofReal_neg, ← Complex.ofReal_add, Complex.exp_ofReal_mul_I_re]
    congr 1
    ring
  unfold tone
  split
  · rename_i hk
    have e : ((A : ℂ) / 2 * (Complex.exp (φ * Complex.I) + Complex.exp (-φ * Complex.I)) * (c : ℂ) * turn (2 * h) (i * k)) =
        ((A / 2 * c : ℝ) : ℂ) * (Complex.exp (φ * Complex.I) * turn (2 * h) (i * k) + Complex.exp (-φ * Complex.I) * turn (2 * h) (i * k)) := by
      push_cast
      ring
    rw [e, Complex.re_ofReal_mul, Complex.add_re, hcos, hcos2]
    have hs : Real.sin (2 * Real.pi * k * i / (2 * h : ℕ)) = 0 := by
      rcases hk with rfl | rfl
      · simp
      · have : 2 * Real.pi * k * i / (2 * k : ℕ) = i * Real.pi := by
          push_cast
          field_simp
        rw [this, Real.sin_nat_mul_pi]
    rw [Real.cos_sub, Real.cos_add, hs]
    ring
  · have e : ((A : ℂ) / 2 * (Complex.exp (φ * Complex.I) + 0) * (c : ℂ) * turn (2 * h) (i * k)) =
        ((A / 2 * c : ℝ) : ℂ) * (Complex.exp (φ * Complex.I) * turn (2 * h) (i * k)) := by
      push_cast
      ring
    rw [e, Complex.re_ofReal_mul, hcos]
    ring

/-! ### The transforms -/

theorem rfft_length (x : List ℝ) : (rfft x).length = x.length / 2 + 1 := by simp [rfft]

theorem irfft_length (s : List ℂ) : (irfft s).length = 2 * (s.length - 1) := by simp [irfft]

theorem irfft_get (s : List ℂ) (i : ℕ) (hi : i < (irfft s).length) :
    (irfft s)[i] = ∑ j ∈ Finset.range s.length, (if j = 0 ∨ j = s.length - 1 then 1 else 2) * (s.getD j 0 * turn (2 * (s.length - 1)) (i * j)).re := by
  simp [irfft]

theorem rfft_get (x : List ℝ) (j : ℕ) (hj : j < x.length / 2 + 1) :
    (rfft x).getD j 0 = (∑ i ∈ Finset.range x.length, (x.getD i 0 : ℂ) * turn x.length (-(i * j))) / x.length := by
  rw [List.getD_eq_getElem?_getD, List.getElem?_eq_getElem (by rw [rfft_length]; exact hj)]
  simp [rfft]

/-- Both sides of the spectrum. -/
theorem both_sides (h : ℕ) (hh : 0 < h) (d : ℤ) :
    ∑ j ∈ Finset.range (h + 1), (if j = 0 ∨ j = h then (1 : ℝ) else 2) * (turn (2 * h) (d * j)).re = if ((2 * h : ℕ) : ℤ) ∣ d then ((2 * h : ℕ) : ℝ) else 0 := by
  have hn : 2 * h ≠ 0 := by omega
  have hh' : (h : ℝ) ≠ 0 := by exact_mod_cast hh.ne'
  set f : ℕ → ℝ := fun j => (turn (2 * h) (d * j)).re with hf
  have hsym : ∀ j, j ≤ 2 * h → f (2 * h - j) = f j := by
    intro j hj
    simp only [hf, turn_re]
    rw [show 2 * Real.pi * (d * ((2 * h - j : ℕ) : ℝ)) / (2 * h : ℕ) = d * (2 * Real.pi) - 2 * Real.pi * (d * (j : ℝ)) / (2 * h : ℕ) by
      rw [Nat.cast_sub hj]
      push_cast
      field_simp]
    rw [Real.cos_int_mul_two_pi_sub]
  have htot : ∑ j ∈ Finset.range (2 * h), f j = if ((2 * h : ℕ) : ℤ) ∣ d then ((2 * h : ℕ) : ℝ) else 0 := by
    have := congrArg Complex.re (turn_sum (2 * h) hn d)
    rw [Complex.re_sum] at this
    rw [show (∑ j ∈ Finset.range (2 * h), f j) = ∑ i ∈ Finset.range (2 * h), (turn (2 * h) (i * (d : ℝ))).re from
      Finset.sum_congr rfl fun i _ => by simp only [hf]; rw [mul_comm (d : ℝ)], this]
    split
    · simp
    · simp
  have hsplit : ∑ j ∈ Finset.range (2 * h), f j = ∑ j ∈ Finset.range h, f j + ∑ j ∈ Finset.range h, f (j + 1) := by
    rw [two_mul, Finset.sum_range_add]
    congr 1
    rw [← Finset.sum_range_reflect]
    refine Finset.sum_congr rfl fun j hj => ?_
    have hj := Finset.mem_range.1 hj
    rw [← hsym (j + 1) (by omega)]
    congr 1
    omega
  have hw : ∀ j ∈ Finset.range (h + 1), (if j = 0 ∨ j = h then (1 : ℝ) else 2) * (turn (2 * h) (d * j)).re =
      (if j < h then f j else 0) + (if 0 < j then f j else 0) := by
    intro j hj
    have hj := Finset.mem_range.1 hj
    simp only [hf]
    by_cases h0 : j = 0
    · subst h0
      simp [hh]
    · by_cases h1 : j = h
      · subst h1
        simp [hh]
      · rw [if_neg (by tauto), if_pos (by omega), if_pos (by omega)]
        ring
  rw [Finset.sum_congr rfl hw, Finset.sum_add_distrib, ← htot, hsplit]
  congr 1
  · rw [Finset.sum_range_succ, if_neg (lt_irrefl h), add_zero]
    exact Finset.sum_congr rfl fun j hj => if_pos (Finset.mem_range.1 hj)
  · rw [Finset.sum_range_succ', if_neg (lt_irrefl 0), add_zero]
    exact Finset.sum_congr rfl fun j _ => if_pos (Nat.succ_pos j)

/-- A record with an even number of samples is the sum of its spectral lines. -/
theorem inversion (x : List ℝ) (h : ℕ) (hh : 0 < h) (hx : x.length = 2 * h) (i : ℕ) (hi : i < x.length) :
    ∑ j ∈ Finset.range (h + 1), (if j = 0 ∨ j = h then (1 : ℝ) else 2) * ((rfft x).getD j 0 * turn (2 * h) (i * j)).re = x[i] := by
  have hn' : ((2 * h : ℕ) : ℝ) ≠ 0 := by
    have : 2 * h ≠ 0 := by omega
    exact_mod_cast this
  have step : ∀ j ∈ Finset.range (h + 1), (if j = 0 ∨ j = h then (1 : ℝ) else 2) * ((rfft x).getD j 0 * turn (2 * h) (i * j)).re =
      ∑ l ∈ Finset.range (2 * h), x.getD l 0 / (2 * h : ℕ) * ((if j = 0 ∨ j = h then (1 : ℝ) else 2) * (turn (2 * h) (((i - l : ℤ) : ℝ) * j)).re) := by
    intro j hj
    have hj := Finset.mem_range.1 hj
    rw [rfft_get x j (by omega), hx, div_mul_eq_mul_div, Finset.sum_mul, Complex.div_natCast_re, Complex.re_sum, Finset.sum_div, Finset.mul_sum]
    refine Finset.sum_congr rfl fun l _ => ?_
    rw [mul_assoc, Complex.re_ofReal_mul, ← turn_add]
    rw [show (-((l : ℝ) * j) + i * j) = ((i - l : ℤ) : ℝ) * j by push_cast; ring]
    ring
  rw [Finset.sum_congr rfl step, Finset.sum_comm]
  simp only [← Finset.mul_sum]
  have hb : ∀ l ∈ Finset.range (2 * h), x.getD l 0 / (2 * h : ℕ) *
      ∑ j ∈ Finset.range (h + 1), (if j = 0 ∨ j = h then (1 : ℝ) else 2) * (turn (2 * h) (((i - l : ℤ) : ℝ) * j)).re = if l = i then x.getD l 0 else 0 := by
    intro l hl
    have hl := Finset.mem_range.1 hl
    rw [both_sides h hh]
    by_cases hli : l = i
    · rw [if_pos hli, if_pos (by rw [hli]; simp), div_mul_cancel₀ _ hn']
    · rw [if_neg hli, if_neg, mul_zero]
      rintro ⟨c, hc⟩
      push_cast at hc
      have hc1 : -1 < c := by
        by_contra hc0
        have : (2 * h : ℤ) * c ≤ 2 * h * (-1) := by apply mul_le_mul_of_nonneg_left <;> omega
        omega
      have hc2 : c < 1 := by
        by_contra hc0
        have : (2 * h : ℤ) * 1 ≤ 2 * h * c := by apply mul_le_mul_of_nonneg_left <;> omega
        omega
      have : c = 0 := by omega
      rw [this] at hc
      omega
  rw [Finset.sum_congr rfl hb, Finset.sum_ite_eq' (Finset.range (2 * h)) i, if_pos (Finset.mem_range.2 (by omega)),
    List.getD_eq_getElem?_getD, List.getElem?_eq_getElem hi, Option.getD_some]

/-- C65: the transforms of numpy meet what the other theorems ask of them. -/
theorem C65_transforms : SameLength rfft irfft ∧ Inverse rfft irfft := by
  refine ⟨fun l => ⟨rfft_length l, fun s hs => ?_⟩, ?_, ?_⟩
  · rw [irfft_length, hs]
    omega
  · intro l hl
    rcases Nat.eq_zero_or_pos l.length with h0 | h0
    · rw [List.length_eq_zero_iff.1 h0]
      rfl
    · refine List.ext_getElem ?_ fun i h1 h2 => ?_
      · rw [irfft_length, rfft_length]
        omega
      · rw [irfft_get, ← inversion l (l.length / 2) (by omega) (by omega) i h2, rfft_length]
        rfl
  · intro n
    refine List.ext_getElem ?_ fun i h1 h2 => ?_
    · rw [irfft_length]
      simp
      omega
    · rw [irfft_get, List.getElem_replicate]
      refine Finset.sum_eq_zero fun j hj => ?_
      have : (List.replicate (n / 2 + 1) (0 : ℂ)).getD j 0 = 0 := by
        have hj := Finset.mem_range.1 hj
        rw [List.getD_eq_getElem?_getD, List.getElem?_eq_getElem hj]
        simp
      rw [this]
      simp

/-- C65: any record with an even number of samples is a sum of tones. -/
theorem C65_sum_of_tones (x : List ℝ) (h : ℕ) (hh : 0 < h) (hx : x.length = 2 * h) :
    ∃ A φ : ℕ → ℝ, ∀ i (hi : i < x.length), x[i] = ∑ k ∈ Finset.range (h + 1), tone (2 * h) k (A k) (φ k) i := by
  refine ⟨fun k => (if k = 0 ∨ k = h then (1 : ℝ) else 2) * ‖(rfft x).getD k 0‖, fun k => ((rfft x).getD k 0).arg, fun i hi => ?_⟩
  rw [← inversion x h hh hx i hi]
  refine Finset.sum_congr rfl fun k _ => ?_
  unfold tone
  rw [mul_assoc]
  congr 1
  conv_lhs => rw [← Complex.norm_mul_exp_arg_mul_I ((rfft x).getD k 0)]
  rw [mul_assoc, Complex.re_ofReal_mul]
  congr 1
  unfold turn
  rw [← Complex.exp_add, ← add_mul, ← Complex.ofReal_add, Complex.exp_ofReal_mul_I_re]
  congr 1
  ring

/-- C65: **the filter attenuates every tone of the jitter by the gain at its frequency** (`k` periods in `n` symbols of the period `T` are the
frequency `k / (n T)`), and leaves its phase. -/
theorem C65_tones (base : List ℚ → Except PyErr (List ℚ × List ℚ)) (H : ℝ → ℂ) (edges clk ties : List ℚ) (hb : base edges = .ok (clk, ties))
    (ht : ties.length = clk.length) (h : ℕ) (hh : 0 < h) (hn : clk.length / 2 = h) (A φ : ℕ → ℝ) (T : ℝ)
    (hT : T = (clk.getLastD 0 - clk.headD 0) / (clk.length - 1))
    (hj : ∀ i (hi : i < ties.length), i < 2 * h → (ties[i] : ℝ) = ∑ k ∈ Finset.range (h + 1), tone (2 * h) k (A k) (φ k) i) :
    ∃ out r, runFft base rfft irfft (fun f => f.map H) edges true = .ok (out, r) ∧ r.length = 2 * h - 200 ∧
      ∀ i (hi : i < r.length), r[i] = ∑ k ∈ Finset.range (h + 1), ‖H (k / ((2 * h : ℕ) * T))‖ * tone (2 * h) k (A k) (φ k) (i + 100) := by
  have h2 : 2 ≤ clk.length := by omega
  obtain ⟨adj, a1, a2, a3⟩ := filtered_eq rfft irfft (fun f => f.map H) C65_transforms.1 (by simp) (clk.map fun x : ℚ => (x : ℝ))
    (ties.map fun x : ℚ => (x : ℝ)) (by simpa using h2) (by simpa using ht)
  rw [List.length_map, hn, mul_comm] at a1 a2 a3
  have hTT : ((clk.map fun x : ℚ => (x : ℝ)).getLastD 0 - (clk.map fun x : ℚ => (x : ℝ)).headD 0) / (clk.length - 1) = T := by
    rw [hT]
    rcases clk with _ | ⟨c, clk⟩
    · simp at h2
    · rw [List.getLastD_eq_getLast?, List.getLastD_eq_getLast?, List.getLast?_map]
      rw [List.getLast?_eq_some_getLast (by simp)]
      simp
  rw [hTT] at a3
  set x := (ties.map fun x : ℚ => (x : ℝ)).take (2 * h) with hx
  have hxl : x.length = 2 * h := by
    rw [hx, List.length_take, List.length_map, ht]
    omega
  have hxg : ∀ i ∈ Finset.range (2 * h), x.getD i 0 = ∑ k ∈ Finset.range (h + 1), tone (2 * h) k (A k) (φ k) i := by
    intro i hi
    have hi := Finset.mem_range.1 hi
    rw [List.getD_eq_getElem?_getD, List.getElem?_eq_getElem (by omega), Option.getD_some]
    simp only [hx, List.getElem_take, List.getElem_map]
    exact hj i (by omega) hi
  have hS : ∀ j, j ≤ h → (rfft x).getD j 0 =
      A j / 2 * (Complex.exp (φ j * Complex.I) + if j = 0 ∨ j = h then Complex.exp (-φ j * Complex.I) else 0) := by
    intro j hjh
    rw [rfft_get x j (by omega), hxl]
    have e : ∀ i ∈ Finset.range (2 * h), (x.getD i 0 : ℂ) * turn (2 * h) (-(i * j)) =
        ∑ k ∈ Finset.range (h + 1), (tone (2 * h) k (A k) (φ k) i : ℂ) * turn (2 * h) (-(i * j)) := by
      intro i hi
      rw [hxg i hi, Complex.ofReal_sum, Finset.sum_mul]
    rw [Finset.sum_congr rfl e, Finset.sum_comm, Finset.sum_div,
      Finset.sum_congr rfl fun k hk => tone_spectrum h hh k j (by have := Finset.mem_range.1 hk; omega) hjh (A k) (φ k),
      Finset.sum_ite_eq, if_pos (Finset.mem_range.2 (by omega))]
  set s := List.zipWith (fun (s : ℂ) (g : ℂ) => s * (1 - (‖g‖ : ℝ))) (rfft x) ((rfftFreq (2 * h) T).map H) with hs
  have hsl : s.length = h + 1 := by
    rw [hs, List.length_zipWith, rfft_length, hxl]
    simp only [rfftFreq, List.length_map, List.length_range]
    omega
  have hsg : ∀ j, j ≤ h → s.getD j 0 = (A j / 2 * (Complex.exp (φ j * Complex.I) + if j = 0 ∨ j = h then Complex.exp (-φ j * Complex.I) else 0)) *
      ((1 - ‖H (j / ((2 * h : ℕ) * T))‖ : ℝ) : ℂ) := by
    intro j hjh
    have hr : j < (rfft x).length := by
      rw [rfft_length, hxl]
      omega
    rw [← hS j hjh, List.getD_eq_getElem?_getD, List.getElem?_eq_getElem (by omega), Option.getD_some,
      List.getD_eq_getElem?_getD, List.getElem?_eq_getElem hr, Option.getD_some]
    simp only [hs, List.getElem_zipWith, List.getElem_map, rfftFreq, List.getElem_range]
    push_cast
    rfl
  have hadj : ∀ i (hi : i < adj.length), adj[i] = ∑ k ∈ Finset.range (h + 1), (1 - ‖H (k / ((2 * h : ℕ) * T))‖) * tone (2 * h) k (A k) (φ k) i := by
    intro i hi
    subst a3
    rw [irfft_get, hsl]
    refine Finset.sum_congr rfl fun k hk => ?_
    have hk := Finset.mem_range.1 hk
    rw [hsg k (by omega), Nat.add_sub_cancel]
    exact tone_line h hh k (A k) (φ k) _ i
  unfold runFft
  simp only [hb, bind, Except.bind, a2, if_true, pure, Except.pure]
  have e2 : (trim 100 (List.zipWith (· - ·) x adj)).length = 2 * h - 200 := by
    rw [trim_length, List.length_zipWith, hxl, a1]
    omega
  refine ⟨_, _, rfl, e2, fun i hi => ?_⟩
  rw [e2] at hi
  rw [trim_get _ _ _ _ (by rw [List.length_zipWith, hxl, a1]; omega), List.getElem_zipWith, hadj]
  have := hxg (i + 100) (Finset.mem_range.2 (by omega))
  rw [List.getD_eq_getElem?_getD, List.getElem?_eq_getElem (by omega), Option.getD_some] at this
  rw [this, ← Finset.sum_sub_distrib]
  refine Finset.sum_congr rfl fun k _ => ?_
  ring

/-- The hypotheses are met: a clock of 300 edges 1 ns apart and errors of any kind. -/
example : ∃ (base : List ℚ → Except PyErr (List ℚ × List ℚ)) (clk ties : List ℚ) (A φ : ℕ → ℝ), base [] = .ok (clk, ties) ∧
    ties.length = clk.length ∧ clk.length / 2 = 150 ∧ ((clk.getLastD 0 - clk.headD 0) / (clk.length - 1) : ℝ) = 1 / 10 ^ 9 ∧
    ∀ i (hi : i < ties.length), i < 2 * 150 → (ties[i] : ℝ) = ∑ k ∈ Finset.range (150 + 1), tone (2 * 150) k (A k) (φ k) i := by
  obtain ⟨A, φ, h⟩ := C65_sum_of_tones (((List.range 300).map fun i : ℕ => (i : ℚ) ^ 2 / 10 ^ 12).map fun x : ℚ => (x : ℝ)) 150 (by norm_num) (by simp)
  refine ⟨fun _ => .ok ((List.range 300).map fun i : ℕ => (i : ℚ) / 10 ^ 9, (List.range 300).map fun i : ℕ => (i : ℚ) ^ 2 / 10 ^ 12), _, _, A, φ, rfl,
    by simp, by simp, ?_, fun i hi _ => ?_⟩
  · rw [List.getLastD_eq_getLast?, List.getLast?_map, List.getLast?_range]
    norm_num [show List.range 300 = 0 :: (List.range 299).map Nat.succ from List.range_succ_eq_map]
  · have := h i (by simpa using hi)
    rw [← this]
    simp

end Verif.Props.CdrTone
