import Verif.Model.Wave
import Verif.Props.Scpi
import Verif.Props.Tek
import Mathlib.Tactic.Linarith
import Mathlib.Tactic.Positivity
import Mathlib.Tactic.FieldSimp
import Mathlib.Tactic.Ring

/-!
C35 and C38: the reply to `WAVFRM?`.
-/

namespace Verif.Props.Wave

open Verif Verif.Scpi Verif.Decimal Verif.Tek Verif.Wave Verif.Props.Scpi

/-! ### Dithering -/

/-- `2^k` is the largest power of two that divides all codes: the weight of the least significant bit in use. -/
def IsLsb (codes : List ℤ) (k : ℕ) : Prop := (∀ c ∈ codes, (2 : ℤ) ^ k ∣ c) ∧ ∃ c ∈ codes, ¬ (2 : ℤ) ^ (k + 1) ∣ c

theorem dvd_succ (c : ℤ) (k : ℕ) : (2 : ℤ) ^ (k + 1) ∣ c ↔ (2 : ℤ) ^ k ∣ c ∧ c / 2 ^ k % 2 ≠ 1 := by
  have hp : (0 : ℤ) < 2 ^ k := by positivity
  constructor
  · rintro ⟨d, rfl⟩
    have e : (2 : ℤ) ^ (k + 1) * d = 2 ^ k * (2 * d) := by ring
    refine ⟨⟨2 * d, e⟩, ?_⟩
    rw [e, Int.mul_ediv_cancel_left _ hp.ne']
    omega
  · rintro ⟨⟨d, rfl⟩, h⟩
    rw [Int.mul_ediv_cancel_left _ hp.ne'] at h
    have : d = 2 * (d / 2) := by omega
    exact ⟨d / 2, by rw [pow_succ, mul_assoc, ← this]⟩

theorem orBit_false (codes : List ℤ) (j : ℕ) : orBit codes j = false ↔ ∀ c ∈ codes, c / 2 ^ j % 2 ≠ 1 := by
  unfold orBit
  simp

theorem lsbLoop_spec (codes : List ℤ) : ∀ fuel lsb, (∀ c ∈ codes, (2 : ℤ) ^ lsb ∣ c) →
    (∀ c ∈ codes, (2 : ℤ) ^ lsbLoop codes fuel lsb ∣ c) ∧ lsbLoop codes fuel lsb ≤ lsb + fuel ∧
    (lsbLoop codes fuel lsb < lsb + fuel → IsLsb codes (lsbLoop codes fuel lsb)) := by
  intro fuel
  induction fuel with
  | zero => intro lsb h; exact ⟨h, by simp [lsbLoop], by simp [lsbLoop]⟩
  | succ fuel ih =>
    intro lsb h
    unfold lsbLoop
    by_cases hb : orBit codes lsb = true
    · rw [if_pos hb]
      refine ⟨h, by omega, fun _ => ⟨h, ?_⟩⟩
      by_contra hn
      push Not at hn
      have : orBit codes lsb = false := (orBit_false _ _).2 fun c hc => ((dvd_succ c lsb).1 (hn c hc)).2
      rw [this] at hb
      simp at hb
    · rw [if_neg hb]
      have hb' : orBit codes lsb = false := by simpa using hb
      obtain ⟨h1, h2, h3⟩ := ih (lsb + 1) (fun c hc => (dvd_succ c lsb).2 ⟨h c hc, (orBit_false _ _).1 hb' c hc⟩)
      exact ⟨h1, by omega, fun hl => h3 (by omega)⟩

theorem lsb_found (codes : List ℤ) (bits : ℕ) (h0 : ∃ c ∈ codes, c ≠ 0) (hr : ∀ c ∈ codes, |c| < 2 ^ bits) :
    IsLsb codes (lsbLoop codes bits 0) := by
  obtain ⟨h1, h2, h3⟩ := lsbLoop_spec codes bits 0 (by simp)
  apply h3
  by_contra hc
  have e : lsbLoop codes bits 0 = bits := by omega
  rw [e] at h1
  obtain ⟨c, hc1, hc2⟩ := h0
  exact hc2 (Int.eq_zero_of_abs_lt_dvd (h1 c hc1) (hr c hc1))

theorem lsb_zero (codes : List ℤ) (bits : ℕ) (h0 : ∀ c ∈ codes, c = 0) : lsbLoop codes bits 0 = bits := by
  have : ∀ fuel lsb, lsbLoop codes fuel lsb = lsb + fuel := by
    intro fuel
    induction fuel with
    | zero => intro lsb; rfl
    | succ f ih =>
      intro lsb
      unfold lsbLoop
      rw [if_neg, ih]
      · omega
      · have : orBit codes lsb = false := (orBit_false _ _).2 fun c hc => by rw [h0 c hc]; simp
        simp [this]
  rw [this]; omega

/-- One sample: with noise of at most half of the weight `2^lsb`, which divides the code, the result is within the limits and
moves by at most half of that weight. -/
theorem ditherOne_spec (lo hi : ℤ) (hm : lo < hi) (lsb : ℕ) (c : ℤ) (u : ℚ) (hu : -(1 / 2) ≤ u ∧ u < 1 / 2) :
    (lo : ℚ) ≤ ditherOne lo hi lsb c u ∧ ditherOne lo hi lsb c u ≤ hi ∧
    (lo ≤ c ∧ c ≤ hi → |ditherOne lo hi lsb c u - c| ≤ 2 ^ lsb / 2) ∧
    (lsb = 0 → (hi ≤ c → ditherOne lo hi lsb c u = hi) ∧ (c ≤ lo → ditherOne lo hi lsb c u = lo)) := by
  have hmq : (lo : ℚ) + 1 ≤ hi := by exact_mod_cast hm
  have hL : (1 : ℚ) ≤ 2 ^ lsb := one_le_pow₀ (by norm_num)
  have hint : ∀ n : ℤ, (n : ℚ) < 1 / 2 + 2 ^ lsb / 2 → (n : ℚ) ≤ 2 ^ lsb / 2 := by
    intro n hn
    cases lsb with
    | zero =>
      have : (n : ℚ) < 1 := by simpa using (by norm_num at hn ⊢; linarith : (n : ℚ) < 1)
      have : n < 1 := by exact_mod_cast this
      have : n ≤ 0 := by omega
      have : (n : ℚ) ≤ 0 := by exact_mod_cast this
      norm_num; linarith
    | succ k =>
      have e : (2 : ℚ) ^ (k + 1) / 2 = ((2 ^ k : ℤ) : ℚ) := by push_cast; rw [pow_succ]; ring
      rw [e] at hn ⊢
      have : (n : ℚ) < ((2 ^ k + 1 : ℤ) : ℚ) := by push_cast at hn ⊢; linarith
      have : n < 2 ^ k + 1 := by exact_mod_cast this
      exact_mod_cast (by omega : n ≤ 2 ^ k)
  have hw : |(2 : ℚ) ^ lsb * u| ≤ 2 ^ lsb / 2 := by
    rw [abs_le]; constructor <;> nlinarith [hu.1, hu.2]
  unfold ditherOne
  simp only
  by_cases h1 : (hi : ℚ) - 1 / 2 ≤ c + 2 ^ lsb * u
  · rw [if_pos h1, if_neg (by linarith)]
    refine ⟨by linarith, le_refl _, ?_, ?_⟩
    · rintro ⟨h2, h3⟩
      have h3' : (c : ℚ) ≤ hi := by exact_mod_cast h3
      rw [abs_of_nonneg (by linarith)]
      have := hint (hi - c) (by push_cast; nlinarith [hu.2])
      push_cast at this
      exact this
    · intro h0
      refine ⟨fun _ => rfl, fun h2 => ?_⟩
      have h2' : (c : ℚ) ≤ lo := by exact_mod_cast h2
      subst h0
      norm_num at h1
      linarith [hu.2]
  · rw [if_neg h1]
    push Not at h1
    by_cases h2 : (c : ℚ) + 2 ^ lsb * u < (lo : ℚ) + 1 / 2
    · rw [if_pos h2]
      refine ⟨le_refl _, by linarith, ?_, ?_⟩
      · rintro ⟨h3, h4⟩
        have h3' : (lo : ℚ) ≤ c := by exact_mod_cast h3
        rw [abs_of_nonpos (by linarith)]
        rcases eq_or_lt_of_le hu.1 with e | e
        · -- the lowest draw
          have : ((c - lo : ℤ) : ℚ) < 1 / 2 + 2 ^ lsb / 2 := by push_cast; rw [← e] at h2; nlinarith
          have := hint _ this
          push_cast at this
          linarith
        · have : ((c - lo : ℤ) : ℚ) < 1 / 2 + 2 ^ lsb / 2 := by push_cast; nlinarith
          have := hint _ this
          push_cast at this
          linarith
      · intro h0
        subst h0
        refine ⟨fun h5 => ?_, fun _ => rfl⟩
        have h5' : (hi : ℚ) ≤ c := by exact_mod_cast h5
        norm_num at h1
        linarith [hu.1]
    · rw [if_neg h2]
      push Not at h2
      refine ⟨by linarith, by linarith, fun _ => ?_, ?_⟩
      · rw [show (c : ℚ) + 2 ^ lsb * u - c = 2 ^ lsb * u by ring]; exact hw
      · intro h0
        subst h0
        norm_num at h1 h2
        constructor
        · intro h5
          have h5' : (hi : ℚ) ≤ c := by exact_mod_cast h5
          linarith [hu.1]
        · intro h5
          have h5' : (c : ℚ) ≤ lo := by exact_mod_cast h5
          linarith [hu.2]

/-- What C38 asks of a dithered sequence. -/
structure Dithered (lo hi : ℤ) (codes : List ℤ) (ys : List ℚ) : Prop where
  length : ys.length = codes.length
  /-- each sample moves by at most half of the weight of the least significant bit in use -/
  near : ∃ k, IsLsb codes k ∧ ∀ (i : ℕ) (c : ℤ) (y : ℚ), codes[i]? = some c → ys[i]? = some y → |y - c| ≤ (2 : ℚ) ^ k / 2
  /-- nothing beyond the limits -/
  inside : ∀ y ∈ ys, (lo : ℚ) ≤ y ∧ y ≤ hi
  /-- when all bits are in use, clipped samples stay clipped (not true otherwise, `C38_clipped_fails`) -/
  clipped : IsLsb codes 0 → ∀ (i : ℕ) (c : ℤ) (y : ℚ), codes[i]? = some c → ys[i]? = some y → (hi ≤ c → y = hi) ∧ (c ≤ lo → y = lo)

theorem lsb_unique (codes : List ℤ) (j k : ℕ) (hj : IsLsb codes j) (hk : IsLsb codes k) : j = k := by
  by_contra hne
  rcases Nat.lt_or_gt_of_ne hne with h | h
  · obtain ⟨c, hc, hn⟩ := hj.2
    exact hn ((pow_dvd_pow 2 h).trans (hk.1 c hc))
  · obtain ⟨c, hc, hn⟩ := hk.2
    exact hn ((pow_dvd_pow 2 h).trans (hj.1 c hc))

/-- **C38 (partial).** For codes within the limits, not all zero, and any random numbers: each sample moves by at most half
of the true LSB, nothing leaves the limits, and, when the LSB is 1, clipped samples stay clipped.  Missing: all-zero
waveforms, clipped samples when the LSB is larger, codes beyond the limits; see the `_fails` theorems. -/
theorem C38_dither_partial (lo hi : ℤ) (hm : lo < hi) (bits : ℕ) (hbits : -2 ^ bits < lo ∧ hi < 2 ^ bits) (codes : List ℤ)
    (h0 : ∃ c ∈ codes, c ≠ 0) (hr : ∀ c ∈ codes, lo ≤ c ∧ c ≤ hi) (u : ℕ → ℚ)
    (hu : ∀ k, -(1 / 2) ≤ u k ∧ u k < 1 / 2) : Dithered lo hi codes (dither lo hi bits codes u) := by
  have hl := lsb_found codes bits h0 (fun c hc => abs_lt.2 ⟨lt_of_lt_of_le hbits.1 (hr c hc).1, lt_of_le_of_lt (hr c hc).2 hbits.2⟩)
  have hget : ∀ i c y, codes[i]? = some c → (dither lo hi bits codes u)[i]? = some y →
      y = ditherOne lo hi (lsbLoop codes bits 0) c (u i) := by
    intro i c y h1 h2
    unfold dither at h2
    rw [List.getElem?_mapIdx, h1] at h2
    simpa using h2.symm
  refine ⟨by simp [dither], ⟨_, hl, ?_⟩, ?_, ?_⟩
  · intro i c y h1 h2
    rw [hget i c y h1 h2]
    exact (ditherOne_spec lo hi hm _ c (u i) (hu i)).2.2.1 (hr c (List.mem_of_getElem? h1))
  · intro y hy
    obtain ⟨i, _, e⟩ := List.mem_mapIdx.1 hy
    rw [← e]
    obtain ⟨h1, h2, -, -⟩ := ditherOne_spec lo hi hm (lsbLoop codes bits 0) codes[i] (u i) (hu i)
    exact ⟨h1, h2⟩
  · intro h i c y h1 h2
    have e := lsb_unique _ _ _ hl h
    rw [hget i c y h1 h2]
    exact (ditherOne_spec lo hi hm _ c (u i) (hu i)).2.2.2 e

example : Dithered (-127) 127 [3, -127, 127] (dither (-127) 127 8 [3, -127, 127] (fun _ => 1 / 4)) :=
  C38_dither_partial (-127) 127 (by norm_num) 8 (by norm_num) _ ⟨3, by simp, by norm_num⟩ (by decide) _ (fun _ => by norm_num)

/-- **C38 fails** for a waveform that is zero throughout: the noise is as large as the full range of the converter,
hundreds of codes instead of half a code. -/
theorem C38_zero_fails (n : ℕ) (u : ℕ → ℚ) (i : ℕ) (hi : i < n) :
    (dither (-127) 127 8 (List.replicate n 0) u)[i]? = some (ditherOne (-127) 127 8 0 (u i)) ∧
    (|u i| ≤ 2 / 5 → ditherOne (-127) 127 8 0 (u i) = 256 * u i) := by
  constructor
  · unfold dither
    rw [lsb_zero _ _ (fun c hc => (List.mem_replicate.1 hc).2)]
    rw [List.getElem?_mapIdx, List.getElem?_replicate]
    simp [hi]
  · intro h
    rw [abs_le] at h
    unfold ditherOne
    simp only
    push_cast
    norm_num
    have h3 : ¬ (253 / 2 ≤ 256 * u i) := by intro h4; linarith [h.2]
    simp only [if_neg h3]
    rw [if_neg]
    intro h4
    linarith [h.1]

example : dither (-127) 127 8 [0, 0] (fun _ => 2 / 5) = [512 / 5, 512 / 5] := by decide +kernel

/-- **C38 fails** for clipped samples of a converter with fewer bits than the transfer: eight bits in sixteen. -/
theorem C38_clipped_fails : dither (-32512) 32512 16 [32512, 256] (fun _ => -(2 / 5)) = [162048 / 5, 768 / 5] := by
  decide +kernel

/-- **C38 fails** for codes beyond the assumed limits (a twelve bit converter reaches 32767, and −128 is a code of
eight bits): the sample moves by more than half an LSB. -/
theorem C38_beyond_fails : dither (-32512) 32512 16 [32767, 1] (fun _ => 0) = [32512, 1] ∧
    dither (-127) 127 8 [-128, 1] (fun _ => 0) = [-127, 1] := by decide +kernel

end Verif.Props.Wave
