import Verif.Model.Clock
import Mathlib.Tactic.Linarith
import Mathlib.Tactic.Positivity

/-!
C53: clock generation.
-/

namespace Verif.Props.Clock

open Verif Verif.Clock

/-- **C53.** The number of edges is the requested one; a negative count is an error. -/
theorem C53_count (tSym tRj tSj fSj dcd : ℝ) (n : ℤ) (d : Draws) (hr : 0 ≤ tRj) :
    (0 ≤ n → ∃ l, edges tSym tRj tSj fSj dcd n d = .ok l ∧ (l.length : ℤ) = n) ∧
    (n < 0 → edges tSym tRj tSj fSj dcd n d = .error .valueError) := by
  unfold edges
  constructor
  · intro h
    rw [if_neg (not_lt.2 h), if_neg (not_lt.2 hr)]
    exact ⟨_, rfl, by simp; omega⟩
  · intro h; rw [if_pos h]

/-- **C53.** Without jitter the edges are exactly `0, t, 2t, ...`. -/
theorem C53_ideal (tSym fSj : ℝ) (n : ℕ) (d : Draws) (hd : d.Fits 0 0) :
    edges tSym 0 0 fSj 0 n d = .ok ((List.range n).map fun k : ℕ => (k : ℝ) * tSym) := by
  unfold edges
  rw [if_neg (by omega), if_neg (lt_irrefl _)]
  congr 1
  rw [Int.toNat_natCast]
  apply List.map_congr_left
  intro k _
  have h1 := hd.1 rfl k
  have h2 : d.uniform k = 0 := by
    have := hd.2 k
    rw [zero_div] at this
    exact abs_nonpos_iff.1 this
  unfold edge
  simp only [h1, h2]
  split_ifs <;> ring

/-- **C53.** With bounded jitter each edge stays within the sum of the amplitudes of its ideal position. -/
theorem C53_bounded (tSym tUj tSj fSj dcd : ℝ) (n : ℕ) (d : Draws) (hd : d.Fits 0 tUj) :
    ∃ l, edges tSym 0 tSj fSj dcd n d = .ok l ∧ ∀ k (h : k < l.length),
      |l[k] - k * tSym| ≤ |tSj| + tUj / 2 + |dcd * tSym| := by
  unfold edges
  rw [if_neg (by omega), if_neg (lt_irrefl _)]
  refine ⟨_, rfl, ?_⟩
  intro k hk
  rw [List.getElem_map, List.getElem_range]
  unfold edge
  simp only [hd.1 rfl k, add_zero]
  set s := Real.sin (2 * Real.pi * fSj * (k * tSym) + d.phase) with hs
  have h1 : |s * tSj| ≤ |tSj| := by
    rw [abs_mul]
    exact mul_le_of_le_one_left (abs_nonneg _) (Real.abs_sin_le_one _)
  have h2 := hd.2 k
  have h3 := abs_nonneg (dcd * tSym)
  split_ifs
  · have : k * tSym + s * tSj + dcd * tSym + d.uniform k - k * tSym = s * tSj + d.uniform k + dcd * tSym := by ring
    rw [this]
    exact (abs_add_le _ _).trans (add_le_add ((abs_add_le _ _).trans (add_le_add h1 h2)) (le_refl _))
  · have : k * tSym + s * tSj + d.uniform k - k * tSym = s * tSj + d.uniform k := by ring
    rw [this]
    refine (abs_add_le _ _).trans ?_
    linarith

/-- **C53.** If the jitter is below half a symbol in total the edges stay in order. -/
theorem C53_ordered (tSym tUj tSj fSj dcd : ℝ) (n : ℕ) (d : Draws) (hd : d.Fits 0 tUj)
    (hj : |tSj| + tUj / 2 + |dcd * tSym| < tSym / 2) :
    ∃ l, edges tSym 0 tSj fSj dcd n d = .ok l ∧ l.Pairwise (· < ·) := by
  obtain ⟨l, hl, hb⟩ := C53_bounded tSym tUj tSj fSj dcd n d hd
  refine ⟨l, hl, ?_⟩
  rw [List.pairwise_iff_getElem]
  intro i j hi hj' hij
  have h1 := hb i hi
  have h2 := hb j hj'
  rw [abs_le] at h1 h2
  have hs : 0 < tSym := by
    have h1 := abs_nonneg tSj
    have h2 := abs_nonneg (dcd * tSym)
    have h3 := (abs_nonneg _).trans (hd.2 0)
    linarith
  have hk : (i : ℝ) + 1 ≤ j := by exact_mod_cast hij
  nlinarith [h1.1, h1.2, h2.1, h2.2]

/-- **C53.** Duty-cycle distortion moves exactly the even edges, by `dcd * t_sym`. -/
theorem C53_dcd (tSym tSj fSj dcd : ℝ) (d : Draws) (k : ℕ) :
    edge tSym tSj fSj dcd d k = edge tSym tSj fSj 0 d k + (if k % 2 = 0 then dcd * tSym else 0) := by
  unfold edge
  simp only
  split_ifs <;> ring

/-- The hypotheses are met: 10 % duty-cycle distortion, a tenth of uniform and sinusoidal jitter. -/
example : (⟨0, fun _ => 0, fun _ => 1 / 20⟩ : Draws).Fits 0 (1 / 10) ∧
    |(1 / 10 : ℝ)| + (1 / 10) / 2 + |(1 / 10 : ℝ) * 1| < 1 / 2 := by
  refine ⟨⟨fun _ _ => rfl, fun k => ?_⟩, ?_⟩ <;> norm_num [abs_of_pos]

end Verif.Props.Clock
