import Verif.Model.Interpolation
import Mathlib.Tactic.Linarith
import Mathlib.Tactic.FieldSimp

/-!
C20: sinc interpolation.
-/

namespace Verif.Props.Interpolation

open Verif Verif.Interpolation

/-- Regularly spaced positions. -/
noncomputable def grid (x0 T : ℝ) (n : ℕ) : List ℝ := (List.range n).map fun k => x0 + (k : ℕ) * T

theorem npSinc_zero : npSinc 0 = 1 := by unfold npSinc; rw [if_pos rfl]

theorem npSinc_int (n : ℤ) (h : n ≠ 0) : npSinc n = 0 := by
  unfold npSinc
  rw [if_neg (by exact_mod_cast h), mul_comm, Real.sin_int_mul_pi, zero_div]

theorem sum_single (f : ℕ → ℝ) (y : List ℝ) (off : ℕ) (j : ℕ) (hj : j < y.length)
    (h1 : f (off + j) = 1) (h0 : ∀ k, k ≠ off + j → f k = 0) :
    (List.zipWith (fun k v => v * f k) (List.range' off y.length) y).sum = y[j] := by
  induction y generalizing off j with
  | nil => simp at hj
  | cons a y ih =>
    simp only [List.length_cons, List.range'_succ, List.zipWith_cons_cons, List.sum_cons]
    cases j with
    | zero =>
      rw [Nat.add_zero] at h1 h0
      rw [h1]
      have : (List.zipWith (fun k v => v * f k) (List.range' (off + 1) y.length) y).sum = 0 := by
        apply List.sum_eq_zero
        intro z hz
        obtain ⟨i, hi, rfl⟩ := List.mem_iff_getElem.1 hz
        simp only [List.getElem_zipWith, List.getElem_range']
        rw [h0 _ (by omega)]; ring
      rw [this]; simp
    | succ j =>
      rw [h0 off (by omega)]
      have := ih (off + 1) j (by simpa using hj) (by rw [← h1]; congr 1; omega) (fun k hk => h0 k (by omega))
      rw [this]; simp

/-- **C20.** Evaluated at regularly spaced sample positions, `sinc` returns the samples. -/
theorem C20_interpolates (x0 T : ℝ) (hT : T ≠ 0) (yp : List ℝ) (h2 : 2 ≤ yp.length) :
    sinc 1 (grid x0 T yp.length) (grid x0 T yp.length) yp = .ok yp := by
  obtain ⟨n, hn⟩ : ∃ n, yp.length = n + 2 := ⟨yp.length - 2, by omega⟩
  have hg : grid x0 T yp.length = (x0 + (0 : ℕ) * T) :: (x0 + (1 : ℕ) * T) ::
      ((List.range n).map fun k => x0 + ((k + 2 : ℕ)) * T) := by
    rw [hn]; unfold grid
    rw [List.range_succ_eq_map, List.range_succ_eq_map]
    simp only [List.map_cons, List.map_map]
    rfl
  have hlen : (grid x0 T yp.length).length = yp.length := by unfold grid; simp
  unfold sinc
  rw [if_neg (by simp), if_neg (by rw [hlen]; simp)]
  have hper : (x0 + (1 : ℕ) * T) - (x0 + (0 : ℕ) * T) = T := by push_cast; ring
  have : (match grid x0 T yp.length with
      | x0' :: x1 :: _ => (Except.ok ((grid x0 T yp.length).map (sincAt (x1 - x0') (grid x0 T yp.length) yp)) : Except PyErr _)
      | _ => .error .valueError) = .ok ((grid x0 T yp.length).map (sincAt T (grid x0 T yp.length) yp)) := by
    conv_lhs => rw [hg]
    simp only
    rw [hper, ← hg]
  refine this.trans ?_
  congr 1
  apply List.ext_getElem
  · rw [List.length_map, hlen]
  · intro j h1 hj
    rw [List.getElem_map]
    have hgj : (grid x0 T yp.length)[j]'(by rw [hlen]; exact hj) = x0 + (j : ℕ) * T := by
      unfold grid; simp
    rw [hgj]
    unfold sincAt grid
    rw [List.zipWith_map_left, List.range_eq_range']
    have hf : ∀ k : ℕ, (x0 + (j : ℕ) * T - (x0 + (k : ℕ) * T)) / T = (((j : ℤ) - (k : ℤ) : ℤ) : ℝ) := by
      intro k; push_cast; field_simp; ring
    simp only [hf]
    apply sum_single (fun k => npSinc (((j : ℤ) - (k : ℤ) : ℤ) : ℝ)) yp 0 j hj
    · simp [npSinc_zero]
    · intro k hk
      apply npSinc_int
      omega

theorem sincAt_linear (T a b : ℝ) (xp y z : List ℝ) (x : ℝ) (hl : y.length = z.length) :
    sincAt T xp (List.zipWith (fun u v => a * u + b * v) y z) x = a * sincAt T xp y x + b * sincAt T xp z x := by
  unfold sincAt
  induction xp generalizing y z with
  | nil => simp
  | cons c xp ih =>
    cases y with
    | nil => cases z with
      | nil => simp
      | cons => simp at hl
    | cons u y => cases z with
      | nil => simp at hl
      | cons v z =>
        simp only [List.zipWith_cons_cons, List.sum_cons]
        rw [ih y z (by simpa using hl)]
        ring

/-- **C20.** The interpolation is linear in the samples. -/
theorem C20_linear (a b : ℝ) (x xp y z ry rz : List ℝ) (hy : sinc 1 x xp y = .ok ry) (hz : sinc 1 x xp z = .ok rz) :
    sinc 1 x xp (List.zipWith (fun u v => a * u + b * v) y z) =
      .ok (List.zipWith (fun u v => a * u + b * v) ry rz) := by
  unfold sinc at *
  rw [if_neg (by simp)] at *
  by_cases ly : xp.length ≠ y.length
  · rw [if_pos ly] at hy; exact absurd hy (by simp)
  rw [if_neg ly] at hy
  by_cases lz : xp.length ≠ z.length
  · rw [if_pos lz] at hz; exact absurd hz (by simp)
  rw [if_neg lz] at hz
  push Not at ly lz
  rw [if_neg (by rw [List.length_zipWith]; simp [← ly, ← lz])]
  match xp, hy, hz with
  | x0 :: x1 :: rest, hy, hz =>
    simp only at hy hz ⊢
    obtain rfl := Except.ok.inj hy
    obtain rfl := Except.ok.inj hz
    congr 1
    rw [List.zipWith_map_left, List.zipWith_map_right, List.zipWith_self]
    apply List.map_congr_left
    intro v _
    exact sincAt_linear _ a b _ y z v (by rw [← ly, ← lz])

/-- **C20.** One result per evaluation point; inputs that are not 1D, of different lengths or shorter than 2 raise. -/
theorem C20_shape (ndim : ℕ) (x xp yp : List ℝ) :
    (∀ r, sinc ndim x xp yp = .ok r → r.length = x.length) ∧
    ((∃ r, sinc ndim x xp yp = .ok r) ↔ ndim = 1 ∧ xp.length = yp.length ∧ 2 ≤ xp.length) ∧
    (∀ e, sinc ndim x xp yp = .error e → e = .valueError) := by
  unfold sinc
  by_cases h1 : ndim ≠ 1
  · rw [if_pos h1]
    refine ⟨fun r h => absurd h (by simp), ⟨?_, fun h => absurd h.1 h1⟩, fun e h => (Except.error.inj h).symm⟩
    rintro ⟨r, h⟩; exact absurd h (by simp)
  rw [if_neg h1]
  push Not at h1
  by_cases h2 : xp.length ≠ yp.length
  · rw [if_pos h2]
    refine ⟨fun r h => absurd h (by simp), ⟨?_, fun h => absurd h.2.1 h2⟩, fun e h => (Except.error.inj h).symm⟩
    rintro ⟨r, h⟩; exact absurd h (by simp)
  rw [if_neg h2]
  push Not at h2
  match xp, h2 with
  | [], _ =>
    refine ⟨fun r h => absurd h (by simp), ⟨?_, fun h => absurd h.2.2 (by simp)⟩, fun e h => (Except.error.inj h).symm⟩
    rintro ⟨r, h⟩; exact absurd h (by simp)
  | [_], _ =>
    refine ⟨fun r h => absurd h (by simp), ⟨?_, fun h => absurd h.2.2 (by simp)⟩, fun e h => (Except.error.inj h).symm⟩
    rintro ⟨r, h⟩; exact absurd h (by simp)
  | a :: b :: l, h2 =>
    refine ⟨?_, ⟨fun _ => ⟨h1, h2, by simp⟩, fun _ => ⟨_, rfl⟩⟩, fun e h => absurd h (by simp)⟩
    intro r h
    obtain rfl := Except.ok.inj h
    simp

example : (1 : ℝ) ≠ 0 ∧ 2 ≤ [3, 1, (2 : ℝ)].length := by norm_num

end Verif.Props.Interpolation
