import Verif.Model.FloatBathtub
import Verif.Props.FloatEye
import Verif.Props.EyeBathtub

/-!
C109: bathtub curves in double precision.
-/

namespace Verif.Props.FloatBathtub

open Verif Verif.Lines Verif.Eye Verif.Float Verif.Props.Intersect Verif.Props.Float Verif.Props.FloatStats Verif.Props.FloatEye Verif.Props.EyeWindow
  Verif.Props.EyeMask Verif.Props.EyeBathtub

/-! ### Specification -/

/-- The time in unit intervals of the sample `x` (or of a point between two samples) of the window around the centre `c`: the window starts `W` samples
before the sample `c.i`, the centre of the symbol is at 0.5. -/
def timeOf (T δ : ℚ) (W : ℤ) (c : Center) (x : ℚ) : ℚ := 1 / 2 + ((x - W) * δ + c.t) / T

/-- The normalised value of the sample `k` of the window around the centre `c`. -/
def valueOf (y : List ℚ) (yZero yUa : ℚ) (W : ℤ) (c : Center) (k : ℕ) : ℚ := (y.getD (c.i.toNat - W.toNat + k) 0 - yZero) / yUa

/-- The value at `x` on the line from the sample `k` to the next one. -/
def lineAt (z : ℕ → ℚ) (k : ℕ) (x : ℚ) : ℚ := z k + (x - k) * (z (k + 1) - z k)

/-! ### One segment -/

/-- The time at which the segment from `q` to `p` crosses the level. -/
def sliceHit (R : Rounding) (L : ℚ) (q p : Pt) : Option ℚ :=
  if skipSeg 0 1 L L q p then none else (intersectionF R p q (1, L) (0, L)).map Prod.fst

theorem filterMap_option {α β : Type} (l : List α) (f : α → Option β) (g : α → List β) (h : ∀ a ∈ l, g a = (f a).toList) : l.flatMap g = l.filterMap f := by
  induction l with
  | nil => rfl
  | cons a l ih =>
    rw [List.flatMap_cons, h a (by simp), ih fun b hb => h b (List.mem_cons_of_mem _ hb), List.filterMap_cons]
    cases f a <;> rfl

theorem hitsF_across (R : Rounding) (w : List Pt) (L : ℚ) :
    ∃ l, hitsF R w [[(0, L), (1, L)]] = .ok l ∧ l.map Prod.fst = (pairs w).filterMap fun a => sliceHit R L a.1 a.2 := by
  have hb : bbox [(0, L), (1, L)] = .ok (0, 1, L, L) := by simp [bbox]
  refine ⟨_, by rw [hitsF, hitsF, hitsPathF, hb]; rfl, ?_⟩
  simp only [List.append_nil, segs_eq_pairs, List.map_flatMap]
  apply filterMap_option
  intro a _
  unfold sliceHit
  by_cases hs : skipSeg 0 1 L L a.1 a.2 = true
  · rw [if_pos hs, if_pos hs]
    rfl
  · rw [if_neg hs, if_neg hs]
    have hp : pairs [((0 : ℚ), L), (1, L)] = [((0, L), (1, L))] := rfl
    rw [hp, List.filterMap_cons, List.filterMap_nil]
    cases intersectionF R a.2 a.1 (1, L) (0, L) <;> rfl

theorem area_level (p q : Pt) (L : ℚ) : area (1, L) (0, L) p = p.2 - L ∧ size (sub p (1, L)) (sub (1, L) (0, L)) = |p.2 - L| ∧
    size (sub p q) (sub (1, L) (0, L)) = |p.2 - q.2| ∧ size (sub p (1, L)) (sub p q) = |(p.1 - 1) * (p.2 - q.2)| + |(p.2 - L) * (p.1 - q.1)| ∧
    area p q (1, L) = (1 - p.1) * (q.2 - p.2) - (L - p.2) * (q.1 - p.1) ∧ area p q (0, L) = (0 - p.1) * (q.2 - p.2) - (L - p.2) * (q.1 - p.1) := by
  simp only [area, size, cross, sub]
  refine ⟨by ring, by simp, by simp, ?_, ?_, ?_⟩ <;> trivial

/-- What is reported for a segment: the level is between the values at its ends, the time is where the line is at the level, between 0 and 1, all up to
the rounding errors. -/
theorem slice_reported (R : Rounding) (L : ℚ) (q p : Pt) (x : ℚ) (h : sliceHit R L q p = some x) :
    p.2 ≠ q.2 ∧ ∃ t, 0 ≤ t ∧ t ≤ 1 ∧ |x - (p.1 + t * (q.1 - p.1))| ≤ R.u * (|p.1| + 5 * |q.1 - p.1|) ∧
      |p.2 + t * (q.2 - p.2) - L| ≤ 10 * R.u * |p.2 - q.2| ∧
      (∀ x0, x0 * (q.2 - p.2) = p.1 * (q.2 - p.2) + (L - p.2) * (q.1 - p.1) →
        |x - x0| ≤ R.u * (|p.1| + 15 * |q.1 - p.1|) ∧
        -(5 * R.u * (|p.1 - 1| + |p.1 - q.1| + 1)) ≤ x0 ∧ x0 ≤ 1 + 5 * R.u * (|p.1 - 1| + |p.1 - q.1|)) := by
  have hun := R.u_nonneg
  have hus := R.u_small
  unfold sliceHit at h
  split at h
  · cases h
  rename_i hs
  obtain ⟨z, hz, rfl⟩ := Option.map_eq_some_iff.1 h
  obtain ⟨⟨σ, hσ, c1, c2, c3, c4⟩, t, t0, t1, ⟨tn, -⟩, ta⟩ := C80_reported R p q (1, L) (0, L) z hz
  obtain ⟨a1, a2, a3, a4, a5, a6⟩ := area_level p q L
  rw [a1, a2] at c1
  rw [(area_level q q L).1, a2, a3] at c2
  rw [a4, a5] at c3
  rw [a4, a6, a3] at c4
  rw [(area_level _ p L).1, a2, a3] at ta
  -- the level is between the values
  have hbr : (q.2 ≤ L ∧ L ≤ p.2) ∨ (p.2 ≤ L ∧ L ≤ q.2) := by
    unfold skipSeg at hs
    split at hs
    · exact absurd rfl hs
    · split at hs
      · simp only [decide_eq_true_eq] at hs
        push Not at hs
        exact .inl ⟨hs.2, hs.1⟩
      · simp only [decide_eq_true_eq] at hs
        push Not at hs
        exact .inr ⟨hs.1, hs.2⟩
  have hne : p.2 ≠ q.2 := by
    intro he
    unfold intersectionF at hz
    have hd : detF R p.1 q.1 (1, L).2 (0, L).2 p.2 q.2 (1, L).1 (0, L).1 = 0 := by
      unfold detF
      rw [he]
      simp [fl_zero]
    simp only [hd, if_true] at hz
    cases hz
  have hD : 0 < |p.2 - q.2| := abs_pos.2 (sub_ne_zero.2 hne)
  have hpL : |p.2 - L| ≤ |p.2 - q.2| := by
    rcases hbr with ⟨b1, b2⟩ | ⟨b1, b2⟩
    · rw [abs_of_nonneg (by linarith), abs_of_nonneg (by linarith)]; linarith
    · rw [abs_of_nonpos (by linarith), abs_of_nonpos (by linarith)]; linarith
  -- the sign
  have hσD : σ * (q.2 - p.2) = |p.2 - q.2| := by
    have huD : 0 ≤ R.u * |p.2 - q.2| := mul_nonneg hun hD.le
    have huD2 : R.u * |p.2 - q.2| ≤ 1 / 100 * |p.2 - q.2| := mul_le_mul_of_nonneg_right hus hD.le
    have huP : R.u * |p.2 - L| ≤ R.u * |p.2 - q.2| := mul_le_mul_of_nonneg_left hpL hun
    rcases hbr with ⟨b1, b2⟩ | ⟨b1, b2⟩
    · have e1 : |p.2 - q.2| = p.2 - q.2 := abs_of_nonneg (by linarith)
      rcases hσ with rfl | rfl
      · exfalso
        rw [e1] at hD huD2 huP huD c2
        linarith
      · rw [e1]; ring
    · have e1 : |p.2 - q.2| = q.2 - p.2 := by rw [abs_of_nonpos (by linarith)]; ring
      rcases hσ with rfl | rfl
      · rw [e1]; ring
      · exfalso
        rw [e1] at hD huD2 huP huD c2
        linarith
  have hval : |p.2 + t * (q.2 - p.2) - L| ≤ 10 * R.u * |p.2 - q.2| := by
    have : R.u * |p.2 - L| ≤ R.u * |p.2 - q.2| := mul_le_mul_of_nonneg_left hpL hun
    simp only at ta
    linarith
  refine ⟨hne, t, t0, t1, tn, hval, ?_⟩
  intro x0 hx0
  have hσ2 : σ * σ = 1 := by rcases hσ with rfl | rfl <;> norm_num
  have hsz : |(p.1 - 1) * (p.2 - q.2)| + |(p.2 - L) * (p.1 - q.1)| ≤ (|p.1 - 1| + |p.1 - q.1|) * |p.2 - q.2| := by
    rw [abs_mul, abs_mul, add_mul]
    have := mul_le_mul_of_nonneg_right hpL (abs_nonneg (p.1 - q.1))
    linarith
  have hszu := mul_le_mul_of_nonneg_left hsz hun
  refine ⟨?_, ?_, ?_⟩
  · -- the time where the line is at the level
    have k1 : (x0 - (p.1 + t * (q.1 - p.1))) * (q.2 - p.2) = (L - (p.2 + t * (q.2 - p.2))) * (q.1 - p.1) := by linear_combination hx0
    have k2 : |x0 - (p.1 + t * (q.1 - p.1))| * |p.2 - q.2| ≤ 10 * R.u * |q.1 - p.1| * |p.2 - q.2| := by
      have : |x0 - (p.1 + t * (q.1 - p.1))| * |p.2 - q.2| = |p.2 + t * (q.2 - p.2) - L| * |q.1 - p.1| := by
        rw [abs_sub_comm p.2 q.2, ← abs_mul, k1, abs_mul, abs_sub_comm L]
      rw [this]
      have := mul_le_mul_of_nonneg_right hval (abs_nonneg (q.1 - p.1))
      linarith
    have k3 := le_of_mul_le_mul_right k2 hD
    have := abs_sub_le z.1 (p.1 + t * (q.1 - p.1)) x0
    rw [abs_sub_comm (p.1 + t * (q.1 - p.1)) x0] at this
    linarith
  · have e : -σ * ((0 - p.1) * (q.2 - p.2) - (L - p.2) * (q.1 - p.1)) = x0 * |p.2 - q.2| := by
      rw [← hσD]
      linear_combination -σ * hx0
    rw [e] at c4
    have : -(5 * R.u * (|p.1 - 1| + |p.1 - q.1| + 1)) * |p.2 - q.2| ≤ x0 * |p.2 - q.2| := by linarith
    exact le_of_mul_le_mul_right this hD
  · have e : σ * ((1 - p.1) * (q.2 - p.2) - (L - p.2) * (q.1 - p.1)) = (1 - x0) * |p.2 - q.2| := by
      rw [← hσD]
      linear_combination σ * hx0
    rw [e] at c3
    have : -(5 * R.u * (|p.1 - 1| + |p.1 - q.1|)) * |p.2 - q.2| ≤ (1 - x0) * |p.2 - q.2| := by linarith
    have := le_of_mul_le_mul_right this hD
    linarith

/-- A segment that crosses the level, inside the unit interval and by more than the rounding errors, is found. -/
theorem slice_found (R : Rounding) (L : ℚ) (q p : Pt) (x0 : ℚ) (hx0 : x0 * (q.2 - p.2) = p.1 * (q.2 - p.2) + (L - p.2) * (q.1 - p.1))
    (hbr : (q.2 < L ∧ L < p.2) ∨ (p.2 < L ∧ L < q.2)) (hq : 10 * R.u * |p.2 - q.2| ≤ |q.2 - L|) (hp1 : 0 ≤ p.1) (hq1 : q.1 ≤ 1)
    (h1 : 5 * R.u * (|p.1 - 1| + |p.1 - q.1| + 1) ≤ x0) (h2 : x0 ≤ 1 - 5 * R.u * (|p.1 - 1| + |p.1 - q.1|)) : ∃ x, sliceHit R L q p = some x := by
  have hun := R.u_nonneg
  have hus := R.u_small
  have hs : skipSeg 0 1 L L q p = false := by
    unfold skipSeg
    rw [if_neg (by push Not; exact ⟨hp1, hq1⟩)]
    rcases hbr with ⟨b1, b2⟩ | ⟨b1, b2⟩
    · rw [if_pos (by linarith), decide_eq_false_iff_not]
      push Not
      exact ⟨b2.le, b1.le⟩
    · rw [if_neg (by linarith), decide_eq_false_iff_not]
      push Not
      exact ⟨b1.le, b2.le⟩
  have hpL : |p.2 - L| ≤ |p.2 - q.2| := by
    rcases hbr with ⟨b1, b2⟩ | ⟨b1, b2⟩
    · rw [abs_of_nonneg (by linarith), abs_of_nonneg (by linarith)]; linarith
    · rw [abs_of_nonpos (by linarith), abs_of_nonpos (by linarith)]; linarith
  have hne : q.2 - p.2 ≠ 0 := by
    rcases hbr with ⟨b1, b2⟩ | ⟨b1, b2⟩
    · exact ne_of_lt (by linarith)
    · exact ne_of_gt (by linarith)
  have hD0 := abs_nonneg (p.2 - q.2)
  have hsz : |(p.1 - 1) * (p.2 - q.2)| + |(p.2 - L) * (p.1 - q.1)| ≤ (|p.1 - 1| + |p.1 - q.1|) * |p.2 - q.2| := by
    rw [abs_mul, abs_mul, add_mul]
    have := mul_le_mul_of_nonneg_right hpL (abs_nonneg (p.1 - q.1))
    linarith
  have hszu := mul_le_mul_of_nonneg_left hsz hun
  have hupL := mul_le_mul_of_nonneg_left hpL hun
  have m1 := mul_le_mul_of_nonneg_right h1 hD0
  have m2 := mul_le_mul_of_nonneg_right h2 hD0
  obtain ⟨a1, a2, a3, a4, a5, a6⟩ := area_level p q L
  have key : ∃ σ : ℚ, (σ = 1 ∨ σ = -1) ∧ σ * (q.2 - p.2) = |p.2 - q.2| ∧ -σ * (p.2 - L) = |p.2 - L| ∧ σ * (q.2 - L) = |q.2 - L| := by
    rcases hbr with ⟨b1, b2⟩ | ⟨b1, b2⟩
    · refine ⟨-1, .inr rfl, ?_, ?_, ?_⟩
      · rw [abs_of_nonneg (by linarith)]; ring
      · rw [abs_of_nonneg (by linarith)]; ring
      · rw [abs_of_nonpos (by linarith)]; ring
    · refine ⟨1, .inl rfl, ?_, ?_, ?_⟩
      · rw [abs_of_nonpos (by linarith)]; ring
      · rw [abs_of_nonpos (by linarith)]; ring
      · rw [abs_of_nonneg (by linarith)]; ring
  obtain ⟨σ, hσ, k1, k2, k3⟩ := key
  have hc : CrossBy 5 R.u p q (1, L) (0, L) := by
    refine ⟨σ, hσ, ?_, ?_, ?_, ?_⟩
    · rw [a1, a2, k2]
      have := mul_le_mul_of_nonneg_right hus (abs_nonneg (p.2 - L))
      have := abs_nonneg (p.2 - L)
      linarith
    · rw [(area_level q q L).1, a2, a3, k3]
      linarith
    · rw [a4, a5, show σ * ((1 - p.1) * (q.2 - p.2) - (L - p.2) * (q.1 - p.1)) = (1 - x0) * |p.2 - q.2| by
        rw [← k1]; linear_combination σ * hx0]
      linarith
    · rw [a4, a3, a6, show -σ * ((0 - p.1) * (q.2 - p.2) - (L - p.2) * (q.1 - p.1)) = x0 * |p.2 - q.2| by
        rw [← k1]; linear_combination -σ * hx0]
      linarith
  have hpar : ¬ Parallel p q (1, L) (0, L) := by
    unfold Parallel
    simp only [sub_self, mul_zero]
    intro h
    apply hne
    linarith
  obtain ⟨z, hz⟩ := Option.isSome_iff_exists.1 (C80_found R p q (1, L) (0, L) hpar hc)
  refine ⟨z.1, ?_⟩
  unfold sliceHit
  rw [hs, hz]
  rfl

/-- One segment, given with errors: `q` and `p` are the ends `(A0, Z0)` and `(A1, Z1)` up to the rounding errors. -/
theorem segment_near (R : Rounding) (L B V A0 A1 Z0 Z1 : ℚ) (q p : Pt) (hB : 1 ≤ B) (hA : A0 ≤ A1) (hq1 : |q.1 - A0| ≤ 20 * (R.u * B))
    (hp1 : |p.1 - A1| ≤ 20 * (R.u * B)) (hq2 : |q.2 - Z0| ≤ 3 * R.u * |Z0|) (hp2 : |p.2 - Z1| ≤ 3 * R.u * |Z1|)
    (hZ0 : |Z0| ≤ V) (hZ1 : |Z1| ≤ V) (ha : |p.1| ≤ 2 * B) (ha1 : |p.1 - 1| ≤ 2 * B) (hd : |q.1 - p.1| ≤ B) :
    (∀ x, sliceHit R L q p = some x → ∃ t, 0 ≤ t ∧ t ≤ 1 ∧ |x - (A1 + t * (A0 - A1))| ≤ 27 * (R.u * B) ∧
      |Z1 + t * (Z0 - Z1) - L| ≤ 24 * R.u * V ∧ -(37 * (R.u * B)) ≤ x ∧ x ≤ 1 + 37 * (R.u * B)) ∧
    (∀ ν ρ t, 0 < ν → V ≤ ρ * ν → 30 * R.u * ρ ≤ 1 → 0 ≤ t → t ≤ 1 → Z1 + t * (Z0 - Z1) = L → ν ≤ |Z0 - L| → ν ≤ |Z1 - L| →
      (50 + 2 * ρ) * (R.u * B) ≤ A1 + t * (A0 - A1) → A1 + t * (A0 - A1) ≤ 1 - (50 + 2 * ρ) * (R.u * B) →
      ∃ x, sliceHit R L q p = some x ∧ |x - (A1 + t * (A0 - A1))| ≤ (50 + 2 * ρ) * (R.u * B)) := by
  have hun := R.u_nonneg
  have hus := R.u_small
  have hV : 0 ≤ V := (abs_nonneg _).trans hZ0
  have uB : 0 ≤ R.u * B := mul_nonneg hun (by linarith)
  have uB1 : R.u ≤ R.u * B := by have := mul_le_mul_of_nonneg_left hB hun; linarith
  have uV : 0 ≤ R.u * V := mul_nonneg hun hV
  have uV2 : R.u * V ≤ 1 / 100 * V := mul_le_mul_of_nonneg_right hus hV
  have ed : |p.1 - q.1| = |q.1 - p.1| := abs_sub_comm _ _
  have m1 := mul_le_mul_of_nonneg_left ha hun
  have m2 := mul_le_mul_of_nonneg_left ha1 hun
  have m3 := mul_le_mul_of_nonneg_left hd hun
  have m4 := mul_le_mul_of_nonneg_left hZ0 hun
  have m5 := mul_le_mul_of_nonneg_left hZ1 hun
  have hq2' : |q.2 - Z0| ≤ 3 * (R.u * V) := by linarith
  have hp2' : |p.2 - Z1| ≤ 3 * (R.u * V) := by linarith
  have hdz : |p.2 - q.2| ≤ 206 / 100 * V := by
    have a1 := abs_le.1 hq2'
    have a2 := abs_le.1 hp2'
    have a3 := abs_le.1 hZ0
    have a4 := abs_le.1 hZ1
    rw [abs_le]
    constructor <;> linarith [a1.1, a1.2, a2.1, a2.2, a3.1, a3.2, a4.1, a4.2]
  have hudz := mul_le_mul_of_nonneg_left hdz hun
  have conv : ∀ t (a b c : ℚ), 0 ≤ t → t ≤ 1 → |a| ≤ c → |b| ≤ c → |(1 - t) * a + t * b| ≤ c := by
    intro t a b c t0 t1 ha hb
    have h1 := abs_add_le ((1 - t) * a) (t * b)
    rw [abs_mul, abs_mul, abs_of_nonneg t0, abs_of_nonneg (by linarith : 0 ≤ 1 - t)] at h1
    have h2 := mul_le_mul_of_nonneg_left ha (by linarith : 0 ≤ 1 - t)
    have h3 := mul_le_mul_of_nonneg_left hb t0
    linarith
  have htime : ∀ t, 0 ≤ t → t ≤ 1 → |p.1 + t * (q.1 - p.1) - (A1 + t * (A0 - A1))| ≤ 20 * (R.u * B) := by
    intro t t0 t1
    rw [show p.1 + t * (q.1 - p.1) - (A1 + t * (A0 - A1)) = (1 - t) * (p.1 - A1) + t * (q.1 - A0) by ring]
    exact conv _ _ _ _ t0 t1 hp1 hq1
  have hvalue : ∀ t, 0 ≤ t → t ≤ 1 → |p.2 + t * (q.2 - p.2) - (Z1 + t * (Z0 - Z1))| ≤ 3 * (R.u * V) := by
    intro t t0 t1
    rw [show p.2 + t * (q.2 - p.2) - (Z1 + t * (Z0 - Z1)) = (1 - t) * (p.2 - Z1) + t * (q.2 - Z0) by ring]
    exact conv _ _ _ _ t0 t1 hp2' hq2'
  constructor
  · intro x hx
    obtain ⟨hne, t, t0, t1, h1, h2, h3⟩ := slice_reported R L q p x hx
    have hne' : q.2 - p.2 ≠ 0 := sub_ne_zero.2 (Ne.symm hne)
    obtain ⟨h4, h5, h6⟩ := h3 (p.1 + (L - p.2) / (q.2 - p.2) * (q.1 - p.1)) (by field_simp)
    have g1 := htime t t0 t1
    have g2 := hvalue t t0 t1
    refine ⟨t, t0, t1, ?_, ?_, ?_, ?_⟩
    · have := abs_sub_le x (p.1 + t * (q.1 - p.1)) (A1 + t * (A0 - A1))
      linarith
    · have := abs_sub_le (Z1 + t * (Z0 - Z1)) (p.2 + t * (q.2 - p.2)) L
      rw [abs_sub_comm] at g2
      linarith
    · have := (abs_le.1 h4).1
      rw [ed] at h5
      linarith
    · have := (abs_le.1 h4).2
      rw [ed] at h6
      linarith
  · intro ν ρ t hν hρ hur t0 t1 hL n0 n1 e1 e2
    have hρ0 : 0 ≤ ρ := by
      by_contra h
      push Not at h
      have := mul_neg_of_neg_of_pos h hν
      linarith
    have uρB : 0 ≤ R.u * B * ρ := mul_nonneg uB hρ0
    have hνu : 30 * (R.u * V) ≤ ν := by
      have k1 := mul_le_mul_of_nonneg_left hρ (by linarith : 0 ≤ 30 * R.u)
      have k2 := mul_le_mul_of_nonneg_right hur hν.le
      linarith
    -- the values are on both sides
    have hside : (Z0 + ν ≤ L ∧ L + ν ≤ Z1) ∨ (Z1 + ν ≤ L ∧ L + ν ≤ Z0) := by
      have hz : (1 - t) * (Z1 - L) + t * (Z0 - L) = 0 := by linarith
      rcases le_abs'.1 n0 with c0 | c0 <;> rcases le_abs'.1 n1 with c1 | c1
      · exfalso
        have := mul_le_mul_of_nonneg_left c0 t0
        have := mul_le_mul_of_nonneg_left c1 (by linarith : 0 ≤ 1 - t)
        linarith
      · exact .inl ⟨by linarith, by linarith⟩
      · exact .inr ⟨by linarith, by linarith⟩
      · exfalso
        have := mul_le_mul_of_nonneg_left c0 t0
        have := mul_le_mul_of_nonneg_left c1 (by linarith : 0 ≤ 1 - t)
        linarith
    obtain ⟨v1, v2⟩ := abs_le.1 hq2'
    obtain ⟨v3, v4⟩ := abs_le.1 hp2'
    have hbr : (q.2 + 9 / 10 * ν ≤ L ∧ L + 9 / 10 * ν ≤ p.2) ∨ (p.2 + 9 / 10 * ν ≤ L ∧ L + 9 / 10 * ν ≤ q.2) := by
      rcases hside with ⟨c0, c1⟩ | ⟨c0, c1⟩
      · exact .inl ⟨by linarith, by linarith⟩
      · exact .inr ⟨by linarith, by linarith⟩
    have hD : 18 / 10 * ν ≤ |q.2 - p.2| := by
      rcases hbr with ⟨c0, c1⟩ | ⟨c0, c1⟩
      · exact le_abs'.2 (.inl (by linarith))
      · exact le_abs'.2 (.inr (by linarith))
    have hD0 : 0 < |q.2 - p.2| := by linarith
    have hne' : q.2 - p.2 ≠ 0 := abs_pos.1 hD0
    set lam := (L - p.2) / (q.2 - p.2) with hlam
    have hl : lam * (q.2 - p.2) = L - p.2 := by rw [hlam]; field_simp
    have hlt : |lam - t| ≤ 2 * (R.u * ρ) := by
      have g2 := hvalue t t0 t1
      rw [hL] at g2
      have k1 : |lam - t| * |q.2 - p.2| ≤ 3 * (R.u * V) := by
        rw [← abs_mul, show (lam - t) * (q.2 - p.2) = -(p.2 + t * (q.2 - p.2) - L) by linear_combination hl, abs_neg]
        exact g2
      have k2 := mul_le_mul_of_nonneg_left hD (abs_nonneg (lam - t))
      have k3 := mul_le_mul_of_nonneg_left hρ hun
      have k4 : |lam - t| * ν ≤ 2 * (R.u * ρ) * ν := by linarith [mul_nonneg (mul_nonneg hun hρ0) hν.le]
      exact le_of_mul_le_mul_right k4 hν
    have hx : |p.1 + lam * (q.1 - p.1) - (A1 + t * (A0 - A1))| ≤ 20 * (R.u * B) + 2 * (R.u * B * ρ) := by
      have g1 := htime t t0 t1
      have k1 : |(lam - t) * (q.1 - p.1)| ≤ 2 * (R.u * ρ) * B := by
        rw [abs_mul]
        exact mul_le_mul hlt hd (abs_nonneg _) (by linarith [mul_nonneg hun hρ0])
      have := abs_add_le (p.1 + t * (q.1 - p.1) - (A1 + t * (A0 - A1))) ((lam - t) * (q.1 - p.1))
      rw [show p.1 + lam * (q.1 - p.1) - (A1 + t * (A0 - A1)) = p.1 + t * (q.1 - p.1) - (A1 + t * (A0 - A1)) + (lam - t) * (q.1 - p.1) by ring]
      linarith
    obtain ⟨x1, x2⟩ := abs_le.1 hx
    obtain ⟨w1, w2⟩ := abs_le.1 hp1
    obtain ⟨w3, w4⟩ := abs_le.1 hq1
    have tA : t * (A0 - A1) ≤ 0 := mul_nonpos_of_nonneg_of_nonpos t0 (by linarith)
    have tA2 : A0 ≤ A1 + t * (A0 - A1) := by
      have := mul_nonneg (by linarith : 0 ≤ 1 - t) (by linarith : 0 ≤ A1 - A0)
      linarith
    have hx0 : (p.1 + lam * (q.1 - p.1)) * (q.2 - p.2) = p.1 * (q.2 - p.2) + (L - p.2) * (q.1 - p.1) := by
      linear_combination (q.1 - p.1) * hl
    obtain ⟨x, hf⟩ := slice_found R L q p (p.1 + lam * (q.1 - p.1)) hx0
      (by
        rcases hbr with ⟨c0, c1⟩ | ⟨c0, c1⟩
        · exact .inl ⟨by linarith, by linarith⟩
        · exact .inr ⟨by linarith, by linarith⟩)
      (by
        have : 9 / 10 * ν ≤ |q.2 - L| := by
          rcases hbr with ⟨c0, c1⟩ | ⟨c0, c1⟩
          · exact le_abs'.2 (.inl (by linarith))
          · exact le_abs'.2 (.inr (by linarith))
        linarith)
      (by linarith) (by linarith) (by rw [ed]; linarith) (by rw [ed]; linarith)
    refine ⟨x, hf, ?_⟩
    obtain ⟨-, -, -, -, -, -, h3⟩ := slice_reported R L q p x hf
    have h4 := (h3 _ hx0).1
    have := abs_sub_le x (p.1 + lam * (q.1 - p.1)) (A1 + t * (A0 - A1))
    linarith

/-! ### All segments of all symbols -/

/-- The error of a hit's time: `w` samples of `δ` on either side, symbols of length `T`, values up to `ρ` times as large as the distance of the samples
from the level. -/
def hitErr (u T δ ρ : ℚ) (w : ℤ) : ℚ := (50 + 2 * ρ) * (u * (1 + w * δ / T))

theorem pairs_range (f : ℕ → Pt) (n : ℕ) : pairs ((List.range (n + 1)).map f) = (List.range n).map fun k : ℕ => (f k, f (k + 1)) := by
  unfold pairs
  apply List.ext_getElem
  · simp
  · intro k h1 h2
    simp

theorem getD_map_range (f : ℕ → Pt) (n k : ℕ) (h : k < n) : ((List.range n).map f).getD k (0, 0) = f k := by
  rw [List.getD_eq_getElem _ _ (by simpa using h)]
  simp

/-- The hits of one segment of one symbol. -/
def segmentHit (R : Rounding) (y : List ℚ) (T δ yZero yUa L : ℚ) (c : Center) (k : ℕ) : Option ℚ :=
  sliceHit R L ((windowF R (normaliseF R y yZero yUa) T δ c).getD k (0, 0)) ((windowF R (normaliseF R y yZero yUa) T δ c).getD (k + 1) (0, 0))

theorem ySliceF_eq (R : Rounding) (w : Wf) (T δ yZero yUa L : ℚ) (hT : 0 < T) (hδ : 0 < δ) (hin : ∀ c ∈ w.centers, InsideF R T δ w.y.length c) :
    ySliceF R w δ T yZero yUa L =
      .ok (w.centers.flatMap fun c => (List.range (2 * (iWidthF R T δ).toNat)).filterMap (segmentHit R w.y T δ yZero yUa L c)) := by
  obtain ⟨y, cs⟩ := w
  unfold ySliceF
  simp only at hin ⊢
  have key : ∀ acc : List ℚ, cs.foldlM (fun acc c => do
      let h ← hitsF R (windowF R (normaliseF R y yZero yUa) T δ c) [[(0, L), (1, L)]]
      return acc ++ h.map Prod.fst) acc =
      (.ok (acc ++ cs.flatMap fun c => (List.range (2 * (iWidthF R T δ).toNat)).filterMap (segmentHit R y T δ yZero yUa L c)) : Except PyErr _) := by
    induction cs with
    | nil => intro acc; simp [pure, Except.pure]
    | cons c cs ih =>
      intro acc
      obtain ⟨h, hh, he⟩ := hitsF_across R (windowF R (normaliseF R y yZero yUa) T δ c) L
      rw [List.foldlM_cons, hh]
      simp only [bind, Except.bind, pure, Except.pure]
      have := ih (fun c hc => hin c (List.mem_cons_of_mem _ hc)) (acc ++ h.map Prod.fst)
      simp only [bind, Except.bind, pure, Except.pure] at this
      rw [this, he, List.flatMap_cons, List.append_assoc]
      congr 3
      have hi : InsideF R T δ (normaliseF R y yZero yUa).length c := by
        have := hin c (by simp)
        simpa [normaliseF] using this
      have hw := windowF_length R (normaliseF R y yZero yUa) T δ hT hδ c hi
      rw [show segmentHit R y T δ yZero yUa L c = fun k => sliceHit R L ((windowF R (normaliseF R y yZero yUa) T δ c).getD k (0, 0))
        ((windowF R (normaliseF R y yZero yUa) T δ c).getD (k + 1) (0, 0)) from rfl, hw, pairs_range, List.filterMap_map]
      apply List.filterMap_congr
      intro k hk
      rw [List.mem_range] at hk
      rw [getD_map_range _ _ k (by omega), getD_map_range _ _ (k + 1) (by omega)]
      rfl
  have := key []
  simpa using this

/-- **C109 (hits).** The times of one waveform: nothing goes wrong, and the segments between two samples of the symbols give a hit or none. A line between two
samples that goes through the level, with both samples away from it and inside the unit interval by the rounding errors, gives a hit, at the time it crosses;
and a hit is at a time at which the line between the two samples is at the level, up to the rounding errors, and between 0 and 1 up to the rounding errors. -/
theorem C109_hits (R : Rounding) (w : Wf) (T δ yZero yUa L V : ℚ) (hT : 0 < T) (hδ : 0 < δ)
    (hin : ∀ c ∈ w.centers, InsideF R T δ w.y.length c) (hct : ∀ c ∈ w.centers, 0 ≤ -c.t ∧ -c.t ≤ (1 + R.u) * δ)
    (hV : ∀ v ∈ w.y, |(v - yZero) / yUa| ≤ V) :
    ∃ f : Center → ℕ → Option ℚ, ySliceF R w δ T yZero yUa L =
        .ok (w.centers.flatMap fun c => (List.range (2 * (iWidthF R T δ).toNat)).filterMap (f c)) ∧
      ∀ c ∈ w.centers, ∀ k < 2 * (iWidthF R T δ).toNat,
        (∀ ν ρ x, 0 < ν → V ≤ ρ * ν → 30 * R.u * ρ ≤ 1 → (k : ℚ) ≤ x → x ≤ k + 1 →
          lineAt (valueOf w.y yZero yUa (iWidthF R T δ) c) k x = L →
          ν ≤ |valueOf w.y yZero yUa (iWidthF R T δ) c k - L| → ν ≤ |valueOf w.y yZero yUa (iWidthF R T δ) c (k + 1) - L| →
          hitErr R.u T δ ρ (iWidthF R T δ) ≤ timeOf T δ (iWidthF R T δ) c x → timeOf T δ (iWidthF R T δ) c x ≤ 1 - hitErr R.u T δ ρ (iWidthF R T δ) →
          ∃ t, f c k = some t ∧ |t - timeOf T δ (iWidthF R T δ) c x| ≤ hitErr R.u T δ ρ (iWidthF R T δ)) ∧
        (∀ t, f c k = some t → (∃ x, (k : ℚ) ≤ x ∧ x ≤ k + 1 ∧ |t - timeOf T δ (iWidthF R T δ) c x| ≤ hitErr R.u T δ 0 (iWidthF R T δ) ∧
            |lineAt (valueOf w.y yZero yUa (iWidthF R T δ) c) k x - L| ≤ 24 * R.u * V) ∧
          -hitErr R.u T δ 0 (iWidthF R T δ) ≤ t ∧ t ≤ 1 + hitErr R.u T δ 0 (iWidthF R T δ)) := by
  refine ⟨segmentHit R w.y T δ yZero yUa L, ySliceF_eq R w T δ yZero yUa L hT hδ hin, ?_⟩
  intro c hc k hk
  have hun := R.u_nonneg
  have hus := R.u_small
  obtain ⟨c0, c1⟩ := hct c hc
  have hW2 := iWidthF_ge R T δ hT hδ
  have hi : InsideF R T δ (normaliseF R w.y yZero yUa).length c := by
    have := hin c hc
    simpa [normaliseF] using this
  have hw := windowF_length R (normaliseF R w.y yZero yUa) T δ hT hδ c hi
  unfold segmentHit
  have t0 := time_near R T δ hT hδ c.t ⟨c0, c1⟩ k (by omega)
  have t1 := time_near R T δ hT hδ c.t ⟨c0, c1⟩ (k + 1) (by omega)
  have z0 := (C82_normalise R w.y yZero yUa).2 (c.i.toNat - (iWidthF R T δ).toNat + k)
  have z1 := (C82_normalise R w.y yZero yUa).2 (c.i.toNat - (iWidthF R T δ).toNat + (k + 1))
  have hnorm : ∀ j, c.i.toNat - (iWidthF R T δ).toNat + j < w.y.length →
      (normalise w.y yZero yUa).getD (c.i.toNat - (iWidthF R T δ).toNat + j) 0 = valueOf w.y yZero yUa (iWidthF R T δ) c j ∧
      |valueOf w.y yZero yUa (iWidthF R T δ) c j| ≤ V := by
    intro j hj
    unfold valueOf normalise
    constructor
    · rw [List.getD_eq_getElem _ _ (by simpa using hj), List.getD_eq_getElem _ _ hj, List.getElem_map]
    · rw [List.getD_eq_getElem _ _ hj]
      exact hV _ (List.getElem_mem hj)
  obtain ⟨i1, i2⟩ := hin c hc
  obtain ⟨n0, b0⟩ := hnorm k (by omega)
  obtain ⟨n1, b1⟩ := hnorm (k + 1) (by omega)
  rw [n0] at z0
  rw [n1] at z1
  rw [hw, getD_map_range _ _ k (by omega), getD_map_range _ _ (k + 1) (by omega)]
  set W := iWidthF R T δ with hWd
  set g0 := R.fl (gridF R (R.fl (1 / 2 - tWidthF R T δ)) (R.fl (1 / 2 + tWidthF R T δ)) (2 * W.toNat) k + R.fl (c.t / T))
  set g1 := R.fl (gridF R (R.fl (1 / 2 - tWidthF R T δ)) (R.fl (1 / 2 + tWidthF R T δ)) (2 * W.toNat) (k + 1) + R.fl (c.t / T))
  set y0 := (normaliseF R w.y yZero yUa).getD (c.i.toNat - W.toNat + k) 0
  set y1 := (normaliseF R w.y yZero yUa).getD (c.i.toNat - W.toNat + (k + 1)) 0
  set Z := valueOf w.y yZero yUa W c
  -- the times
  have hd : 0 < δ / T := div_pos hδ hT
  have hWq : (2 : ℚ) ≤ W := by exact_mod_cast hW2
  set τ := (W : ℚ) * δ / T with hτ
  have hτd : 2 * (δ / T) ≤ τ := by
    rw [hτ, mul_div_assoc]
    exact mul_le_mul_of_nonneg_right hWq hd.le
  have hct1 : -c.t / T ≤ 101 / 100 * (δ / T) := by
    rw [div_le_iff₀ hT]
    have : 101 / 100 * (δ / T) * T = 101 / 100 * δ := by field_simp
    rw [this]
    have := mul_le_mul_of_nonneg_right hus hδ.le
    linarith
  have hct0 : 0 ≤ -c.t / T := div_nonneg c0 hT.le
  have htm : ∀ x : ℚ, timeOf T δ W c x = 1 / 2 + (x * (δ / T) - τ - (-c.t / T)) := by
    intro x
    rw [timeOf, hτ]
    field_simp
    ring
  have hkq : ((k : ℚ) + 1) * (δ / T) ≤ 2 * τ := by
    have : ((k : ℚ) + 1) ≤ 2 * W := by
      have : (k : ℤ) + 1 ≤ 2 * W := by omega
      exact_mod_cast this
    rw [hτ, mul_div_assoc, ← mul_assoc]
    exact mul_le_mul_of_nonneg_right this hd.le
  have hk0 : 0 ≤ (k : ℚ) * (δ / T) := mul_nonneg (Nat.cast_nonneg k) hd.le
  have e0 : (1 : ℚ) / 2 + ((k : ℚ) - W) * δ / T + c.t / T = timeOf T δ W c k := by rw [htm, hτ]; ring
  have e1 : (1 : ℚ) / 2 + (((k + 1 : ℕ) : ℚ) - W) * δ / T + c.t / T = timeOf T δ W c (k + 1) := by rw [htm, hτ]; push_cast; ring
  rw [e0] at t0
  rw [e1] at t1
  have uB2 : R.u * (1 + τ) ≤ 1 / 100 * (1 + τ) := mul_le_mul_of_nonneg_right hus (by linarith)
  have hseg := segment_near R L (1 + τ) V (timeOf T δ W c k) (timeOf T δ W c (k + 1)) (Z k) (Z (k + 1)) (g0, y0) (g1, y1) (by linarith)
    (by rw [htm, htm]; linarith) t0 t1 z0 z1 b0 b1
    (by
      obtain ⟨s1, s2⟩ := abs_le.1 t1
      rw [htm] at s1 s2
      simp only
      rw [abs_le]
      constructor <;> linarith)
    (by
      obtain ⟨s1, s2⟩ := abs_le.1 t1
      rw [htm] at s1 s2
      simp only
      rw [abs_le]
      constructor <;> linarith)
    (by
      obtain ⟨s1, s2⟩ := abs_le.1 t1
      obtain ⟨s3, s4⟩ := abs_le.1 t0
      rw [htm] at s1 s2 s3 s4
      simp only
      rw [abs_le]
      constructor <;> linarith)
  have hconv : ∀ x : ℚ, timeOf T δ W c (k + 1) + (k + 1 - x) * (timeOf T δ W c k - timeOf T δ W c (k + 1)) = timeOf T δ W c x := by
    intro x
    simp only [htm]
    ring
  have hline : ∀ x : ℚ, Z (k + 1) + (k + 1 - x) * (Z k - Z (k + 1)) = lineAt Z k x := by
    intro x
    rw [lineAt]
    ring
  have uB : 0 ≤ R.u * (1 + τ) := mul_nonneg hun (by linarith)
  obtain ⟨hrep, hfound⟩ := hseg
  constructor
  · intro ν ρ x hν hρ hur x0 x1 hL m0 m1 q0 q1
    have := hfound ν ρ (k + 1 - x) hν hρ hur (by linarith) (by linarith) (by rw [hline]; exact hL) m0 m1
      (by rw [hconv]; exact q0) (by rw [hconv]; exact q1)
    rw [hconv] at this
    exact this
  · intro t ht
    obtain ⟨s, s0, s1, h1, h2, h3, h4⟩ := hrep t ht
    have es : s = k + 1 - ((k : ℚ) + 1 - s) := by ring
    rw [es, hconv] at h1
    rw [es, hline] at h2
    unfold hitErr
    rw [← hτ]
    refine ⟨⟨k + 1 - s, by linarith, by linarith, ?_, h2⟩, ?_, ?_⟩
    · linarith
    · linarith
    · linarith

/-! ### The curve -/

/-- One value of the curve. -/
theorem ber_near (F : Floats) (i n : ℕ) (hi : i < n) :
    0 ≤ F.fl (1 - F.fl ((i : ℚ) / n)) ∧ F.fl (1 - F.fl ((i : ℚ) / n)) ≤ 1 ∧
    |F.fl (1 - F.fl ((i : ℚ) / n)) - (1 - (i : ℚ) / n)| ≤ 2 * F.u ∧ (n * F.u < 1 → 0 < F.fl (1 - F.fl ((i : ℚ) / n))) := by
  have hu := F.u_nonneg
  have hn : (0 : ℚ) < n := by exact_mod_cast (by omega : 0 < n)
  have hin : (i : ℚ) + 1 ≤ n := by exact_mod_cast hi
  have hx0 : (0 : ℚ) ≤ (i : ℚ) / n := by positivity
  have hx1 : (i : ℚ) / n ≤ 1 - 1 / n := by
    rw [div_le_iff₀ hn, sub_mul, div_mul_cancel₀ _ hn.ne']
    linarith
  have hn1 : (0 : ℚ) < 1 / n := by positivity
  have hz : F.fl 0 = 0 := fl_zero F.toRounding
  have a0 : 0 ≤ F.fl ((i : ℚ) / n) := by rw [← hz]; exact F.mono _ _ hx0
  have a1 : F.fl ((i : ℚ) / n) ≤ 1 := by rw [← F.one]; exact F.mono _ _ (by linarith)
  have e1 := F.err ((i : ℚ) / n)
  rw [abs_of_nonneg hx0] at e1
  have e2 := F.err (1 - F.fl ((i : ℚ) / n))
  rw [abs_of_nonneg (by linarith : 0 ≤ 1 - F.fl ((i : ℚ) / n))] at e2
  have m1 : F.u * ((i : ℚ) / n) ≤ F.u := by have := mul_le_mul_of_nonneg_left (by linarith : (i : ℚ) / n ≤ 1) hu; linarith
  have m2 : F.u * (1 - F.fl ((i : ℚ) / n)) ≤ F.u := by
    have := mul_le_mul_of_nonneg_left (by linarith : 1 - F.fl ((i : ℚ) / n) ≤ 1) hu; linarith
  refine ⟨?_, ?_, ?_, ?_⟩
  · rw [← hz]; exact F.mono _ _ (by linarith)
  · have := F.mono (1 - F.fl ((i : ℚ) / n)) 1 (by linarith)
    rwa [F.one] at this
  · obtain ⟨b1, b2⟩ := abs_le.1 e1
    obtain ⟨b3, b4⟩ := abs_le.1 e2
    rw [abs_le]
    constructor <;> linarith
  · intro hnu
    refine (fl_pos F.toRounding).2 ?_
    have : F.u < 1 / n := by rw [lt_div_iff₀ hn, mul_comm]; exact hnu
    have := (abs_le.1 e1).2
    linarith

theorem ber_mono (F : Floats) (i j n : ℕ) (h : i ≤ j) : F.fl (1 - F.fl ((j : ℚ) / n)) ≤ F.fl (1 - F.fl ((i : ℚ) / n)) := by
  apply F.mono
  have : F.fl ((i : ℚ) / n) ≤ F.fl ((j : ℚ) / n) := by
    apply F.mono
    have : (i : ℚ) ≤ j := by exact_mod_cast h
    exact div_le_div_of_nonneg_right this (Nat.cast_nonneg n)
  linarith

/-- **C109 (curve).** The curve of any times: (0, 1), the times of the left half in order, those of the right half in order, (1, 1). All rates are between 0 and
1, and positive unless there are 2^53 hits; they do not increase in the left half and do not decrease in the right half, and the rate at a hit is the fraction
of its half's hits that are at it or further in, up to two roundings. -/
theorem C109_curve (F : Floats) (hits : List ℚ) :
    ∃ l r : List (ℚ × ℚ), bathtubF F.toRounding hits = (0, 1) :: (l ++ r ++ [(1, 1)]) ∧
      (l.map Prod.fst).Perm (hits.filter (· ≤ 1 / 2)) ∧ (r.map Prod.fst).Perm (hits.filter (· > 1 / 2)) ∧
      ((l ++ r).map Prod.fst).Pairwise (· ≤ ·) ∧
      ((∀ t ∈ hits, 0 ≤ t ∧ t ≤ 1) → ((bathtubF F.toRounding hits).map Prod.fst).Pairwise (· ≤ ·)) ∧
      (∀ p ∈ bathtubF F.toRounding hits, 0 ≤ p.2 ∧ p.2 ≤ 1 ∧ (hits.length * F.u < 1 → 0 < p.2)) ∧
      (((0, 1) :: l).map Prod.snd).Pairwise (· ≥ ·) ∧ ((r ++ [(1, 1)]).map Prod.snd).Pairwise (· ≤ ·) ∧
      (∀ p ∈ l, (hits.countP (fun u => decide (p.1 < u ∧ u ≤ 1 / 2)) : ℚ) / hits.countP (fun u => decide (u ≤ 1 / 2)) ≤ p.2 + 2 * F.u ∧
        p.2 ≤ (hits.countP (fun u => decide (p.1 ≤ u ∧ u ≤ 1 / 2)) : ℚ) / hits.countP (fun u => decide (u ≤ 1 / 2)) + 2 * F.u) ∧
      (∀ p ∈ r, (hits.countP (fun u => decide (1 / 2 < u ∧ u < p.1)) : ℚ) / hits.countP (fun u => decide (1 / 2 < u)) ≤ p.2 + 2 * F.u ∧
        p.2 ≤ (hits.countP (fun u => decide (1 / 2 < u ∧ u ≤ p.1)) : ℚ) / hits.countP (fun u => decide (1 / 2 < u)) + 2 * F.u) ∧
      List.Forall₂ (fun a b => a.1 = b.1 ∧ |a.2 - b.2| ≤ 2 * F.u) (bathtubF F.toRounding hits) (bathtub hits) := by
  set L := (sort hits).filter (fun u => decide (u ≤ 1 / 2)) with hL
  set R := (sort hits).filter (fun u => decide (u > 1 / 2)) with hR
  have hu := F.u_nonneg
  have pL : L.Perm (hits.filter fun u => decide (u ≤ 1 / 2)) := (sort_perm hits).filter _
  have pR : R.Perm (hits.filter fun u => decide (u > 1 / 2)) := (sort_perm hits).filter _
  have sL : L.Pairwise (· ≤ ·) := (sort_sorted hits).filter _
  have sR : R.Pairwise (· ≤ ·) := (sort_sorted hits).filter _
  have mL : ∀ t ∈ L, t ∈ hits ∧ t ≤ 1 / 2 := by
    intro t ht
    have := List.mem_filter.1 (pL.mem_iff.1 ht)
    exact ⟨this.1, by simpa using this.2⟩
  have mR : ∀ t ∈ R, t ∈ hits ∧ 1 / 2 < t := by
    intro t ht
    have := List.mem_filter.1 (pR.mem_iff.1 ht)
    exact ⟨this.1, by simpa using this.2⟩
  have lenL : L.length ≤ hits.length := by rw [pL.length_eq]; exact List.length_filter_le _ _
  have lenR : R.length ≤ hits.length := by rw [pR.length_eq]; exact List.length_filter_le _ _
  set b : ℕ → ℕ → ℚ := fun n i => F.fl (1 - F.fl ((i : ℚ) / n)) with hbd
  set l := (List.range L.length).map (fun k : ℕ => (L.getD k 0, b L.length k)) with hl
  set r := (List.range R.length).map (fun k : ℕ => (R.getD k 0, b R.length (R.length - 1 - k))) with hr
  have hb : bathtubF F.toRounding hits = (0, 1) :: (l ++ r ++ [(1, 1)]) := by
    unfold bathtubF
    simp only
    rw [← hL, ← hR, zip_get L, range_rev, zip_get R]
  have hb' : bathtub hits = (0, 1) :: (((List.range L.length).map fun k : ℕ => (L.getD k 0, 1 - (k : ℚ) / L.length)) ++
      ((List.range R.length).map fun k : ℕ => (R.getD k 0, 1 - ((R.length - 1 - k : ℕ) : ℚ) / R.length)) ++ [(1, 1)]) := by
    unfold bathtub
    simp only
    rw [← hL, ← hR, zip_get L, range_rev, zip_get R]
  have fl : l.map Prod.fst = L := map_fst_get L _
  have fr : r.map Prod.fst = R := map_fst_get R _
  have cL : ∀ p : ℚ → Bool, L.countP p = hits.countP fun u => p u && decide (u ≤ 1 / 2) := by
    intro p
    rw [pL.countP_eq, List.countP_filter]
  have cR : ∀ p : ℚ → Bool, R.countP p = hits.countP fun u => p u && decide (u > 1 / 2) := by
    intro p
    rw [pR.countP_eq, List.countP_filter]
  have nL : L.length = hits.countP fun u => decide (u ≤ 1 / 2) := by rw [pL.length_eq, List.countP_eq_length_filter]
  have nR : R.length = hits.countP fun u => decide (1 / 2 < u) := by rw [pR.length_eq, List.countP_eq_length_filter]
  have gL : ∀ p ∈ l, ∃ k, ∃ hk : k < L.length, p = (L[k], b L.length k) := by
    intro p hp
    obtain ⟨k, hk, rfl⟩ := List.mem_map.1 hp
    rw [List.mem_range] at hk
    refine ⟨k, hk, ?_⟩
    rw [List.getD_eq_getElem _ _ hk]
  have gR : ∀ p ∈ r, ∃ k, ∃ hk : k < R.length, p = (R[k], b R.length (R.length - 1 - k)) := by
    intro p hp
    obtain ⟨k, hk, rfl⟩ := List.mem_map.1 hp
    rw [List.mem_range] at hk
    refine ⟨k, hk, ?_⟩
    rw [List.getD_eq_getElem _ _ hk]
  have sLR : (L ++ R).Pairwise (· ≤ ·) := by
    rw [List.pairwise_append]
    refine ⟨sL, sR, fun x hx y hy => ?_⟩
    have := (mL x hx).2
    have := (mR y hy).2
    linarith
  have hpos : ∀ n : ℕ, n ≤ hits.length → hits.length * F.u < 1 → n * F.u < 1 := by
    intro n hn h
    have : (n : ℚ) ≤ hits.length := by exact_mod_cast hn
    have := mul_le_mul_of_nonneg_right this hu
    linarith
  have oneL : ∀ p ∈ l, 0 ≤ p.2 ∧ p.2 ≤ 1 ∧ (hits.length * F.u < 1 → 0 < p.2) := by
    intro p hp
    obtain ⟨k, hk, rfl⟩ := gL p hp
    obtain ⟨q1, q2, -, q3⟩ := ber_near F k L.length hk
    exact ⟨q1, q2, fun h => q3 (hpos _ lenL h)⟩
  have oneR : ∀ p ∈ r, 0 ≤ p.2 ∧ p.2 ≤ 1 ∧ (hits.length * F.u < 1 → 0 < p.2) := by
    intro p hp
    obtain ⟨k, hk, rfl⟩ := gR p hp
    obtain ⟨q1, q2, -, q3⟩ := ber_near F (R.length - 1 - k) R.length (by omega)
    exact ⟨q1, q2, fun h => q3 (hpos _ lenR h)⟩
  refine ⟨l, r, hb, ?_, ?_, ?_, ?_, ?_, ?_, ?_, ?_, ?_, ?_⟩
  · rw [fl]; exact pL
  · rw [fr]; exact pR
  · rw [List.map_append, fl, fr]; exact sLR
  · intro h01
    rw [hb]
    simp only [List.map_cons, List.map_append, List.map_nil, fl, fr]
    rw [List.pairwise_cons, List.pairwise_append]
    refine ⟨?_, sLR, by simp, ?_⟩
    · intro t ht
      simp only [List.mem_append, List.mem_singleton] at ht
      rcases ht with (h | h) | rfl
      · exact (h01 t (mL t h).1).1
      · exact (h01 t (mR t h).1).1
      · norm_num
    · intro x hx y hy
      rw [List.mem_singleton] at hy
      subst hy
      rcases List.mem_append.1 hx with h | h
      · exact (h01 x (mL x h).1).2
      · exact (h01 x (mR x h).1).2
  · rw [hb]
    intro p hp
    simp only [List.mem_cons, List.mem_append, List.not_mem_nil, or_false] at hp
    rcases hp with rfl | (h | h) | rfl
    · norm_num
    · exact oneL p h
    · exact oneR p h
    · norm_num
  · rw [List.map_cons, List.pairwise_cons]
    constructor
    · intro v hv
      obtain ⟨p, hp, rfl⟩ := List.mem_map.1 hv
      exact (oneL p hp).2.1
    · rw [hl, List.map_map, List.pairwise_map]
      refine List.pairwise_lt_range.imp ?_
      intro i j hij
      exact ber_mono F i j _ hij.le
  · rw [List.map_append, List.pairwise_append]
    refine ⟨?_, by simp, ?_⟩
    · rw [hr, List.map_map, List.pairwise_map]
      refine List.pairwise_lt_range.imp ?_
      intro i j hij
      exact ber_mono F _ _ _ (by omega)
    · intro x hx y hy
      simp only [List.map_cons, List.map_nil, List.mem_singleton] at hy
      subst hy
      obtain ⟨p, hp, rfl⟩ := List.mem_map.1 hx
      exact (oneR p hp).2.1
  · intro p hp
    obtain ⟨k, hk, rfl⟩ := gL p hp
    obtain ⟨-, -, q, -⟩ := ber_near F k L.length hk
    obtain ⟨q1, q2⟩ := abs_le.1 q
    obtain ⟨c1, c2⟩ := count_from L sL k hk
    have hn : (0 : ℚ) < L.length := by exact_mod_cast (by omega : 0 < L.length)
    rw [cL] at c1 c2
    rw [← nL]
    simp only [Bool.decide_and]
    have d1 : ((L.length : ℚ) - k) ≤ hits.countP fun u => decide (L[k] ≤ u) && decide (u ≤ 1 / 2) := by
      rw [← Nat.cast_sub hk.le]; exact_mod_cast c1
    have d2 : ((hits.countP fun u => decide (L[k] < u) && decide (u ≤ 1 / 2) : ℕ) : ℚ) ≤ (L.length : ℚ) - k := by
      rw [← Nat.cast_sub hk.le]; exact_mod_cast (by omega)
    have d3 := div_le_div_of_nonneg_right d1 hn.le
    have d4 := div_le_div_of_nonneg_right d2 hn.le
    rw [sub_div, div_self hn.ne'] at d3 d4
    constructor <;> linarith
  · intro p hp
    obtain ⟨k, hk, rfl⟩ := gR p hp
    obtain ⟨-, -, q, -⟩ := ber_near F (R.length - 1 - k) R.length (by omega)
    obtain ⟨q1, q2⟩ := abs_le.1 q
    obtain ⟨c1, c2⟩ := count_to R sR k hk
    have hn : (0 : ℚ) < R.length := by exact_mod_cast (by omega : 0 < R.length)
    have e : 1 - ((R.length - 1 - k : ℕ) : ℚ) / R.length = (k + 1) / R.length := by
      rw [show R.length - 1 - k = R.length - (k + 1) by omega, Nat.cast_sub (by omega), sub_div, div_self hn.ne']
      push_cast
      ring
    rw [e] at q1 q2
    rw [cR] at c1 c2
    rw [← nR]
    simp only [Bool.decide_and]
    simp only [Bool.and_comm (decide ((1 : ℚ) / 2 < _))]
    have d1 : ((k : ℚ) + 1) ≤ hits.countP fun u => decide (u ≤ R[k]) && decide (1 / 2 < u) := by exact_mod_cast c1
    have d2 : ((hits.countP fun u => decide (u < R[k]) && decide (1 / 2 < u) : ℕ) : ℚ) ≤ (k : ℚ) + 1 := by
      have : (hits.countP fun u => decide (u < R[k]) && decide (1 / 2 < u)) ≤ k + 1 := c2.trans (by omega)
      exact_mod_cast this
    have d3 := div_le_div_of_nonneg_right d1 hn.le
    have d4 := div_le_div_of_nonneg_right d2 hn.le
    constructor <;> linarith
  · rw [hb, hb']
    refine .cons ⟨rfl, by simp; exact hu⟩ (List.rel_append (List.rel_append ?_ ?_) (.cons ⟨rfl, by simp; exact hu⟩ .nil))
    · rw [hl, List.forall₂_map_left_iff, List.forall₂_map_right_iff, List.forall₂_same]
      intro k hk
      exact ⟨rfl, (ber_near F k _ (List.mem_range.1 hk)).2.2.1⟩
    · rw [hr, List.forall₂_map_left_iff, List.forall₂_map_right_iff, List.forall₂_same]
      intro k hk
      have := List.mem_range.1 hk
      exact ⟨rfl, (ber_near F (R.length - 1 - k) _ (by omega)).2.2.1⟩

/-- **C109.** The curve of several waveforms is that of the hits of all of them (`C109_hits` says which ones these are, `C109_curve` which curve it is). -/
theorem C109_bathtub (R : Rounding) (wfs : List Wf) (T δ yZero yUa L : ℚ) (hT : 0 < T) (hδ : 0 < δ)
    (hin : ∀ w ∈ wfs, ∀ c ∈ w.centers, InsideF R T δ w.y.length c) :
    ∃ hs : List (List ℚ), List.Forall₂ (fun w h => ySliceF R w δ T yZero yUa L = .ok h) wfs hs ∧
      bathtubCurveF R wfs δ T yZero yUa L = .ok (bathtubF R hs.flatten) := by
  refine ⟨wfs.map fun w => w.centers.flatMap fun c => (List.range (2 * (iWidthF R T δ).toNat)).filterMap (segmentHit R w.y T δ yZero yUa L c), ?_, ?_⟩
  · rw [List.forall₂_map_right_iff, List.forall₂_same]
    intro w hw
    exact ySliceF_eq R w T δ yZero yUa L hT hδ (hin w hw)
  · unfold bathtubCurveF
    rw [mapM_ok _ _ wfs fun w hw => ySliceF_eq R w T δ yZero yUa L hT hδ (hin w hw)]
    rfl

/-- **C109 (no rounding).** With exact arithmetic these are the functions of C47. -/
theorem C109_exact (w : Wf) (wfs : List Wf) (T δ yZero yUa L : ℚ) (hδ : 0 < δ) (hits : List ℚ) :
    ySliceF exact w δ T yZero yUa L = ySlice w δ T yZero yUa L ∧ bathtubF exact hits = bathtub hits ∧
      bathtubCurveF exact wfs δ T yZero yUa L = bathtubCurve wfs δ T yZero yUa L := by
  have hy : ∀ w, ySliceF exact w δ T yZero yUa L = ySlice w δ T yZero yUa L := by
    intro w
    unfold ySliceF ySlice
    have e : normaliseF exact w.y yZero yUa = normalise w.y yZero yUa := rfl
    simp only [e, (C82_exact T δ hδ).2.1, C80_exact.2.2.1]
  refine ⟨hy w, rfl, ?_⟩
  unfold bathtubCurveF bathtubCurve
  simp only [hy]
  rfl

/-! ### Doubles -/

/-- A waveform that crosses 1/2 just before the start of the unit interval. -/
def exEarly : Wf := ⟨[0, 0, 0, 0, 0, 2 + 1 / 2 ^ 50, 2, 2, 2, 2, 2, 2, 2], [⟨6, -1 / 16⟩]⟩

/-- **C109 (order), fails.** In doubles a hit can be before 0, and then the times of the curve are not in order. -/
theorem C109_order_fails : ¬ ∀ (w : Wf) (T δ yZero yUa L : ℚ) (b : List (ℚ × ℚ)), 0 < T → 0 < δ →
    (∀ c ∈ w.centers, InsideF double T δ w.y.length c ∧ 0 ≤ -c.t ∧ -c.t ≤ δ) → bathtubCurveF double [w] δ T yZero yUa L = .ok b →
    (b.map Prod.fst).Pairwise (· ≤ ·) := by
  intro h
  have hs : ySliceF double exEarly (1 / 4) 1 0 1 (1 / 2) = .ok [-1 / 2 ^ 55] := by decide +kernel
  have hb : bathtubCurveF double [exEarly] (1 / 4) 1 0 1 (1 / 2) = .ok (bathtubF double [-1 / 2 ^ 55]) := by
    unfold bathtubCurveF
    rw [List.mapM_cons, hs]
    rfl
  have := h exEarly 1 (1 / 4) 0 1 (1 / 2) _ (by norm_num) (by norm_num) (by unfold InsideF; decide +kernel) hb
  unfold bathtubF at this
  have e : sort [-1 / 2 ^ 55] = [-1 / 2 ^ 55] := by simp [sort]
  rw [e] at this
  revert this
  decide +kernel

/-- Low up to the sample 5, high from 6 on. -/
def exRise : Wf := ⟨[0, 0, 0, 0, 0, 0, nearest (11 / 10), 1, 1, 1, 1, 1, 1], [⟨6, -1 / 16⟩]⟩

/-- The hypotheses of `C109_hits` and `C109_bathtub` are met by doubles: the line from the sample 5 to 6 crosses half its height at 5.5. -/
example : (∀ c ∈ exRise.centers, InsideF double 1 (1 / 4) exRise.y.length c ∧ 0 ≤ -c.t ∧ -c.t ≤ (1 + double.u) * (1 / 4)) ∧
    (∀ v ∈ exRise.y, |(v - 0) / 1| ≤ 2) ∧ (2 : ℚ) ≤ 4 * (1 / 2) ∧ 30 * double.u * 4 ≤ 1 ∧
    lineAt (valueOf exRise.y 0 1 (iWidthF double 1 (1 / 4)) ⟨6, -1 / 16⟩) 5 (11 / 2) = nearest (11 / 10) / 2 ∧
    (1 : ℚ) / 2 ≤ |valueOf exRise.y 0 1 (iWidthF double 1 (1 / 4)) ⟨6, -1 / 16⟩ 5 - nearest (11 / 10) / 2| ∧
    (1 : ℚ) / 2 ≤ |valueOf exRise.y 0 1 (iWidthF double 1 (1 / 4)) ⟨6, -1 / 16⟩ 6 - nearest (11 / 10) / 2| ∧
    hitErr double.u 1 (1 / 4) 4 (iWidthF double 1 (1 / 4)) ≤ timeOf 1 (1 / 4) (iWidthF double 1 (1 / 4)) ⟨6, -1 / 16⟩ (11 / 2) ∧
    timeOf 1 (1 / 4) (iWidthF double 1 (1 / 4)) ⟨6, -1 / 16⟩ (11 / 2) ≤ 1 - hitErr double.u 1 (1 / 4) 4 (iWidthF double 1 (1 / 4)) ∧
    ySliceF double exRise (1 / 4) 1 0 1 (nearest (11 / 10) / 2) = .ok [5 / 16] := by
  unfold InsideF
  decide +kernel

/-- `C109_curve` applies to doubles; three hits at the left do not give thirds. -/
example : bathtubF doubles.toRounding [1 / 4, 1 / 3, 3 / 8, 3 / 4] =
    [(0, 1), (1 / 4, 1), (1 / 3, nearest (1 - nearest (1 / 3))), (3 / 8, nearest (1 - nearest (2 / 3))), (3 / 4, 1), (1, 1)] ∧
    nearest (1 - nearest (1 / 3)) ≠ 2 / 3 ∧ (4 : ℚ) * doubles.u < 1 := by
  have : sort [1 / 4, 1 / 3, 3 / 8, 3 / 4] = [1 / 4, 1 / 3, 3 / 8, 3 / 4] := by
    refine ((sort_perm _)).eq_of_pairwise (le := (· ≤ ·)) ?_ (sort_sorted _) ?_
    · intro a b _ _ h1 h2; exact le_antisymm h1 h2
    · decide +kernel
  unfold bathtubF
  rw [this]
  decide +kernel

end Verif.Props.FloatBathtub
