import Verif.Props.FloatVecp
import Verif.Model.Pam2Measures

/-!
C119: the vertical eye closure penalty in doubles is the one of exact arithmetic.
-/

namespace Verif.Props.FloatPercentile

open Verif Verif.Pam2 Verif.Float Verif.Props.Float Verif.Props.FloatInterpolation Verif.Props.FloatGaussian Verif.Props.FloatVecp

/-! ### The value between sorted samples -/

/-- The value at a position, from the left. -/
def at' : List ℚ → ℚ → ℚ
  | [], _ => 0
  | [a], _ => a
  | a :: b :: l, p => if p < 1 then a + max p 0 * (b - a) else at' (b :: l) (p - 1)

theorem at_zero (b : ℚ) (l : List ℚ) (p : ℚ) (hp : p ≤ 0) : at' (b :: l) p = b := by
  cases l with
  | nil => rfl
  | cons c l =>
    unfold at'
    rw [if_pos (by linarith), max_eq_right hp]
    ring

theorem at_lipschitz {G : ℚ} (hG : 0 ≤ G) (s : List ℚ) (h : ∀ v ∈ s, ∀ w ∈ s, |v - w| ≤ G) (p q : ℚ) (hpq : p ≤ q) :
    |at' s q - at' s p| ≤ G * (q - p) := by
  induction s generalizing p q with
  | nil => simpa [at'] using mul_nonneg hG (by linarith)
  | cons a s ih =>
    cases s with
    | nil => simpa [at'] using mul_nonneg hG (by linarith)
    | cons b l =>
      have hba : |b - a| ≤ G := h b (by simp) a (by simp)
      have ih' := ih fun v hv w hw => h v (List.mem_cons_of_mem _ hv) w (List.mem_cons_of_mem _ hw)
      by_cases h1 : q < 1
      · have h2 : p < 1 := by linarith
        unfold at'
        rw [if_pos h1, if_pos h2, show a + max q 0 * (b - a) - (a + max p 0 * (b - a)) = (max q 0 - max p 0) * (b - a) by ring, abs_mul, mul_comm]
        have h3 : |max q 0 - max p 0| ≤ q - p := by
          refine (abs_max_sub_max_le_abs q p 0).trans (le_of_eq (abs_of_nonneg (by linarith)))
        exact mul_le_mul hba h3 (abs_nonneg _) hG
      · push Not at h1
        by_cases h2 : p < 1
        · have e1 := ih' 0 (q - 1) (by linarith)
          rw [at_zero b l 0 le_rfl] at e1
          have e2 : at' (a :: b :: l) q = at' (b :: l) (q - 1) := by
            rw [at', if_neg (not_lt.2 h1)]
          have e3 : at' (a :: b :: l) p = a + max p 0 * (b - a) := by
            rw [at', if_pos h2]
          rw [e2, e3]
          have m0 : max p 0 ≤ 1 := max_le h2.le (by norm_num)
          have m1 : p ≤ max p 0 := le_max_left _ _
          have e4 : at' (b :: l) (q - 1) - (a + max p 0 * (b - a)) = (at' (b :: l) (q - 1) - b) + (1 - max p 0) * (b - a) := by ring
          rw [e4]
          refine (abs_add_le _ _).trans ?_
          rw [abs_mul, abs_of_nonneg (by linarith : 0 ≤ 1 - max p 0)]
          have e5 : (1 - max p 0) * |b - a| ≤ (1 - p) * G := mul_le_mul (by linarith) hba (abs_nonneg _) (by linarith)
          linarith
        · push Not at h2
          have e2 : at' (a :: b :: l) q = at' (b :: l) (q - 1) := by
            rw [at', if_neg (not_lt.2 h1)]
          have e3 : at' (a :: b :: l) p = at' (b :: l) (p - 1) := by
            rw [at', if_neg (not_lt.2 h2)]
          rw [e2, e3]
          have := ih' (p - 1) (q - 1) (by linarith)
          linarith

theorem between_at (s : List ℚ) (p v : ℚ) (h : Between s p v) (hs : s ≠ []) : v = at' s p := by
  induction s generalizing p with
  | nil => exact absurd rfl hs
  | cons a s ih =>
    cases s with
    | nil =>
      obtain ⟨h1, h2, -⟩ := h
      rcases lt_or_ge p 0 with hp | hp
      · simpa [at'] using (h1 hp).symm
      · simpa [at'] using (h2 (by simpa using hp)).symm
    | cons b l =>
      obtain ⟨h1, h2, h3⟩ := h
      have hlen : (((a :: b :: l).length : ℕ) : ℚ) = ((b :: l).length : ℕ) + 1 := by
        rw [List.length_cons]; push_cast; ring
      have hlb : (1 : ℚ) ≤ ((b :: l).length : ℕ) := by exact_mod_cast Nat.succ_le_of_lt (by simp)
      by_cases hp : p < 1
      · rw [at', if_pos hp]
        rcases lt_or_ge p 0 with h0 | h0
        · have := h1 h0
          rw [max_eq_right h0.le]
          simpa using this.symm
        · rw [max_eq_left h0]
          obtain ⟨i, x, y, i1, i2, g1, g2, rfl⟩ := h3 h0 (by rw [hlen]; linarith)
          have hi : i = 0 := by
            have : (i : ℚ) < 1 := by linarith
            exact_mod_cast Nat.lt_one_iff.1 (by exact_mod_cast this)
          subst hi
          have gx : x = a := by simpa using g1.symm
          have gy : y = b := by simpa using g2.symm
          rw [gx, gy]
          push_cast
          ring
      · push Not at hp
        rw [at', if_neg (not_lt.2 hp)]
        apply ih (p - 1) _ (by simp)
        refine ⟨fun g => absurd g (by linarith), fun g => ?_, fun g0 g1 => ?_⟩
        · have := h2 (by rw [hlen]; linarith)
          have hidx : (a :: b :: l).length - 1 = (b :: l).length - 1 + 1 := by simp
          rw [hidx, List.getElem?_cons_succ] at this
          exact this
        · obtain ⟨i, x, y, i1, i2, k1, k2, e⟩ := h3 (by linarith) (by rw [hlen]; linarith)
          have hi : 1 ≤ i := by
            by_contra hc
            have : i = 0 := by omega
            subst this
            push_cast at i2
            linarith
          obtain ⟨j, rfl⟩ : ∃ j, i = j + 1 := ⟨i - 1, by omega⟩
          rw [List.getElem?_cons_succ] at k1 k2
          push_cast at i1 i2 e
          exact ⟨j, x, y, by linarith, by linarith, k1, k2, by rw [e]; ring⟩

/-! ### Percentiles -/

theorem exact_between (q : ℚ) (l : List ℚ) (hl : l ≠ []) :
    ∃ y, percentile q l = some y ∧ Between (l.insertionSort (· ≤ ·)) (((l.length : ℚ) + 1 / 3) * q + 1 / 3 - 1) y := by
  have hp : (l.insertionSort (· ≤ ·)).Perm l := List.perm_insertionSort _ _
  have hpos : 0 < (l.insertionSort (· ≤ ·)).length := by
    rw [hp.length_eq]
    exact List.length_pos_iff.2 hl
  unfold percentile
  simp only
  rw [← hp.length_eq]
  generalize l.insertionSort (· ≤ ·) = s at *
  rw [show (s.length : ℚ) * q + (1 / 3 + q * (1 - 1 / 3 - 1 / 3)) - 1 = ((s.length : ℚ) + 1 / 3) * q + 1 / 3 - 1 by ring]
  generalize ((s.length : ℚ) + 1 / 3) * q + 1 / 3 - 1 = p
  have hposq : (0 : ℚ) ≤ (s.length : ℚ) - 1 := by
    have : (1 : ℚ) ≤ s.length := by exact_mod_cast hpos
    linarith
  split_ifs with g1 g2
  · refine ⟨s[0], by rw [List.head?_eq_getElem?, List.getElem?_eq_getElem hpos], ?_, ?_, ?_⟩
    · intro _; rw [List.getElem?_eq_getElem hpos]
    · intro g; linarith
    · intro g; linarith
  · have hlast : s.length - 1 < s.length := by omega
    refine ⟨s[s.length - 1], by rw [List.getLast?_eq_getElem?, List.getElem?_eq_getElem hlast], ?_, ?_, ?_⟩
    · intro g; linarith
    · intro _; rw [List.getElem?_eq_getElem hlast]
    · intro _ g; linarith
  · push Not at g1 g2
    obtain ⟨i, hi⟩ := Int.eq_ofNat_of_zero_le (Int.floor_nonneg.2 g1)
    have f1 := Int.floor_le p
    have f2 := Int.lt_floor_add_one p
    rw [hi] at f1 f2 ⊢
    simp only [Int.toNat_natCast, Int.cast_natCast] at f1 f2 ⊢
    have hi1 : i + 1 < s.length := by
      have : (i : ℚ) + 1 < s.length := by linarith
      exact_mod_cast this
    have hi0 : i < s.length := by omega
    rw [List.getElem?_eq_getElem hi0, List.getElem?_eq_getElem hi1]
    refine ⟨s[i] + (s[i + 1] - s[i]) * (p - i), rfl, ?_, ?_, ?_⟩
    · intro g; linarith
    · intro g; linarith
    · intro _ _
      exact ⟨i, s[i], s[i + 1], f1, f2, List.getElem?_eq_getElem hi0, List.getElem?_eq_getElem hi1, by ring⟩

/-- **C119** (percentiles).  A percentile in rounded arithmetic is the exact one up to roundings of the largest sample and of the spread of the samples. -/
theorem C119_percentile (R : Rounding) (hu : R.u ≤ 1 / 1000) (pc : ℚ) (h0 : 0 ≤ pc) (h1 : pc ≤ 100) (l : List ℚ) (hl : l ≠ []) (Y G : ℚ)
    (hY : ∀ v ∈ l, |v| ≤ Y) (hG : ∀ v ∈ l, ∀ w ∈ l, |v - w| ≤ G) :
    ∃ x y, percentileF R pc l = some x ∧ percentile (pc / 100) l = some y ∧ |x - y| ≤ R.u * (14 * Y + (7 * l.length + 20) * G) := by
  obtain ⟨x, p, v, s, hx, hs1, hs2, hp, hb, hv⟩ := C118_position R hu pc h0 h1 l hl Y hY
  obtain ⟨y, hy, hb'⟩ := exact_between (pc / 100) l hl
  have hss : s = l.insertionSort (· ≤ ·) :=
    (hs1.trans (List.perm_insertionSort _ _).symm).eq_of_pairwise (fun a b _ _ g1 g2 => le_antisymm g1 g2) hs2 (List.pairwise_insertionSort _ _)
  rw [← hss] at hb'
  have hsn : s ≠ [] := by
    rintro rfl
    exact hl hs1.symm.eq_nil
  obtain ⟨v0, hv0⟩ := List.exists_mem_of_ne_nil l hl
  have hG0 : 0 ≤ G := (abs_nonneg _).trans (hG v0 hv0 v0 hv0)
  have hGs : ∀ v ∈ s, ∀ w ∈ s, |v - w| ≤ G := fun v hv w hw => hG v (hs1.mem_iff.1 hv) w (hs1.mem_iff.1 hw)
  refine ⟨x, y, hx, hy, ?_⟩
  have e1 := between_at s _ _ hb hsn
  have e2 := between_at s _ _ hb' hsn
  have hvy : |v - y| ≤ G * (R.u * (7 * l.length + 20)) := by
    rw [e1, e2]
    generalize ((l.length : ℚ) + 1 / 3) * (pc / 100) + 1 / 3 - 1 = q at *
    rcases le_total q p with h | h
    · refine (at_lipschitz hG0 s hGs q p h).trans (mul_le_mul_of_nonneg_left ?_ hG0)
      rw [abs_of_nonneg (by linarith)] at hp
      exact hp
    · rw [abs_sub_comm]
      refine (at_lipschitz hG0 s hGs p q h).trans (mul_le_mul_of_nonneg_left ?_ hG0)
      rw [abs_of_nonpos (by linarith)] at hp
      linarith
  have := abs_sub_le x v y
  linarith

/-! ### The penalty -/

/-- **C119** (penalty).  For an open eye (`E` bounds the error of both percentiles, and the percentiles are more than `200 E` apart) the penalty in rounded
arithmetic is the one of exact arithmetic up to `20 E` over the distance of the percentiles, in decibels, and some roundings. -/
theorem C119_penalty (R : Rounding) (hu : R.u ≤ 1 / 1000) (L : Logs R) (l0 l1 : List ℚ) (h0 : l0 ≠ []) (h1 : l1 ≠ []) (n : ℕ) (hn0 : l0.length ≤ n)
    (hn1 : l1.length ≤ n) (Y G E : ℚ) (hY : ∀ v, v ∈ l0 ∨ v ∈ l1 → |v| ≤ Y) (hG0 : ∀ v ∈ l0, ∀ w ∈ l0, |v - w| ≤ G) (hG1 : ∀ v ∈ l1, ∀ w ∈ l1, |v - w| ≤ G)
    (hE : R.u * (14 * Y + (7 * n + 20) * G) ≤ E) (o : UVF) (ho : 0 ≤ o.stddev) (hov : 0 < o.value) :
    ∃ a b, percentile (5 / 10000) l1 = some a ∧ percentile (9995 / 10000) l0 = some b ∧ (0 < a - b → 200 * E ≤ a - b →
      ∃ v s V S, vecpF R L l0 l1 (some o) = ⟨some v, some s⟩ ∧ vecpOf l0 l1 (some ⟨(o.value : ℝ), (o.stddev : ℝ)⟩) = ⟨some V, some S⟩ ∧
        |(v : ℝ) - V| ≤ 20 * ((E / (a - b) : ℚ) : ℝ) + 33 * (R.u : ℝ) * (1 + |V| / 10) ∧ Near R.u 9 s S) := by
  have hu0 := R.u_nonneg
  obtain ⟨x1, a, hx1, ha, e1⟩ := C119_percentile R hu (5 / 100) (by norm_num) (by norm_num) l1 h1 Y G (fun v hv => hY v (Or.inr hv)) hG1
  obtain ⟨x0, b, hx0, hb, e0⟩ := C119_percentile R hu (9995 / 100) (by norm_num) (by norm_num) l0 h0 Y G (fun v hv => hY v (Or.inl hv)) hG0
  rw [show (5 / 100 / 100 : ℚ) = 5 / 10000 by norm_num] at ha
  rw [show (9995 / 100 / 100 : ℚ) = 9995 / 10000 by norm_num] at hb
  obtain ⟨w, hw⟩ := List.exists_mem_of_ne_nil l0 h0
  have hGp : 0 ≤ G := (abs_nonneg _).trans (hG0 w hw w hw)
  have bound : ∀ k : ℕ, k ≤ n → R.u * (14 * Y + (7 * k + 20) * G) ≤ E := by
    intro k hk
    refine le_trans (mul_le_mul_of_nonneg_left ?_ hu0) hE
    have : (k : ℚ) * G ≤ n * G := mul_le_mul_of_nonneg_right (by exact_mod_cast hk) hGp
    linarith
  have e1' := abs_le.1 (e1.trans (bound _ hn1))
  have e0' := abs_le.1 (e0.trans (bound _ hn0))
  refine ⟨a, b, ha, hb, fun hpos hsep => ?_⟩
  have hE0 : 0 ≤ E := by linarith
  have hD : 0 < x1 - x0 := by linarith
  obtain ⟨v, s, k1, k2, k3⟩ := (C118_vecp R hu L l0 l1 o ho x1 x0 hx1 hx0).2 (mul_pos hov hD)
  have hDR : (0 : ℝ) < (a : ℝ) - b := by exact_mod_cast hpos
  have hoR : (0 : ℝ) < o.value := by exact_mod_cast hov
  have hQ : 0 < (o.value : ℝ) / ((a : ℝ) - b) := div_pos hoR hDR
  have h10 := log10_two
  refine ⟨v, s, Real.logb 10 ((o.value : ℝ) / ((a : ℝ) - b)) * 10,
    |(o.stddev : ℝ) / |(a : ℝ) - b| / ((o.value : ℝ) / ((a : ℝ) - b) * Real.log 10)| * |10|, k1, ?_, ?_, ?_⟩
  · unfold vecpOf
    rw [ha, hb]
    simp only
    unfold decibels nvDivC npDiv
    push_cast
    have hne : |(a : ℝ) - b| ≠ 0 := abs_ne_zero.2 hDR.ne'
    simp only [if_neg hDR.ne', if_neg hne, if_neg (not_le.2 hQ), Option.map_some]
  · obtain ⟨ρ, hρ⟩ : ∃ ρ, ρ = (x1 - x0 - (a - b)) / (a - b) := ⟨_, rfl⟩
    have bρ : |ρ| ≤ 2 * (E / (a - b)) := by
      rw [hρ, abs_div, abs_of_pos hpos, ← mul_div_assoc]
      apply div_le_div_of_nonneg_right _ hpos.le
      rw [abs_le]; constructor <;> linarith
    have bE : E / (a - b) ≤ 1 / 200 := by rw [div_le_iff₀ hpos]; linarith
    have bρ1 : |(ρ : ℝ)| ≤ 1 / 100 := by
      have h2 := (Rat.cast_le (K := ℝ)).2 (show |ρ| ≤ 1 / 100 by linarith)
      push_cast at h2
      exact h2
    have bρ2 : |(ρ : ℝ)| ≤ 2 * ((E / (a - b) : ℚ) : ℝ) := by
      have h2 := (Rat.cast_le (K := ℝ)).2 bρ
      push_cast at h2 ⊢
      exact h2
    have hl := logb_one bρ1
    have h1ρ : 0 < 1 + (ρ : ℝ) := by linarith [(abs_le.1 bρ1).1]
    have eD : (x1 : ℝ) - x0 = ((a : ℝ) - b) * (1 + ρ) := by
      have : x1 - x0 = (a - b) * (1 + ρ) := by rw [hρ]; field_simp; ring
      exact_mod_cast this
    have el : Real.logb 10 ((o.value : ℝ) / ((x1 : ℝ) - x0)) = Real.logb 10 ((o.value : ℝ) / ((a : ℝ) - b)) - Real.logb 10 (1 + (ρ : ℝ)) := by
      rw [eD, ← div_div, Real.logb_div hQ.ne' h1ρ.ne']
    rw [el] at k2
    obtain ⟨Λ, hΛ⟩ : ∃ Λ, Λ = Real.logb 10 ((o.value : ℝ) / ((a : ℝ) - b)) := ⟨_, rfl⟩
    obtain ⟨κ, hκ⟩ : ∃ κ, κ = Real.logb 10 (1 + (ρ : ℝ)) := ⟨_, rfl⟩
    rw [← hΛ, ← hκ] at k2
    rw [← hκ] at hl
    rw [← hΛ]
    have hu0R := u0 R
    have c1 : |Λ - κ| ≤ |Λ| + 1 / 100 := by
      have := abs_sub Λ κ
      linarith
    have c2 : 32 * (R.u : ℝ) * (1 + |Λ - κ|) ≤ 32 * (R.u : ℝ) * (1 + (|Λ| + 1 / 100)) := mul_le_mul_of_nonneg_left (by linarith) (by linarith)
    have c3 : |Λ * 10| / 10 = |Λ| := by rw [abs_mul, abs_of_pos (by norm_num : (0:ℝ) < 10)]; ring
    rw [c3]
    have c4 := mul_nonneg hu0R (abs_nonneg Λ)
    have k2' := abs_le.1 (k2.trans c2)
    have hl' := abs_le.1 (hl.trans bρ2)
    rw [abs_le]; constructor <;> linarith
  · have e : |(o.stddev : ℝ) / |(a : ℝ) - b| / ((o.value : ℝ) / ((a : ℝ) - b) * Real.log 10)| * |10| =
        10 / Real.log 10 * |(o.stddev : ℝ) / o.value| := by
      have hL : Real.log 10 ≠ 0 := by linarith
      rw [abs_of_pos hDR, div_div, show ((a : ℝ) - b) * ((o.value : ℝ) / ((a : ℝ) - b) * Real.log 10) = (o.value : ℝ) * Real.log 10 by field_simp,
        ← div_div, abs_div, abs_of_pos (by linarith : 0 < Real.log 10), abs_of_pos (by norm_num : (0:ℝ) < 10)]
      field_simp
    rw [e]
    exact k3

/-- Three samples per level in doubles meet the hypotheses. -/
example : let l0 : List ℚ := [1 / 100, 0, -1 / 100]; let l1 : List ℚ := [1, 99 / 100, 101 / 100]
    double.u ≤ 1 / 1000 ∧ (∀ v, v ∈ l0 ∨ v ∈ l1 → |v| ≤ 2) ∧ (∀ v ∈ l0, ∀ w ∈ l0, |v - w| ≤ 1 / 50) ∧ (∀ v ∈ l1, ∀ w ∈ l1, |v - w| ≤ 1 / 50) ∧
    double.u * (14 * 2 + (7 * (3 : ℕ) + 20) * (1 / 50)) ≤ 1 / 10 ^ 6 ∧ percentile (5 / 10000) l1 = some (99 / 100) ∧
    percentile (9995 / 10000) l0 = some (1 / 100) ∧ 200 * (1 / 10 ^ 6) ≤ (99 / 100 - 1 / 100 : ℚ) := by
  refine ⟨by norm_num [double], ?_, ?_, ?_, by norm_num [double], by decide +kernel, by decide +kernel, by norm_num⟩
  · intro v hv
    simp only [List.mem_cons, List.not_mem_nil, or_false] at hv
    rcases hv with (rfl | rfl | rfl) | (rfl | rfl | rfl) <;> norm_num [abs_le]
  · decide +kernel
  · decide +kernel

end Verif.Props.FloatPercentile
