import Verif.Model.FloatClock
import Verif.Props.FloatUncertain

/-!
C106: the clock generator in rounded arithmetic, and what the clock recovery makes of its edges.
-/

namespace Verif.Props.FloatClock

open Verif Verif.Float Verif.Cdr Verif.Props.Float Verif.Props.FloatStats Verif.Props.FloatCdr Verif.Props.FloatUncertain

/-- Adding a jitter of at most `j` to a number near `c`. -/
theorem jitter_step (R : Rounding) {x c D d j : ℚ} (hc : 0 ≤ c) (h : |x - c| ≤ D - c) (hd : |d| ≤ j) :
    |R.fl (x + d) - c| ≤ (1 + R.u) * (D + j) - c := by
  have h1 := R.err (x + d)
  have h2 : |x + d| ≤ D + j := by
    have e : x + d = (x - c) + c + d := by ring
    rw [e]
    have := abs_add_le (x - c + c) d
    have h3 := abs_add_le (x - c) c
    rw [abs_of_nonneg hc] at h3
    linarith
  have h3 : R.u * |x + d| ≤ R.u * (D + j) := mul_le_mul_of_nonneg_left h2 R.u_nonneg
  have h4 : |x + d - c| ≤ D - c + j := by
    rw [show x + d - c = (x - c) + d by ring]
    have := abs_add_le (x - c) d
    linarith
  rw [show R.fl (x + d) - c = (R.fl (x + d) - (x + d)) + (x + d - c) by ring]
  have := abs_add_le (R.fl (x + d) - (x + d)) (x + d - c)
  linarith

theorem grid_within (R : Rounding) {T : ℚ} (hT : 0 ≤ T) {n k : ℕ} (hk : k < n) :
    Within R 5 (k * T) (gridF R 0 (R.fl (T * ((n : ℚ) - 1))) (n - 1) k) := by
  have hkT : 0 ≤ (k : ℚ) * T := by positivity
  have hn1 : ((n - 1 : ℕ) : ℚ) = (n : ℚ) - 1 := by
    have : 1 ≤ n := by omega
    push_cast [this]
    ring
  unfold gridF
  by_cases h : k < n - 1
  · rw [if_pos h, sub_zero, hn1]
    have hp : (0 : ℚ) < (n : ℚ) - 1 := by
      rw [← hn1]; exact_mod_cast (by omega : 0 < n - 1)
    have hs0 : 0 ≤ T * ((n : ℚ) - 1) := by positivity
    have h1 := within_fl R hs0
    have h2 := (h1.trans (within_fl R (h1.nonneg hs0))).div hp
    rw [mul_div_cancel_right₀ _ hp.ne'] at h2
    have h3 := h2.trans (within_fl R (h2.nonneg hT))
    have h4 : Within R 3 (k * T) (k * R.fl (R.fl (R.fl (T * ((n : ℚ) - 1))) / ((n : ℚ) - 1))) := by
      have := (within_refl R (k : ℚ)).mul h3 (by positivity) hT
      simpa using this
    have h5 := h4.trans (within_fl R (h4.nonneg hkT))
    have h6 := within_fl R (h5.nonneg hkT)
    have h7 := h5.trans h6
    rw [add_zero]
    exact h7
  · have hkn : k = n - 1 := by omega
    rw [if_neg h]
    split
    · have hk0 : k = 0 := by omega
      subst hk0
      simp [Within]
    · have e : (k : ℚ) * T = T * ((n : ℚ) - 1) := by rw [hkn, hn1]; ring
      rw [e]
      exact (within_fl R (by rw [← e]; exact hkT)).mono (by rw [← e]; exact hkT) (by omega)

/-- The total amplitude of the jitter: sinusoidal, uniform, duty-cycle distortion and a bound of the gaussian draws. -/
def amplitude (tSym tUj tSj dcd B : ℚ) : ℚ := |tSj| + tUj / 2 + |dcd * tSym| + B

/-- **C106.** In rounded arithmetic, edge `k` is within the total amplitude of `k * t_sym` and ten roundings of the time. -/
theorem C106_bounded (R : Rounding) (tSym tRj tUj tSj dcd B : ℚ) (n : ℕ) (d : DrawsF) (hT : 0 ≤ tSym) (hr : 0 ≤ tRj) (hd : d.Fits tRj tUj)
    (hB : ∀ k, |d.normal k| ≤ B) :
    ∃ l, clockEdgesF R tSym tRj tSj dcd n d = .ok l ∧ l.length = n ∧ ∀ k (h : k < l.length),
      |l[k] - k * tSym| ≤ amplitude tSym tUj tSj dcd B + 10 * R.u * (k * tSym + amplitude tSym tUj tSj dcd B) := by
  have hu := R.u_nonneg
  have hs := R.u_small
  refine ⟨(List.range n).map (edgeF R tSym tSj dcd d n), ?_, by simp, ?_⟩
  · unfold clockEdgesF
    rw [if_neg (by omega), if_neg (not_lt.2 hr), Int.toNat_natCast]
  intro k hk
  have hkn : k < n := by simpa using hk
  rw [List.getElem_map, List.getElem_range]
  have hc : 0 ≤ (k : ℚ) * tSym := by positivity
  have hg := grid_within R hT hkn
  unfold edgeF
  set e0 := gridF R 0 (R.fl (tSym * ((n : ℚ) - 1))) (n - 1) k
  set c := (k : ℚ) * tSym
  have g0 : |e0 - c| ≤ (1 + R.u) ^ 5 * c - c := by
    rw [abs_le]
    refine ⟨?_, by linarith [hg.2]⟩
    have h1 : 2 ≤ (1 - R.u) ^ 5 + (1 + R.u) ^ 5 := by
      have e : (1 - R.u) ^ 5 + (1 + R.u) ^ 5 = 2 + 20 * R.u ^ 2 + 10 * R.u ^ 4 := by ring
      rw [e]; nlinarith [sq_nonneg R.u, sq_nonneg (R.u ^ 2)]
    have h2 := mul_le_mul_of_nonneg_right h1 hc
    linarith [hg.1]
  have flb : ∀ {x j : ℚ}, |x| ≤ j → |R.fl x| ≤ (1 + R.u) * j := by
    intro x j h
    have h1 := R.err x
    have h2 := abs_sub_abs_le_abs_sub (R.fl x) x
    have h3 : R.u * |x| ≤ R.u * j := mul_le_mul_of_nonneg_left h hu
    linarith
  have j1 : |R.fl (d.sine e0 * tSj)| ≤ (1 + R.u) * |tSj| := by
    apply flb
    rw [abs_mul]
    have := mul_le_mul_of_nonneg_right (hd.2.2 e0) (abs_nonneg tSj)
    linarith
  have j2 : |R.fl (dcd * tSym)| ≤ (1 + R.u) * |dcd * tSym| := flb le_rfl
  have g1 := jitter_step R hc g0 j1
  set e1 := R.fl (e0 + R.fl (d.sine e0 * tSj))
  set D1 := (1 + R.u) * ((1 + R.u) ^ 5 * c + (1 + R.u) * |tSj|) with hD1
  have hD1' : 0 ≤ D1 := by rw [hD1]; positivity
  have g2 : |(if k % 2 = 0 then R.fl (e1 + R.fl (dcd * tSym)) else e1) - c| ≤ (1 + R.u) * (D1 + (1 + R.u) * |dcd * tSym|) - c := by
    split_ifs
    · exact jitter_step R hc g1 j2
    · refine g1.trans ?_
      have : 0 ≤ (1 + R.u) * |dcd * tSym| := by positivity
      have : 0 ≤ (1 + R.u) * ((1 + R.u) * |dcd * tSym|) := by positivity
      nlinarith
  have g3 := jitter_step R hc g2 (hB k)
  have g4 := jitter_step R hc g3 (hd.2.1 k)
  refine g4.trans ?_
  have hB0 : 0 ≤ B := (abs_nonneg _).trans (hB 0)
  have hU0 : 0 ≤ tUj / 2 := (abs_nonneg _).trans (hd.2.1 0)
  unfold amplitude
  rw [hD1]
  set S := |tSj|
  set P := |dcd * tSym|
  have hS : 0 ≤ S := abs_nonneg _
  have hP : 0 ≤ P := abs_nonneg _
  set q := 1 + R.u with hq
  have hq1 : 1 ≤ q := by rw [hq]; linarith
  have p9 : q ^ 9 ≤ 1 + 10 * R.u := by
    have := pow_bound hu 9
    by_cases h9 : 9 * R.u ≤ 1 / 100
    · have := this (by push_cast; exact h9)
      push_cast at this
      linarith
    · -- at most a hundredth
      have e : q ^ 9 = 1 + R.u * (9 + 36 * R.u + 84 * R.u ^ 2 + 126 * R.u ^ 3 + 126 * R.u ^ 4 + 84 * R.u ^ 5 + 36 * R.u ^ 6 + 9 * R.u ^ 7 + R.u ^ 8) := by
        rw [hq]; ring
      have pk : ∀ m : ℕ, R.u ^ (m + 1) ≤ (1 / 100) ^ (m + 1) := fun m => pow_le_pow_left₀ hu hs _
      have h2 := pk 1
      have h3 := pk 2
      have h4 := pk 3
      have h5 := pk 4
      have h6 := pk 5
      have h7 := pk 6
      have h8 := pk 7
      have h1 := pk 0
      have hin : 9 + 36 * R.u + 84 * R.u ^ 2 + 126 * R.u ^ 3 + 126 * R.u ^ 4 + 84 * R.u ^ 5 + 36 * R.u ^ 6 + 9 * R.u ^ 7 + R.u ^ 8 ≤ 10 := by
        norm_num at h1 h2 h3 h4 h5 h6 h7 h8 ⊢
        linarith
      have := mul_le_mul_of_nonneg_left hin hu
      rw [e]
      linarith
  have pm : ∀ m, m ≤ 9 → q ^ m ≤ 1 + 10 * R.u := fun m hm => (pow_le_pow_right₀ hq1 hm).trans p9
  have a1 := mul_le_mul_of_nonneg_right p9 hc
  have a2 := mul_le_mul_of_nonneg_right (pm 5 (by norm_num)) hS
  have a3 := mul_le_mul_of_nonneg_right (pm 4 (by norm_num)) hP
  have a4 := mul_le_mul_of_nonneg_right (pm 2 (by norm_num)) hB0
  have a5 := mul_le_mul_of_nonneg_right (pm 1 (by norm_num)) hU0
  have e : q * (q * (q * (q * (q ^ 5 * c + q * S) + q * P) + B) + tUj / 2) - c =
      q ^ 9 * c + q ^ 5 * S + q ^ 4 * P + q ^ 2 * B + q ^ 1 * (tUj / 2) - c := by ring
  rw [e]
  linarith

/-- **C106.** A jitter below half a symbol, up to rounding, keeps the edges in order. -/
theorem C106_ordered (R : Rounding) (tSym tRj tUj tSj dcd B : ℚ) (n : ℕ) (d : DrawsF) (hT : 0 ≤ tSym) (hr : 0 ≤ tRj) (hd : d.Fits tRj tUj)
    (hB : ∀ k, |d.normal k| ≤ B)
    (hj : amplitude tSym tUj tSj dcd B + 10 * R.u * (n * tSym + amplitude tSym tUj tSj dcd B) < tSym / 2) :
    ∃ l, clockEdgesF R tSym tRj tSj dcd n d = .ok l ∧ l.Pairwise (· < ·) := by
  obtain ⟨l, hl, hlen, hb⟩ := C106_bounded R tSym tRj tUj tSj dcd B n d hT hr hd hB
  refine ⟨l, hl, ?_⟩
  have hu := R.u_nonneg
  rw [List.pairwise_iff_getElem]
  intro i j hi hj' hij
  have mono : ∀ k : ℕ, k < n → 10 * R.u * (k * tSym + amplitude tSym tUj tSj dcd B) ≤ 10 * R.u * (n * tSym + amplitude tSym tUj tSj dcd B) := by
    intro k hk
    have : (k : ℚ) ≤ n := by exact_mod_cast hk.le
    have := mul_le_mul_of_nonneg_right this hT
    exact mul_le_mul_of_nonneg_left (by linarith) (by linarith)
  have h1 := abs_le.1 (hb i hi)
  have h2 := abs_le.1 (hb j hj')
  have m1 := mono i (by omega)
  have m2 := mono j (by omega)
  have hk : (i : ℚ) + 1 ≤ j := by exact_mod_cast hij
  have := mul_le_mul_of_nonneg_right hk hT
  linarith [h1.2, h2.1]

/-- **C106.** The edges of the generator through the clock recovery, everything in rounded arithmetic, with the period fixed to `t_sym`: if four times the
jitter stays below a symbol, up to rounding, there is a clock with one edge less than generated or as many, each in the middle of a symbol up to the jitter,
and the time interval errors are the jitter that was put in, up to a common offset and rounding. -/
theorem C106_recovered (R : Rounding) (mean : List ℚ → ℚ) (minimize : List ℚ → ℚ → ℚ → ℚ → Except PyErr ℚ) (detrend : List ℚ → ℚ → Except PyErr (Option ℚ))
    (tSym tRj tUj tSj dcd B : ℚ) (n m : ℕ) (d : DrawsF) (hT : 0 < tSym) (hr : 0 ≤ tRj) (hd : d.Fits tRj tUj) (hB : ∀ k, |d.normal k| ≤ B)
    (hn : 2 ≤ n) (hm : IsMean R m n mean) (hmu : (m + 1) * R.u ≤ 1 / 100) (J ε : ℚ)
    (hJ : J = amplitude tSym tUj tSj dcd B + 10 * R.u * (n * tSym + amplitude tSym tUj tSj dcd B))
    (hε : ε = 20 * R.u * (n * tSym + J + tSym)) (hj : 2 * J + ε < tSym / 2) :
    ∃ edges clk ties start, clockEdgesF R tSym tRj tSj dcd n d = .ok edges ∧ edges.length = n ∧
      runF R mean minimize detrend ⟨some tSym, true⟩ edges false = .ok (clk, ties) ∧
      (clk.length = n - 1 ∨ clk.length = n) ∧
      (∀ i (h : i < clk.length), |clk[i] - (i + 1 / 2) * tSym| ≤ J + 2 * ε + 2 * ((m + 1) * R.u) * tSym) ∧
      ties.length = n ∧
      ∀ i (h : i < edges.length) (h' : i < ties.length), |ties[i] - (edges[i] - i * tSym - start)| ≤ ε := by
  have hu := R.u_nonneg
  obtain ⟨edges, hl, hlen, hb⟩ := C106_bounded R tSym tRj tUj tSj dcd B n d hT.le hr hd hB
  have hamp : 0 ≤ amplitude tSym tUj tSj dcd B := by
    have h1 : 0 ≤ B := (abs_nonneg _).trans (hB 0)
    have h2 : 0 ≤ tUj / 2 := (abs_nonneg _).trans (hd.2.1 0)
    unfold amplitude
    have := abs_nonneg tSj
    have := abs_nonneg (dcd * tSym)
    linarith
  have hJ0 : 0 ≤ J := by rw [hJ]; positivity
  have hε0 : 0 ≤ ε := by rw [hε]; positivity
  have hjlt : amplitude tSym tUj tSj dcd B + 10 * R.u * (n * tSym + amplitude tSym tUj tSj dcd B) < tSym / 2 := by rw [← hJ]; linarith
  obtain ⟨edges', hl', hs⟩ := C106_ordered R tSym tRj tUj tSj dcd B n d hT.le hr hd hB hjlt
  obtain rfl : edges' = edges := Except.ok.inj (hl'.symm.trans hl)
  have hb' : ∀ k (h : k < edges'.length), |edges'[k] - k * tSym| ≤ J := by
    intro k h
    refine (hb k h).trans ?_
    rw [hJ]
    have h1 : (k : ℚ) ≤ n := by exact_mod_cast (by omega : k ≤ n)
    have h2 := mul_le_mul_of_nonneg_right h1 hT.le
    have := mul_le_mul_of_nonneg_left (show (k : ℚ) * tSym + amplitude tSym tUj tSj dcd B ≤ n * tSym + amplitude tSym tUj tSj dcd B by linarith)
      (show 0 ≤ 10 * R.u by linarith)
    linarith
  have hA : ∀ e ∈ edges', |e| ≤ n * tSym + J := by
    intro e he
    obtain ⟨k, hk, rfl⟩ := List.getElem_of_mem he
    have h1 := hb' k hk
    have h2 := abs_sub_abs_le_abs_sub edges'[k] (k * tSym)
    rw [abs_of_nonneg (by positivity : (0 : ℚ) ≤ k * tSym)] at h2
    have h3 : (k : ℚ) ≤ n := by exact_mod_cast (by omega : k ≤ n)
    have h4 := mul_le_mul_of_nonneg_right h3 hT.le
    linarith
  obtain ⟨n', rfl⟩ : ∃ n', n = n' + 2 := ⟨n - 2, by omega⟩
  have hks : (List.range (n' + 2)).map (fun i : ℕ => (i : ℤ)) = 0 :: (List.range (n' + 1)).map (fun i : ℕ => ((i + 1 : ℕ) : ℤ)) := by
    rw [List.range_succ_eq_map, List.map_cons, List.map_map]
    rfl
  have hk : Jittered 0 tSym J edges' (0 :: (List.range (n' + 1)).map (fun i : ℕ => ((i + 1 : ℕ) : ℤ))) := by
    rw [← hks]
    unfold Jittered
    rw [List.forall₂_iff_get]
    refine ⟨by simp [hlen], ?_⟩
    intro i h1 h2
    have := hb' i h1
    simpa using this
  have hlast : (0 :: (List.range (n' + 1)).map (fun i : ℕ => ((i + 1 : ℕ) : ℤ))).getLast? = some ((n' + 1 : ℕ) : ℤ) := by
    rw [← hks, List.getLast?_map, List.range_succ, List.getLast?_append]
    simp
  have hlenq : (edges'.length : ℚ) = n' + 2 := by rw [hlen]; push_cast; ring
  obtain ⟨clk, ties, start, c1, c2, c3, c4⟩ := C98_locks R mean minimize detrend m edges' tSym (((n' + 2 : ℕ) : ℚ) * tSym + J) J 0 0 _ _ hs
    (by rw [hlen]; exact hm) hmu hA hT (by omega) hk hlast (by rw [← hε]; exact hj)
    (by
      rw [hlenq]
      push_cast
      have : (0 : ℚ) ≤ n' := Nat.cast_nonneg _
      constructor <;> linarith)
  rw [← hε] at c2 c4
  refine ⟨edges', clk, ties, start, hl, hlen, c1, ?_, ?_, by rw [c2.one_each, hlen], ?_⟩
  · have h0 : 0 < edges'.length := by omega
    have hh : edges'.head? = some edges'[0] := by
      rw [List.head?_eq_getElem?, List.getElem?_eq_getElem h0]
    have hg : edges'.getLast? = some (edges'[edges'.length - 1]'(by omega)) := by
      rw [List.getLast?_eq_getElem?, List.getElem?_eq_getElem]
    obtain ⟨k1, k2⟩ := c2.count _ hh _ hg
    have b0 := abs_le.1 (hb' 0 h0)
    have b1 := abs_le.1 (hb' (edges'.length - 1) (by omega))
    have el : ((edges'.length - 1 : ℕ) : ℚ) = n' + 1 := by rw [hlen]; push_cast; ring
    rw [el] at b1
    push_cast at b0
    have d1 : ((clk.length : ℚ) - 1) * tSym < (n' + 2) * tSym := by linarith [b0.1, b0.2, b1.1, b1.2]
    have d2 : (n' : ℚ) * tSym < clk.length * tSym := by linarith [b0.1, b0.2, b1.1, b1.2]
    have e1 := lt_of_mul_lt_mul_right d1 hT.le
    have e2 := lt_of_mul_lt_mul_right d2 hT.le
    have f1 : clk.length < n' + 3 := by
      have : (clk.length : ℚ) < ((n' + 3 : ℕ) : ℚ) := by push_cast; linarith
      exact_mod_cast this
    have f2 : n' < clk.length := by exact_mod_cast e2
    omega
  · intro i h
    have h1 := c3 i h
    rw [show clk[i] - (i + 1 / 2) * tSym = clk[i] - (0 + (((0 : ℤ) : ℚ) + i + 1 / 2) * tSym) by push_cast; ring]
    refine h1.trans (le_of_eq ?_)
    rw [hε]; push_cast; ring
  · intro i h h'
    have hi : i < (0 :: (List.range (n' + 1)).map (fun i : ℕ => ((i + 1 : ℕ) : ℤ))).length := by simp; omega
    have h1 := c4 i h h' hi
    have ei : (0 :: (List.range (n' + 1)).map (fun i : ℕ => ((i + 1 : ℕ) : ℤ)))[i] = (i : ℤ) := by
      simp only [← hks]
      simp
    rw [ei] at h1
    rw [abs_sub_comm] at h1
    refine (le_of_eq ?_).trans h1
    congr 1
    push_cast
    ring

/-- The hypotheses are met: ten edges of a clock in doubles, in units of the symbol, with a tenth of a symbol duty-cycle distortion, uniform jitter of a hundredth of a symbol
peak to peak and no other jitter. -/
example : ∃ d : DrawsF, d.Fits 0 (1 / 100) ∧ (∀ k, |d.normal k| ≤ 0) ∧ (∃ k, d.uniform k ≠ 0) ∧
    IsMean double 9 10 (meanF double) ∧ ((9 : ℕ) + 1) * double.u ≤ 1 / 100 ∧
    2 * (amplitude 1 (1 / 100) 0 (1 / 10) 0 + 10 * double.u * ((10 : ℕ) * 1 + amplitude 1 (1 / 100) 0 (1 / 10) 0)) +
      20 * double.u * ((10 : ℕ) * 1 + (amplitude 1 (1 / 100) 0 (1 / 10) 0 + 10 * double.u * ((10 : ℕ) * 1 + amplitude 1 (1 / 100) 0 (1 / 10) 0)) + 1) < 1 / 2 := by
  refine ⟨⟨fun _ => 1 / 2, fun _ => 0, fun k => if k % 3 = 0 then 1 / 256 else -1 / 512⟩, ⟨fun _ _ => rfl, ?_, fun _ => by norm_num [abs_of_pos]⟩,
    fun _ => by simp, ⟨0, by norm_num⟩, meanF_isMean double 10, by decide +kernel, by decide +kernel⟩
  intro k
  simp only
  split_ifs <;> norm_num [abs_of_pos, abs_of_neg]

end Verif.Props.FloatClock
