import Verif.Model.AutoLevels
import Verif.Props.Stats
import Verif.Props.SquareWave

/-!
C74: automatic levels.
-/

namespace Verif.Props.AutoLevels

open Verif Verif.Stats Verif.Pam2 Verif.Pipeline Verif.AutoLevels Verif.Props.Stats Verif.Props.Pipeline Verif.Props.OpenEye
open Verif.Props.SquareWave Verif.Props.Pam2Vertical

/-- The step of the decimation is positive. -/
theorem stride_pos (r : ℚ) : 0 < stride r := by unfold stride; omega

/-- Decimation: every `k`-th sample, starting with the first one. -/
theorem decimate_get (k : ℕ) (hk : 0 < k) (y : List ℚ) :
    (decimate k y).length = (y.length + k - 1) / k ∧ ∀ i, (decimate k y)[i]? = y[i * k]? := by
  have hin : ∀ i < (y.length + k - 1) / k, i * k < y.length := by
    intro i hi
    have h1 := Nat.div_mul_le_self (y.length + k - 1) k
    have h2 : (i + 1) * k ≤ (y.length + k - 1) / k * k := Nat.mul_le_mul_right k hi
    rw [Nat.add_mul] at h2
    omega
  have hmap : decimate k y = (List.range ((y.length + k - 1) / k)).map fun i => y.getD (i * k) 0 := by
    unfold decimate
    rw [← List.filterMap_eq_map]
    apply List.filterMap_congr
    intro i hi
    simp only [Function.comp, List.getD_eq_getElem?_getD, List.getElem?_eq_getElem (hin i (List.mem_range.1 hi)), Option.getD_some]
  rw [hmap]
  refine ⟨by simp, fun i => ?_⟩
  by_cases hi : i < (y.length + k - 1) / k
  · rw [List.getElem?_map, List.getElem?_range hi, Option.map_some, List.getD_eq_getElem?_getD, List.getElem?_eq_getElem (hin i hi), Option.getD_some]
  · rw [List.getElem?_eq_none (by simpa using hi), List.getElem?_eq_none]
    have h1 := Nat.lt_div_mul_add (a := y.length + k - 1) hk
    have h2 : (y.length + k - 1) / k * k ≤ i * k := Nat.mul_le_mul_right k (by omega)
    omega

theorem decimate_mem (k : ℕ) (hk : 0 < k) (y : List ℚ) (v : ℚ) (h : v ∈ decimate k y) : v ∈ y := by
  obtain ⟨i, hi⟩ := List.mem_iff_getElem?.1 h
  rw [(decimate_get k hk y).2] at hi
  exact List.mem_iff_getElem?.2 ⟨_, hi⟩

/-- The samples left after decimation: every sample up to `10 n` samples, otherwise every `k`-th with `k = ⌊length / (2 n)⌋`. -/
def thinned (n : ℚ) (y : List ℚ) : List ℚ := if 10 < y.length / n then decimate (stride (y.length / n)) y else y

theorem thinned_mem (n : ℚ) (y : List ℚ) (v : ℚ) (h : v ∈ thinned n y) : v ∈ y := by
  unfold thinned at h
  split at h
  · exact decimate_mem _ (stride_pos _) y v h
  · exact h

theorem reduced_some (n : ℚ) (hn : n ≠ 0) (y : List ℚ) : reduced (some n) y = downsample (thinned n y) n (some 500) := by
  unfold reduced
  simp only
  rw [if_neg hn]
  rfl

/-! ### Levels of two values -/

theorem constant_of (a : ℚ) (l : List ℚ) (h : ∀ v ∈ l, v = a) : constant l = true := by
  cases l with
  | nil => rfl
  | cons b l =>
    unfold constant
    rw [List.all_eq_true]
    intro v hv
    rw [h v (List.mem_cons_of_mem _ hv), h b (by simp)]
    simp

theorem fitCenter_of (fit : List ℚ → Except PyErr ℚ) (a : ℚ) (l : List ℚ) (hl : l ≠ []) (h : ∀ v ∈ l, v = a) : fitCenter fit l = .ok a := by
  cases l with
  | nil => exact absurd rfl hl
  | cons b l =>
    unfold fitCenter
    simp only
    rw [if_pos (constant_of a _ h), h b (by simp)]

/-- The levels from the samples left after the reduction: two values give exactly those. -/
theorem levels_of_two (dev : List ℚ → ℚ) (fit : List ℚ → Except PyErr ℚ) (nMax : Option ℚ) (y d : List ℚ) (a b : ℚ) (hab : a < b)
    (hd : reduced nMax y = .ok d) (h2 : ∀ v ∈ d, v = a ∨ v = b) (ha : a ∈ d) (hb : b ∈ d) :
    runnerLevels dev fit nMax y = .ok (⟨a, 0⟩, ⟨b, 0⟩) := by
  have hne : d ≠ [] := List.ne_nil_of_mem ha
  obtain ⟨lo, e1, m1, l1⟩ := min_spec d hne
  obtain ⟨hi, e2, m2, l2⟩ := max_spec d hne
  have hlo : lo = a := by
    rcases h2 lo m1 with h | h
    · exact h
    · have := l1 a ha; linarith
  have hhi : hi = b := by
    rcases h2 hi m2 with h | h
    · have := l2 b hb; linarith
    · exact h
  subst hlo hhi
  have c0 : ∀ v ∈ d.filter (· < (lo + hi) / 2), v = lo := by
    intro v hv
    obtain ⟨hv, hlt⟩ := List.mem_filter.1 hv
    have hlt := of_decide_eq_true hlt
    rcases h2 v hv with h | h
    · exact h
    · rw [h] at hlt; linarith
  have c1 : ∀ v ∈ d.filter ((lo + hi) / 2 < ·), v = hi := by
    intro v hv
    obtain ⟨hv, hlt⟩ := List.mem_filter.1 hv
    have hlt := of_decide_eq_true hlt
    rcases h2 v hv with h | h
    · rw [h] at hlt; linarith
    · exact h
  have n0 : d.filter (· < (lo + hi) / 2) ≠ [] := List.ne_nil_of_mem (List.mem_filter.2 ⟨ha, decide_eq_true (by linarith)⟩)
  have n1 : d.filter ((lo + hi) / 2 < ·) ≠ [] := List.ne_nil_of_mem (List.mem_filter.2 ⟨hb, decide_eq_true (by linarith)⟩)
  unfold runnerLevels
  rw [hd]
  simp only [bind, Except.bind, e1, e2, fitCenter_of fit lo _ n0 c0, fitCenter_of fit hi _ n1 c1, pure, Except.pure]
  unfold deviation
  rw [if_pos (constant_of lo _ c0), if_pos (constant_of hi _ c1)]

/-- One value, or none: no levels. -/
theorem no_levels (dev : List ℚ → ℚ) (fit : List ℚ → Except PyErr ℚ) (nMax : Option ℚ) (y d : List ℚ) (a : ℚ)
    (hd : reduced nMax y = .ok d) (h : ∀ v ∈ d, v = a) : runnerLevels dev fit nMax y = .error .valueError := by
  unfold runnerLevels
  rw [hd]
  simp only [bind, Except.bind]
  cases hne : d with
  | nil => rfl
  | cons x l =>
    rw [← hne]
    have hne' : d ≠ [] := by rw [hne]; simp
    obtain ⟨lo, e1, m1, -⟩ := min_spec d hne'
    obtain ⟨hi, e2, m2, -⟩ := max_spec d hne'
    have : d.filter (· < (lo + hi) / 2) = [] := by
      rw [List.filter_eq_nil_iff]
      intro v hv
      rw [h v hv, h lo m1, h hi m2]
      simp
    simp only [e1, e2, this, fitCenter]

/-- What `downsample` with bins leaves: only centres of bins with samples. -/
theorem binned (y : List ℚ) (hy : y ≠ []) (n : ℚ) (h0 : 0 ≤ n) (h : n < (y.length : ℚ)) (k : ℕ) (hk : 0 < k) :
    ∃ (d : List ℚ) (E : ℕ → ℚ) (w : ℚ), downsample y n (some k) = .ok d ∧ 0 < w ∧ (∀ i : ℕ, E i = E 0 + i * w) ∧
      (∀ v ∈ y, E 0 ≤ v ∧ v ≤ E k) ∧ ((∃ a ∈ y, ∃ b ∈ y, a ≠ b) → E 0 ∈ y ∧ E k ∈ y) ∧
      (∀ x ∈ d, ∃ i < k, x = E i + w / 2 ∧ ∃ v ∈ y, InBin E k i v) ∧
      (∀ i < k, ∀ v, InBin E k i v → (y.length : ℚ) ≤ n * y.count v → E i + w / 2 ∈ d) ∧
      (∀ i < k, ∀ v, InBin E k i v → (∀ u ∈ y, InBin E k i u → u = v) → n * y.count v < (y.length : ℚ) → E i + w / 2 ∉ d) := by
  obtain ⟨d, E, w, e, -, -, hw, hE, hcov, hatt, hmem, hcount⟩ := C15_linear y hy n h0 h k hk
  have hp : (0 : ℚ) < y.length := by exact_mod_cast List.length_pos_iff.2 hy
  have hmid : ∀ i, (E i + E (i + 1)) / 2 = E i + w / 2 := by
    intro i
    rw [hE]
    ring
  refine ⟨d, E, w, e, hw, ?_, hcov, hatt, ?_, ?_, ?_⟩
  · intro i
    induction i with
    | zero => simp
    | succ i ih => rw [hE, ih]; push_cast; ring
  · intro x hx
    obtain ⟨i, hi, rfl⟩ := hmem x hx
    refine ⟨i, hi, hmid i, ?_⟩
    have h1 : 0 < d.count ((E i + E (i + 1)) / 2) := List.count_pos_iff.2 hx
    have h2 := hcount i hi
    by_contra hc
    push Not at hc
    have h3 : y.countP (fun v => decide (InBin E k i v)) = 0 := by
      rw [List.countP_eq_zero]
      intro v hv
      simpa using hc v hv
    rw [h3] at h2
    simp at h2
    omega
  · intro i hi v hv hc
    have h2 := hcount i hi
    have hle : y.count v ≤ y.countP (fun v => decide (InBin E k i v)) := by
      rw [List.count]
      apply List.countP_mono_left
      intro x _ hx
      have : x = v := by simpa using hx
      rw [this]
      exact decide_eq_true hv
    have h3 : (1 : ℚ) ≤ (y.countP (fun v => decide (InBin E k i v)) : ℚ) * (n / y.length) := by
      have : (y.count v : ℚ) ≤ (y.countP (fun v => decide (InBin E k i v)) : ℚ) := by exact_mod_cast hle
      rw [← mul_div_assoc, le_div_iff₀ hp]
      nlinarith
    have h4 : (1 : ℤ) ≤ ⌊(y.countP (fun v => decide (InBin E k i v)) : ℚ) * (n / y.length)⌋ := Int.le_floor.2 (by push_cast; exact h3)
    rw [← h2] at h4
    rw [← hmid]
    exact List.count_pos_iff.1 (by omega)
  · intro i hi v hv hu hc hm
    have h2 := hcount i hi
    have heq : y.countP (fun v => decide (InBin E k i v)) = y.count v := by
      rw [List.count]
      apply List.countP_congr
      intro x hx
      simp only [decide_eq_true_eq, beq_iff_eq]
      exact ⟨hu x hx, fun h => by rw [h]; exact hv⟩
    have h3 : (y.count v : ℚ) * (n / y.length) < 1 := by
      rw [← mul_div_assoc, div_lt_one hp]
      linarith
    have h4 : ⌊(y.count v : ℚ) * (n / y.length)⌋ < 1 := Int.floor_lt.2 (by push_cast; exact h3)
    rw [heq] at h2
    rw [← h2] at h4
    rw [← hmid] at hm
    have := List.count_pos_iff.2 hm
    omega

/-- The two values are represented in the samples that are evaluated: either all samples are, or each of the values has, of those left after
decimation, at least one in `n`-th of the length. -/
def Represented (nMax : Option ℚ) (a b : ℚ) (y : List ℚ) : Prop :=
  a ∈ y ∧ b ∈ y ∧ ∀ n, nMax = some n → (y.length : ℚ) ≤ n ∨
    (0 < n ∧ ((thinned n y).length : ℚ) ≤ n * (thinned n y).count a ∧ ((thinned n y).length : ℚ) ≤ n * (thinned n y).count b)

/-- **C74.** The levels of a signal of two values are these values: exactly if all samples are evaluated, up to a thousandth of their difference
(half a bin) otherwise; the standard deviations are zero.  Partial: the values must be represented in the samples that are evaluated. -/
theorem C74_levels_partial (dev : List ℚ → ℚ) (fit : List ℚ → Except PyErr ℚ) (nMax : Option ℚ) (y : List ℚ) (a b : ℚ) (hab : a < b)
    (h2 : ∀ v ∈ y, v = a ∨ v = b) (hr : Represented nMax a b y) :
    ∃ ε, runnerLevels dev fit nMax y = .ok (⟨a + ε, 0⟩, ⟨b - ε, 0⟩) ∧ 0 ≤ ε ∧ ε ≤ (b - a) / 1000 ∧
      ((∀ n, nMax = some n → (y.length : ℚ) ≤ n) → ε = 0) := by
  obtain ⟨ha, hb, hn⟩ := hr
  have hne : y ≠ [] := List.ne_nil_of_mem ha
  have hp : (1 : ℚ) ≤ y.length := by exact_mod_cast List.length_pos_iff.2 hne
  have short : ∀ d, reduced nMax y = .ok d → d = y → ∃ ε, runnerLevels dev fit nMax y = .ok (⟨a + ε, 0⟩, ⟨b - ε, 0⟩) ∧ 0 ≤ ε ∧
      ε ≤ (b - a) / 1000 ∧ ((∀ n, nMax = some n → (y.length : ℚ) ≤ n) → ε = 0) := by
    rintro d hd rfl
    refine ⟨0, ?_, le_refl _, by linarith, fun _ => rfl⟩
    rw [add_zero, sub_zero]
    exact levels_of_two dev fit nMax d d a b hab hd h2 ha hb
  cases nMax with
  | none => exact short y rfl rfl
  | some n =>
    by_cases hlen : (y.length : ℚ) ≤ n
    · refine short y ?_ rfl
      rw [reduced_some n (by linarith)]
      have : thinned n y = y := by
        unfold thinned
        rw [if_neg]
        rw [not_lt, div_le_iff₀ (by linarith)]
        linarith
      rw [this, C15_short y hne n _ hlen]
    · obtain h | ⟨h0, ca, cb⟩ := hn n rfl
      · exact absurd h hlen
      have h2e : ∀ v ∈ thinned n y, v = a ∨ v = b := fun v hv => h2 v (thinned_mem n y v hv)
      have hvac : ∀ ε : ℚ, (∀ m, some n = some m → (y.length : ℚ) ≤ m) → ε = 0 := fun ε h => absurd (h n rfl) hlen
      have hene : thinned n y ≠ [] := by
        intro h
        unfold thinned at h
        split at h
        · have := (decimate_get _ (stride_pos (y.length / n)) y).2 0
          rw [h, Nat.zero_mul] at this
          cases y with
          | nil => exact hne rfl
          | cons x l => simp at this
        · exact hne h
      have hep : (1 : ℚ) ≤ (thinned n y).length := by exact_mod_cast List.length_pos_iff.2 hene
      have hcnt : ∀ v, ((thinned n y).length : ℚ) ≤ n * (thinned n y).count v → v ∈ thinned n y := by
        intro v hv
        apply List.count_pos_iff.1
        by_contra hc
        have : (thinned n y).count v = 0 := by omega
        rw [this, Nat.cast_zero, mul_zero] at hv
        linarith
      have hae := hcnt a ca
      have hbe := hcnt b cb
      by_cases hle : ((thinned n y).length : ℚ) ≤ n
      · refine ⟨0, ?_, le_refl _, by linarith, hvac 0⟩
        rw [add_zero, sub_zero]
        exact levels_of_two dev fit (some n) y (thinned n y) a b hab (by rw [reduced_some n (by linarith), C15_short _ hene n _ hle]) h2e hae hbe
      · obtain ⟨d, E, w, e, hw, hE, hcov, hatt, hmem, hcount, -⟩ := binned (thinned n y) hene n h0.le (not_le.1 hle) 500 (by norm_num)
        obtain ⟨t0, t1⟩ := hatt ⟨a, hae, b, hbe, hab.ne⟩
        have hE500 := hE 500
        have hE499 := hE 499
        push_cast at hE500 hE499
        have e0 : E 0 = a := by
          rcases h2e _ t0 with h | h
          · exact h
          · have := (hcov a hae).1; linarith
        have e1 : E 500 = b := by
          rcases h2e _ t1 with h | h
          · have := (hcov b hbe).2; linarith
          · exact h
        have hmono : ∀ i < 500, E i < E (i + 1) := by
          intro i _
          rw [hE i, hE (i + 1)]
          push_cast
          linarith
        have hwv : w = (b - a) / 500 := by linarith
        have ba : InBin E 500 0 a := ⟨by rw [e0], Or.inl (by have := hmono 0 (by norm_num); rw [e0] at this; exact this)⟩
        have bb : InBin E 500 499 b := ⟨by linarith, Or.inr ⟨rfl, by rw [← e1]⟩⟩
        refine ⟨w / 2, ?_, by linarith, by linarith, hvac _⟩
        have m0 := hcount 0 (by norm_num) a ba ca
        have m1 := hcount 499 (by norm_num) b bb cb
        have hb' : b - w / 2 = E 499 + w / 2 := by linarith
        rw [hb', ← e0]
        refine levels_of_two dev fit (some n) y d (E 0 + w / 2) (E 499 + w / 2) (by linarith) (by rw [reduced_some n (by linarith), e]) ?_ m0 m1
        intro x hx
        obtain ⟨i, hi, rfl, v, hv, hin⟩ := hmem x hx
        rcases h2e v hv with rfl | rfl
        · left
          have := (inBin_unique E 500 (fun i hi => (hmono i hi).le) v (by norm_num) (hcov v hv).1 (hcov v hv).2).unique ⟨hi, hin⟩ ⟨by norm_num, ba⟩
          rw [this]
        · right
          have := (inBin_unique E 500 (fun i hi => (hmono i hi).le) v (by norm_num) (hcov v hv).1 (hcov v hv).2).unique ⟨hi, hin⟩ ⟨by norm_num, bb⟩
          rw [this]

/-- A signal, or what is left of it after decimation, of one value only: ValueError. -/
theorem constant_levels (dev : List ℚ → ℚ) (fit : List ℚ → Except PyErr ℚ) (n : ℚ) (h0 : 0 < n) (y : List ℚ) (hy : y ≠ []) (a : ℚ)
    (h : ∀ v ∈ thinned n y, v = a) : runnerLevels dev fit (some n) y = .error .valueError := by
  have hene : thinned n y ≠ [] := by
    intro h
    unfold thinned at h
    split at h
    · have := (decimate_get _ (stride_pos (y.length / n)) y).2 0
      rw [h, Nat.zero_mul] at this
      cases y with
      | nil => exact hy rfl
      | cons x l => simp at this
    · exact hy h
  by_cases hle : ((thinned n y).length : ℚ) ≤ n
  · exact no_levels dev fit (some n) y (thinned n y) a (by rw [reduced_some n h0.ne', C15_short _ hene n _ hle]) h
  · obtain ⟨d, E, w, e, hw, hE, hcov, -, hmem, -, -⟩ := binned (thinned n y) hene n h0.le (not_le.1 hle) 500 (by norm_num)
    have hmono : ∀ i < 500, E i < E (i + 1) := by
      intro i _
      rw [hE i, hE (i + 1)]
      push_cast
      linarith
    cases hd : d with
    | nil => exact no_levels dev fit (some n) y d a (by rw [reduced_some n h0.ne', e]) (by rw [hd]; simp)
    | cons x l =>
      refine no_levels dev fit (some n) y d x (by rw [reduced_some n h0.ne', e]) ?_
      intro z hz
      obtain ⟨i, hi, rfl, v, hv, hb⟩ := hmem x (by rw [hd]; simp)
      obtain ⟨j, hj, rfl, u, hu, hb'⟩ := hmem z hz
      obtain rfl := h v hv
      obtain rfl := h u hu
      rw [(inBin_unique E 500 (fun i hi => (hmono i hi).le) u (by norm_num) (hcov u hu).1 (hcov u hu).2).unique ⟨hj, hb'⟩ ⟨hi, hb⟩]

/-- A level of these samples: their value and 0 if they are equal, else the fit and the deviation. -/
def LevelOf (dev : List ℚ → ℚ) (fit : List ℚ → Except PyErr ℚ) (l : List ℚ) (a : Level ℚ) : Prop :=
  (∃ c ∈ l, (∀ v ∈ l, v = c) ∧ a = ⟨c, 0⟩) ∨ ((∃ u ∈ l, ∃ v ∈ l, u ≠ v) ∧ fit l = .ok a.value ∧ a.stddev = dev l)

theorem levelOf (dev : List ℚ → ℚ) (fit : List ℚ → Except PyErr ℚ) (l : List ℚ) (c : ℚ) (h : fitCenter fit l = .ok c) :
    LevelOf dev fit l ⟨c, deviation dev l⟩ := by
  cases l with
  | nil => cases h
  | cons a l =>
    have hc : constant (a :: l) = true ↔ ∀ v ∈ a :: l, v = a := by simp [constant]
    unfold deviation
    simp only [fitCenter] at h
    by_cases h1 : constant (a :: l) = true
    · rw [if_pos h1] at h ⊢
      cases h
      exact Or.inl ⟨c, by simp, hc.1 h1, rfl⟩
    · rw [if_neg h1] at h ⊢
      refine Or.inr ⟨?_, h, rfl⟩
      rw [hc] at h1
      push Not at h1
      obtain ⟨v, hv, hva⟩ := h1
      exact ⟨v, hv, a, by simp, hva⟩

/-- **C74.** For any signal the levels are those of the evaluated samples below and above the middle of their range, each with its own deviation. -/
theorem C74_halves (dev : List ℚ → ℚ) (fit : List ℚ → Except PyErr ℚ) (nMax : Option ℚ) (y : List ℚ) (a b : Level ℚ)
    (h : runnerLevels dev fit nMax y = .ok (a, b)) :
    ∃ (d : List ℚ) (lo hi : ℚ), reduced nMax y = .ok d ∧ lo ∈ d ∧ hi ∈ d ∧ (∀ v ∈ d, lo ≤ v ∧ v ≤ hi) ∧
      LevelOf dev fit (d.filter fun v => v < (lo + hi) / 2) a ∧ LevelOf dev fit (d.filter fun v => (lo + hi) / 2 < v) b := by
  unfold runnerLevels at h
  cases hd : reduced nMax y with
  | error e => rw [hd] at h; cases h
  | ok d =>
    rw [hd] at h
    simp only [bind, Except.bind] at h
    have hne : d ≠ [] := by rintro rfl; cases h
    obtain ⟨lo, e1, m1, l1⟩ := min_spec d hne
    obtain ⟨hi, e2, m2, l2⟩ := max_spec d hne
    rw [e1, e2] at h
    simp only at h
    refine ⟨d, lo, hi, rfl, m1, m2, fun v hv => ⟨l1 v hv, l2 v hv⟩, ?_⟩
    cases h0 : fitCenter fit (d.filter fun v => v < (lo + hi) / 2) with
    | error e => rw [h0] at h; cases h
    | ok c0 =>
      rw [h0] at h
      simp only at h
      cases h1 : fitCenter fit (d.filter fun v => (lo + hi) / 2 < v) with
      | error e => rw [h1] at h; cases h
      | ok c1 =>
        rw [h1] at h
        cases h
        exact ⟨levelOf dev fit _ c0 h0, levelOf dev fit _ c1 h1⟩

/-- Four values, all evaluated: the lower three samples have the mean 1/3, the upper two 9/2; here with the mean as fit and the count as deviation. -/
example : (runnerLevels (fun l => l.length) (fun l => .ok (l.sum / l.length)) none [0, 1, 4, 5, 0]).map
    (fun r => (r.1.value, r.1.stddev, r.2.value, r.2.stddev)) = .ok (1 / 3, 3, 9 / 2, 2) := by
  decide +kernel

/-- **C74 fails** with `levels_n_max = 0`: ZeroDivisionError. -/
theorem C74_zero_fails (dev : List ℚ → ℚ) (fit : List ℚ → Except PyErr ℚ) (y : List ℚ) :
    runnerLevels dev fit (some 0) y = .error .zeroDivision := rfl

/-- **C74 fails** for a constant signal: no levels, but ValueError. -/
theorem C74_constant_fails (dev : List ℚ → ℚ) (fit : List ℚ → Except PyErr ℚ) (nMax : Option ℚ) (hn : ∀ n, nMax = some n → 0 < n)
    (y : List ℚ) (hy : y ≠ []) (a : ℚ) (h : ∀ v ∈ y, v = a) : runnerLevels dev fit nMax y = .error .valueError := by
  cases nMax with
  | none => exact no_levels dev fit none y y a rfl h
  | some n => exact constant_levels dev fit n (hn n rfl) y hy a fun v hv => h v (thinned_mem n y v hv)

/-- **C74 fails** if one of the two values is rare among the samples left after decimation (at most one in `n`-th of them): ValueError.  With
`C74_levels_partial` this is when the levels of two values can be measured. -/
theorem C74_rare_fails (dev : List ℚ → ℚ) (fit : List ℚ → Except PyErr ℚ) (n : ℚ) (h0 : 0 < n) (y : List ℚ) (a b : ℚ) (hab : a < b)
    (h2 : ∀ v ∈ y, v = a ∨ v = b) (hlen : n < ((thinned n y).length : ℚ))
    (hrare : n * (thinned n y).count a < ((thinned n y).length : ℚ) ∨ n * (thinned n y).count b < ((thinned n y).length : ℚ)) :
    runnerLevels dev fit (some n) y = .error .valueError := by
  have hene : thinned n y ≠ [] := by
    intro h
    rw [h] at hlen
    simp at hlen
    linarith
  have hyne : y ≠ [] := by
    obtain ⟨v, hv⟩ := List.exists_mem_of_ne_nil _ hene
    exact List.ne_nil_of_mem (thinned_mem n y v hv)
  have h2e : ∀ v ∈ thinned n y, v = a ∨ v = b := fun v hv => h2 v (thinned_mem n y v hv)
  by_cases hae : a ∈ thinned n y
  · by_cases hbe : b ∈ thinned n y
    · obtain ⟨d, E, w, e, hw, hE, hcov, hatt, hmem, -, hnot⟩ := binned (thinned n y) hene n h0.le hlen 500 (by norm_num)
      obtain ⟨t0, t1⟩ := hatt ⟨a, hae, b, hbe, hab.ne⟩
      have hE500 := hE 500
      have hE499 := hE 499
      push_cast at hE500 hE499
      have e0 : E 0 = a := by
        rcases h2e _ t0 with h | h
        · exact h
        · have := (hcov a hae).1; linarith
      have e1 : E 500 = b := by
        rcases h2e _ t1 with h | h
        · have := (hcov b hbe).2; linarith
        · exact h
      have hmono : ∀ i < 500, E i < E (i + 1) := by
        intro i _
        rw [hE i, hE (i + 1)]
        push_cast
        linarith
      have ba : InBin E 500 0 a := ⟨by rw [e0], Or.inl (by have := hmono 0 (by norm_num); rw [e0] at this; exact this)⟩
      have bb : InBin E 500 499 b := ⟨by linarith, Or.inr ⟨rfl, by rw [← e1]⟩⟩
      have uniq : ∀ v ∈ thinned n y, ∀ i < 500, InBin E 500 i v → (v = a ∧ i = 0) ∨ (v = b ∧ i = 499) := by
        intro v hv i hi hin
        rcases h2e v hv with rfl | rfl
        · exact Or.inl ⟨rfl, (inBin_unique E 500 (fun i hi => (hmono i hi).le) v (by norm_num) (hcov v hv).1 (hcov v hv).2).unique ⟨hi, hin⟩ ⟨by norm_num, ba⟩⟩
        · exact Or.inr ⟨rfl, (inBin_unique E 500 (fun i hi => (hmono i hi).le) v (by norm_num) (hcov v hv).1 (hcov v hv).2).unique ⟨hi, hin⟩ ⟨by norm_num, bb⟩⟩
      have hd : ∀ x ∈ d, x = E 0 + w / 2 ∨ x = E 499 + w / 2 := by
        intro x hx
        obtain ⟨i, hi, rfl, v, hv, hin⟩ := hmem x hx
        rcases uniq v hv i hi hin with ⟨-, rfl⟩ | ⟨-, rfl⟩
        · exact Or.inl rfl
        · exact Or.inr rfl
      rcases hrare with hc | hc
      · have hno := hnot 0 (by norm_num) a ba (fun u hu hin => by rcases uniq u hu 0 (by norm_num) hin with h | h; exacts [h.1, by omega]) hc
        refine no_levels dev fit (some n) y d (E 499 + w / 2) (by rw [reduced_some n h0.ne', e]) fun x hx => ?_
        rcases hd x hx with h | h
        · exact absurd (h ▸ hx) hno
        · exact h
      · have hno := hnot 499 (by norm_num) b bb (fun u hu hin => by rcases uniq u hu 499 (by norm_num) hin with h | h; exacts [by omega, h.1]) hc
        refine no_levels dev fit (some n) y d (E 0 + w / 2) (by rw [reduced_some n h0.ne', e]) fun x hx => ?_
        rcases hd x hx with h | h
        · exact h
        · exact absurd (h ▸ hx) hno
    · exact constant_levels dev fit n h0 y hyne a fun v hv => (h2e v hv).resolve_right fun h => hbe (h ▸ hv)
  · exact constant_levels dev fit n h0 y hyne b fun v hv => (h2e v hv).resolve_left fun h => hae (h ▸ hv)

/-- A signal whose period divides the step of the decimation: ValueError. -/
theorem aliased (dev : List ℚ → ℚ) (fit : List ℚ → Except PyErr ℚ) (n : ℚ) (h0 : 0 < n) (f : ℕ → ℚ) (P L : ℕ) (hf : ∀ i, f (i + P) = f i)
    (hL : 10 * n < L) (hP : P ∣ stride (L / n)) : runnerLevels dev fit (some n) ((List.range L).map f) = .error .valueError := by
  have hLp : 0 < L := by
    have : (0 : ℚ) < L := by linarith
    exact_mod_cast this
  apply constant_levels dev fit n h0 _ (by simp; omega) (f 0)
  intro v hv
  unfold thinned at hv
  rw [List.length_map, List.length_range, if_pos (by rw [lt_div_iff₀ h0]; exact hL)] at hv
  obtain ⟨i, hi⟩ := List.mem_iff_getElem?.1 hv
  rw [(decimate_get _ (stride_pos _) _).2, List.getElem?_map] at hi
  by_cases hlt : i * stride (L / n) < L
  · rw [List.getElem?_range hlt] at hi
    obtain ⟨c, hc⟩ := hP
    have hper : ∀ k, f (P * k) = f 0 := by
      intro k
      induction k with
      | zero => rfl
      | succ k ih => rw [Nat.mul_succ, hf, ih]
    rw [hc, show i * (P * c) = P * (i * c) by ring, Option.map_some, hper] at hi
    exact (Option.some.inj hi).symm
  · rw [List.getElem?_eq_none (by simpa using hlt)] at hi
    cases hi

/-- **C74 fails** for ones and zeros in turn if the decimation picks the same sample of each period: 200000 samples, 5 per symbol, at the default
of 10000 samples evaluated.  `calculate` raises ValueError. -/
theorem C74_aliased_fails (dev : List ℚ → ℚ) (fit : List ℚ → Except PyErr ℚ) (s : Settings) (hs : s.level.y0 = none ∨ s.level.y1 = none)
    (given : Option (List (List (Option ℚ)))) (clocks : Option (List Wave)) (cdr : List (Option ℚ) → Except PyErr (List (Option ℚ)))
    (mask : Option MaskFn) (t0 δ y0 y1 : ℚ) :
    calculateAuto dev fit (some 10000) s given clocks cdr mask [Square.wave 5 40000 δ y0 y1 ⟨t0, fun j => j % 2 == 1⟩] = .error .valueError := by
  unfold calculateAuto measured
  rw [if_pos hs]
  have : runnerLevels dev fit (some 10000) ([Square.wave 5 40000 δ y0 y1 ⟨t0, fun j => j % 2 == 1⟩].flatMap (·.2)) = .error .valueError := by
    rw [List.flatMap_singleton]
    unfold Square.wave Square.values
    simp only
    refine aliased dev fit 10000 (by norm_num) _ 10 _ ?_ (by norm_num) ?_
    · intro i
      simp only [show (i + 10) / 5 = i / 5 + 2 by omega, Nat.add_mod_right]
    · have : stride (((5 * 40000 : ℕ) : ℚ) / 10000) = 10 := by decide +kernel
      rw [this]
  rw [this]
  rfl

/-! ### Square waves with automatic levels -/

/-- The thresholds with automatic levels near the two values. -/
theorem auto_thresholds (c : LevelConfig ℚ) (y0 y1 ε : ℚ) (h0 : c.y0 = none) (hth : c.yTh = none) (hlt : y0 < y1) (hε : 0 ≤ ε)
    (hε' : ε ≤ (y1 - y0) / 1000) (hh : ∀ h, c.hys = some h → 0 ≤ h ∧ h < y1 - y0) (hu : 0 ≤ c.hysUa) (hu' : c.hysUa < 1) (h1 : c.y1 = none) :
    (levels c (⟨y0 + ε, 0⟩, ⟨y1 - ε, 0⟩)).half = (y1 + y0) / 2 ∧ (levels c (⟨y0 + ε, 0⟩, ⟨y1 - ε, 0⟩)).lowSnr = false ∧
      y0 < (levels c (⟨y0 + ε, 0⟩, ⟨y1 - ε, 0⟩)).falling ∧
      (levels c (⟨y0 + ε, 0⟩, ⟨y1 - ε, 0⟩)).falling ≤ (levels c (⟨y0 + ε, 0⟩, ⟨y1 - ε, 0⟩)).rising ∧
      (levels c (⟨y0 + ε, 0⟩, ⟨y1 - ε, 0⟩)).rising < y1 := by
  unfold levels startLevels
  cases hy : c.hys with
  | none =>
    simp only [h0, h1, hth, true_or, if_true, Option.getD_none, add_zero, true_and]
    have k1 : 0 ≤ c.hysUa * (y1 - ε - (y0 + ε)) := mul_nonneg hu (by linarith)
    have k2 : c.hysUa * (y1 - ε - (y0 + ε)) ≤ 1 * (y1 - ε - (y0 + ε)) := mul_le_mul_of_nonneg_right hu'.le (by linarith)
    have k3 : c.hysUa * (y1 - ε - (y0 + ε)) < y1 - y0 := by
      rcases eq_or_lt_of_le hε with h | h
      · rw [← h]
        have : c.hysUa * (y1 - 0 - (y0 + 0)) < 1 * (y1 - 0 - (y0 + 0)) := mul_lt_mul_of_pos_right hu' (by linarith)
        linarith
      · linarith
    exact ⟨by ring, by linarith, by linarith, by linarith⟩
  | some h =>
    obtain ⟨k1, k2⟩ := hh h hy
    simp only [h0, h1, hth, true_or, if_true, Option.getD_none, add_zero, true_and]
    exact ⟨by ring, by linarith, by linarith, by linarith⟩

/-- The samples of all waveforms. -/
def allValues (S M : ℕ) (y0 y1 : ℚ) (qs : List Square) : List ℚ := qs.flatMap fun q => q.values S M y0 y1

theorem auto_levels (dev : List ℚ → ℚ) (fit : List ℚ → Except PyErr ℚ) (nMax : Option ℚ) (s : Settings) (qs : List Square) (S M : ℕ) (δ y0 y1 : ℚ)
    (hlt : y0 < y1) (h0 : s.level.y0 = none) (hrep : Represented nMax y0 y1 (allValues S M y0 y1 qs)) :
    ∃ ε, measured dev fit nMax s.level (qs.map (Square.wave S M δ y0 y1)) = .ok (⟨y0 + ε, 0⟩, ⟨y1 - ε, 0⟩) ∧ 0 ≤ ε ∧ ε ≤ (y1 - y0) / 1000 := by
  obtain ⟨ε, e, h1, h2, -⟩ := C74_levels_partial dev fit nMax (allValues S M y0 y1 qs) y0 y1 hlt (by
    intro v hv
    unfold allValues at hv
    obtain ⟨q, -, hv⟩ := List.mem_flatMap.1 hv
    unfold Square.values at hv
    obtain ⟨i, -, rfl⟩ := List.mem_map.1 hv
    split <;> simp) hrep
  refine ⟨ε, ?_, h1, h2⟩
  unfold measured
  rw [if_pos (Or.inl h0), List.flatMap_map]
  exact e

/-- **C74 (NRZM)**: square waves are decoded end to end with automatic levels: the same as C71, without level settings.  Partial as the levels. -/
theorem C74_nrzm_partial (sort : List Cdr.Scored → List Cdr.Scored) (finer : List Cdr.Finer) (hsort : CdrSearch.Reorders sort)
    (hbest : CdrSearch.BestFirst sort) (dev : List ℚ → ℚ) (fit : List ℚ → Except PyErr ℚ) (nMax : Option ℚ) (s : Settings)
    (qs : List Square) (S M : ℕ) (δ y0 y1 tSym : ℚ) (hS : 0 < S) (hδ : 0 < δ) (hlt : y0 < y1)
    (h0 : s.level.y0 = none) (h1 : s.level.y1 = none) (hth : s.level.yTh = none)
    (hh : ∀ h, s.level.hys = some h → 0 ≤ h ∧ h < y1 - y0) (hua : 0 ≤ s.level.hysUa) (hua' : s.level.hysUa < 1)
    (hrep : Represented nMax y0 y1 (allValues S M y0 y1 qs))
    (hrec : ∀ q ∈ qs, q.Recoverable M s.polarity) (htwo : ∃ q ∈ qs, (q.changes M s.polarity).headD 0 + 2 ≤ (q.changes M s.polarity).getLastD 0)
    (ht : 0 < tSym) (hunit : tSym ≤ 200) (htT : |S * δ - tSym| ≤ tSym / 100)
    (hskip : s.skip = false) (hr : 0 < s.resolution) (hl : Drawable s.resolution s.edgeLower) (hu : Drawable s.resolution s.edgeUpper)
    (hw : decisionWidth s.levelWidth (S * δ) δ < 1) :
    ∃ (a : Analysis) (start count : Square → ℕ),
      calculateAuto dev fit nMax s none none (recover fun e => Cdr.runWith sort finer ⟨some tSym, false⟩ e true) none
        (qs.map (Square.wave S M δ y0 y1)) = .ok a ∧
      a.tSym = S * δ ∧
      bits a true = .ok (qs.map fun q => (List.range' (start q) (count q)).map fun j : ℕ => if q.sym (j - 1) = q.sym j then 0 else 1) ∧
      ∀ q ∈ qs, Decoded S M s.polarity q (start q) (count q) := by
  obtain ⟨ε, e, hε, hε'⟩ := auto_levels dev fit nMax s qs S M δ y0 y1 hlt h0 hrep
  obtain ⟨e1, e2, e3, e4, e5⟩ := auto_thresholds s.level y0 y1 ε h0 hth hlt hε hε' hh hua hua' h1
  unfold calculateAuto
  rw [e]
  simp only [bind, Except.bind]
  exact decodes_nrzm sort finer hsort hbest s _ none qs S M δ y0 y1 tSym hS hδ e1 e2 e3 e4 e5 hrec htwo ht hunit htT hskip hr hl hu
    (fun f hf => by cases hf) hw

/-- **C74 (NRZL)**, the same: the bits are the sent symbols.  Partial as the levels and as C71: if all decoded symbols and those before them are ones,
the bits are zeros. -/
theorem C74_nrzl_partial (sort : List Cdr.Scored → List Cdr.Scored) (finer : List Cdr.Finer) (hsort : CdrSearch.Reorders sort)
    (hbest : CdrSearch.BestFirst sort) (dev : List ℚ → ℚ) (fit : List ℚ → Except PyErr ℚ) (nMax : Option ℚ) (s : Settings)
    (qs : List Square) (S M : ℕ) (δ y0 y1 tSym : ℚ) (hS : 0 < S) (hδ : 0 < δ) (hlt : y0 < y1)
    (h0 : s.level.y0 = none) (h1 : s.level.y1 = none) (hth : s.level.yTh = none)
    (hh : ∀ h, s.level.hys = some h → 0 ≤ h ∧ h < y1 - y0) (hua : 0 ≤ s.level.hysUa) (hua' : s.level.hysUa < 1)
    (hrep : Represented nMax y0 y1 (allValues S M y0 y1 qs))
    (hrec : ∀ q ∈ qs, q.Recoverable M s.polarity) (htwo : ∃ q ∈ qs, (q.changes M s.polarity).headD 0 + 2 ≤ (q.changes M s.polarity).getLastD 0)
    (ht : 0 < tSym) (hunit : tSym ≤ 200) (htT : |S * δ - tSym| ≤ tSym / 100)
    (hskip : s.skip = false) (hr : 0 < s.resolution) (hl : Drawable s.resolution s.edgeLower) (hu : Drawable s.resolution s.edgeUpper)
    (hw : decisionWidth s.levelWidth (S * δ) δ < 1) :
    ∃ (a : Analysis) (start count : Square → ℕ),
      calculateAuto dev fit nMax s none none (recover fun e => Cdr.runWith sort finer ⟨some tSym, false⟩ e true) none
        (qs.map (Square.wave S M δ y0 y1)) = .ok a ∧
      a.tSym = S * δ ∧
      bits a false = .ok (qs.map fun q => (List.range' (start q) (count q)).map fun j : ℕ =>
        if (∀ i ∈ List.range' (start q) (count q), q.sym (i - 1) = true ∧ q.sym i = true) then 0 else if q.sym j then 1 else 0) ∧
      ∀ q ∈ qs, Decoded S M s.polarity q (start q) (count q) := by
  obtain ⟨ε, e, hε, hε'⟩ := auto_levels dev fit nMax s qs S M δ y0 y1 hlt h0 hrep
  obtain ⟨e1, e2, e3, e4, e5⟩ := auto_thresholds s.level y0 y1 ε h0 hth hlt hε hε' hh hua hua' h1
  unfold calculateAuto
  rw [e]
  simp only [bind, Except.bind]
  exact decodes_nrzl_partial sort finer hsort hbest s _ none qs S M δ y0 y1 tSym hS hδ e1 e2 e3 e4 e5 hrec htwo ht hunit htT hskip hr hl hu
    (fun f hf => by cases hf) hw

/-! ### Examples -/

/-- Eight samples of two values, at most four evaluated: half a bin off; five of them: exactly. -/
example : (∃ ε, runnerLevels (fun _ => 7) (fun _ => .error .runtimeError) (some 4) [0, 0, 0, 5, 5, 5, 0, 5] = .ok (⟨0 + ε, 0⟩, ⟨5 - ε, 0⟩) ∧
      0 ≤ ε ∧ ε ≤ 5 / 1000) ∧
    runnerLevels (fun _ => 7) (fun _ => .error .runtimeError) (some 5) [0, 0, 5, 0, 5] = .ok (⟨0, 0⟩, ⟨5, 0⟩) := by
  constructor
  · obtain ⟨ε, h1, h2, h3, -⟩ := C74_levels_partial (fun _ => 7) (fun _ => .error .runtimeError) (some 4) [0, 0, 0, 5, 5, 5, 0, 5] 0 5
      (by norm_num) (by decide +kernel) ⟨by simp, by simp, by rintro n ⟨⟩; right; decide +kernel⟩
    exact ⟨ε, h1, h2, by linarith⟩
  · obtain ⟨ε, h1, -, -, h4⟩ := C74_levels_partial (fun _ => 7) (fun _ => .error .runtimeError) (some 5) [0, 0, 5, 0, 5] 0 5
      (by norm_num) (by decide +kernel) ⟨by simp, by simp, by rintro n ⟨⟩; left; norm_num⟩
    rw [h4 (by rintro n ⟨⟩; norm_num)] at h1
    simpa using h1

/-- One sample in 11 is lost if 5 are evaluated. -/
example : runnerLevels (fun _ => 7) (fun _ => .ok 3) (some 5) [0, 0, 0, 0, 0, 0, 0, 0, 5, 0, 0] = .error .valueError :=
  C74_rare_fails _ _ 5 (by norm_num) _ 0 5 (by norm_num) (by decide +kernel) (by decide +kernel) (Or.inr (by decide +kernel))

/-- A constant signal. -/
example : runnerLevels (fun _ => 7) (fun _ => .ok 3) (some 10000) [2, 2, 2] = .error .valueError :=
  C74_constant_fails _ _ _ (by rintro n ⟨⟩; norm_num) _ (by simp) 2 (by simp)

/-- The default settings (with a resolution of 20), eyediagram.py:311-341, pam2.py:144-146. -/
def defaults : Settings where
  level := ⟨none, none, none, none, 1 / 10⟩
  polarity := .rising
  period := some 100
  skip := false
  levelWidth := 1 / 5
  crossWidth := 1 / 10
  timeHeight := 1 / 20
  edgeLower := 1 / 5
  edgeUpper := 4 / 5
  pointCloud := false
  resolution := 20

/-- The hypotheses of C74 are met with the default settings: 10 symbols of 10 samples, 1 ns per symbol, nominal symbol period 1.005 ns, in ns. -/
example (dev : List ℚ → ℚ) (fit : List ℚ → Except PyErr ℚ) : ∃ (a : Analysis) (start count : Square → ℕ),
    calculateAuto dev fit (some 10000) defaults none none
      (recover fun e => Cdr.runWith (·.mergeSort CdrSearch.byScore) [] ⟨some (201 / 200), false⟩ e true) none [exSquare.wave 10 10 (1 / 10) (-1) 3] = .ok a ∧
    a.tSym = 1 ∧ bits a true = .ok [(List.range' (start exSquare) (count exSquare)).map fun j : ℕ => if exSquare.sym (j - 1) = exSquare.sym j then 0 else 1] ∧
    4 ≤ count exSquare := by
  have hch : exSquare.changes 10 .rising = [1, 3, 5, 9] := by decide +kernel
  obtain ⟨a, start, count, h1, h2, h3, h4⟩ := C74_nrzm_partial (·.mergeSort CdrSearch.byScore) [] CdrSearch.mergeSort_sorts.1 CdrSearch.mergeSort_sorts.2
    dev fit (some 10000) defaults [exSquare] 10 10 (1 / 10) (-1) 3 (201 / 200) (by norm_num) (by norm_num) (by norm_num) rfl rfl rfl
    (by rintro h ⟨⟩) (by norm_num [defaults]) (by norm_num [defaults]) ⟨by decide +kernel, by decide +kernel, by
      rintro n ⟨⟩
      left
      decide +kernel⟩ (by
      intro q hq
      obtain rfl := List.mem_singleton.1 hq
      unfold Square.Recoverable
      rw [show defaults.polarity = .rising from rfl, hch]
      decide) ⟨exSquare, by simp, by rw [show defaults.polarity = .rising from rfl, hch]; decide⟩
    (by norm_num) (by norm_num) (by rw [abs_le]; norm_num) rfl (by decide) (by unfold Drawable; decide +kernel) (by unfold Drawable; decide +kernel)
    (by decide +kernel)
  obtain ⟨g1, g2, g3⟩ := h4 exSquare (by simp)
  rw [show defaults.polarity = .rising from rfl, hch] at g1 g2 g3
  have k1 := g3 2 (by decide) (by decide) (by decide) (by decide)
  have k2 := g3 7 (by decide) (by decide) (by decide) (by decide)
  refine ⟨a, start, count, h1, by rw [h2]; norm_num, h3, by omega⟩

end Verif.Props.AutoLevels
