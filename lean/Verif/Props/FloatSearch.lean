import Verif.Props.FloatFit
import Verif.Props.CdrSearch
import Verif.Props.FloatWave

/-!
C107, the search and the fit of the period in double precision.
-/

namespace Verif.Props.FloatSearch

open Verif Verif.Eye Verif.Cdr Verif.Float Verif.Props.Float Verif.Props.FloatCdr Verif.Props.FloatEye Verif.Props.EyeWindow Verif.Props.FloatFit
  Verif.Props.CdrSearch Verif.Props.FloatStats

/-! ### Specification -/

/-- Data edges that belong to the symbol boundaries with the numbers `m`, counted from the first edge: increasing, at most twelve symbols and on
average at most 4.9 symbols apart; each edge is no farther than `J` from its boundary, which is at most a 32nd of a symbol.  `η = 10 ^ 4 (d + 1) u (A + T)`
bounds the rounding errors; `A` bounds the times.  The last condition is one on the unit of time. -/
structure Ticks (u : ℚ) (d n : ℕ) (e : ℕ → ℚ) (m : ℕ → ℤ) (s T J A η : ℚ) : Prop where
  two : 2 ≤ n
  zero : m 0 = 0
  incr : ∀ i, i + 1 < n → m i < m (i + 1)
  gap : ∀ i, i + 1 < n → m (i + 1) ≤ m i + 12
  dense : (m (n - 1) : ℚ) ≤ 49 / 10 * ((n : ℚ) - 1)
  near : ∀ i < n, |e i - (s + m i * T)| ≤ J
  bound : ∀ i < n, |e i| ≤ A
  sorted : ∀ i < n, e 0 ≤ e i
  pos : 0 < T
  quiet : 32 * J ≤ T
  fine : (d + 1) * u ≤ 1 / 10 ^ 5
  eta : η = 10 ^ 4 * ((d + 1) * u) * (A + T)
  small : 100 * η ≤ T
  unit : T ≤ 3 / 2 * ((n : ℚ) - 1)

/-! ### Division and remainder -/

theorem pyModF_nonneg (R : Rounding) {a t : ℚ} (ha : 0 ≤ a) (ht : 0 < t) : pyModF R a t = a - t * ⌊a / t⌋ := by
  have h1 : pyInt (a / t) = ⌊a / t⌋ := by
    unfold pyInt
    rw [if_pos (by positivity)]
  have h2 : ¬ a - t * (⌊a / t⌋ : ℚ) < 0 := by
    have := mul_le_mul_of_nonneg_left (Int.floor_le (a / t)) ht.le
    rw [mul_div_cancel₀ a ht.ne'] at this
    linarith
  unfold pyModF
  simp only [h1]
  rw [if_neg h2]

theorem floorDivF_near (R : Rounding) {a t : ℚ} (ha : 0 ≤ a) (ht : 0 < t) (hk : 10 * R.u * ⌊a / t⌋ ≤ 1) :
    |floorDivF R a t - ⌊a / t⌋| ≤ R.u * ⌊a / t⌋ := by
  have hun := R.u_nonneg
  have hus := R.u_small
  have h1 : fmod a t = a - ⌊a / t⌋ * t := by
    unfold fmod Equip.pyTrunc
    rw [if_pos (by positivity)]
  have h2 := mul_le_mul_of_nonneg_right (Int.floor_le (a / t)) ht.le
  rw [div_mul_cancel₀ a ht.ne'] at h2
  have hk0 : (0 : ℚ) ≤ ⌊a / t⌋ := by exact_mod_cast Int.floor_nonneg.2 (by positivity)
  unfold floorDivF divmodF
  simp only [h1]
  have hc : ¬ (a - (⌊a / t⌋ : ℚ) * t ≠ 0 ∧ (t < 0 ↔ ¬ a - (⌊a / t⌋ : ℚ) * t < 0)) := by
    rintro ⟨-, h⟩
    have : ¬ a - (⌊a / t⌋ : ℚ) * t < 0 := by linarith
    exact absurd (h.2 this) (by linarith)
  simp only [if_neg hc, sub_sub_cancel]
  obtain ⟨p, hp, ep⟩ := rel R ((⌊a / t⌋ : ℚ) * t)
  obtain ⟨q, hq, eq⟩ := rel R (R.fl ((⌊a / t⌋ : ℚ) * t) / t)
  have e : R.fl (R.fl ((⌊a / t⌋ : ℚ) * t) / t) = ⌊a / t⌋ * ((1 + p) * (1 + q)) := by
    rw [eq, ep]
    field_simp
  rw [e]
  generalize ⌊a / t⌋ = k at *
  have s1 : |(1 + p) - 1| ≤ 1 * R.u := by simpa using hp
  have s2 := step hun hus (by norm_num) s1 hq
  set r := (1 + p) * (1 + q)
  have hd : |(k : ℚ) * r - k| ≤ 21 / 100 := by
    rw [show (k : ℚ) * r - k = k * (r - 1) by ring, abs_mul, abs_of_nonneg hk0]
    have := mul_le_mul_of_nonneg_left s2 hk0
    linarith
  have hd' := abs_le.1 hd
  have hfk := R.err (k : ℚ)
  rw [abs_of_nonneg hk0] at hfk
  by_cases hlt : (k : ℚ) * r < k
  · have hfl : ⌊(k : ℚ) * r⌋ = k - 1 := by
      rw [Int.floor_eq_iff]
      push_cast
      constructor <;> linarith
    rw [hfl]
    push_cast
    have hz := R.err ((k : ℚ) * r - (k - 1))
    have hz0 : 0 < (k : ℚ) * r - (k - 1) := by linarith
    rw [abs_of_pos hz0] at hz
    have hz' := abs_le.1 hz
    have : R.u * ((k : ℚ) * r - (k - 1)) ≤ 1 / 100 * ((k : ℚ) * r - (k - 1)) := mul_le_mul_of_nonneg_right hus hz0.le
    rw [if_pos (by linarith), sub_add_cancel]
    exact hfk
  · have hfl : ⌊(k : ℚ) * r⌋ = k := by
      rw [Int.floor_eq_iff]
      constructor <;> linarith
    rw [hfl]
    have hz := R.err ((k : ℚ) * r - k)
    have hz0 : 0 ≤ (k : ℚ) * r - k := by linarith
    rw [abs_of_nonneg hz0] at hz
    have hz' := abs_le.1 hz
    have : R.u * ((k : ℚ) * r - k) ≤ 1 / 100 * ((k : ℚ) * r - k) := mul_le_mul_of_nonneg_right hus hz0
    rw [if_neg (by linarith)]
    simp
    positivity

/-! ### The position of the edges for a period -/

/-- The argument of the division, as in the search and in the fit. -/
def arg (R : Rounding) (e : ℕ → ℚ) (t : ℚ) (i : ℕ) : ℚ := R.fl (R.fl (e i - e 0) + R.fl (t / 2))

section
variable {R : Rounding} {d n : ℕ} {e : ℕ → ℚ} {m : ℕ → ℤ} {s T J A η : ℚ} (h : Ticks R.u d n e m s T J A η)
include h

theorem consts : 0 ≤ J ∧ 0 ≤ A ∧ 0 ≤ R.u * (A + T) ∧ 10 ^ 4 * (R.u * (A + T)) ≤ η ∧ R.u * T ≤ R.u * (A + T) ∧ 0 ≤ R.u * T := by
  have hun := R.u_nonneg
  have h0 : 0 ≤ A := (abs_nonneg _).trans (h.bound 0 (by have := h.two; omega))
  have hT := h.pos
  have h1 : 0 ≤ (d : ℚ) * R.u * (A + T) := by positivity
  refine ⟨(abs_nonneg _).trans (h.near 0 (by have := h.two; omega)), h0, by positivity, ?_, ?_, by positivity⟩
  · rw [h.eta]
    linarith
  · exact mul_le_mul_of_nonneg_left (by linarith) hun

theorem arg_props {t : ℚ} (ht : |t - T| ≤ 51 / 2500 * T) (i : ℕ) (hi : i < n) :
    0 ≤ arg R e t i ∧ |arg R e t i - (e i - e 0 + t / 2)| ≤ 6 * (R.u * (A + T)) := by
  obtain ⟨-, hA, huAT, -, -, -⟩ := consts h
  have hun := R.u_nonneg
  have hT := h.pos
  have ht' := abs_le.1 ht
  have ht0 : 0 < t := by linarith
  have h0 : 0 < n := by have := h.two; omega
  have h1 := arg_near R ht0 (h.bound i hi) (h.bound 0 h0)
  refine ⟨?_, ?_⟩
  · unfold arg
    refine FloatWave.fl_nonneg R (add_nonneg (FloatWave.fl_nonneg R (by linarith [h.sorted i hi])) (FloatWave.fl_nonneg R (by linarith)))
  · refine h1.trans ?_
    have : 5 * R.u * (A + t) ≤ 5 * R.u * (A + T + 51 / 2500 * T) := mul_le_mul_of_nonneg_left (by linarith) (by linarith)
    have h2 : R.u * T ≤ R.u * (A + T) := mul_le_mul_of_nonneg_left (by linarith) hun
    linarith

/-- The errors of the edges are near a line. -/
theorem line {t : ℚ} (ht : |t - T| ≤ 51 / 2500 * T) (i : ℕ) (hi : i < n) :
    |arg R e t i - m i * t - (s - e 0 + t / 2 + m i * (T - t))| ≤ J + 6 * (R.u * (A + T)) := by
  have h1 := (arg_props h ht i hi).2
  have h2 := h.near i hi
  rw [show arg R e t i - m i * t - (s - e 0 + t / 2 + m i * (T - t)) = (arg R e t i - (e i - e 0 + t / 2)) + (e i - (s + m i * T)) by ring]
  refine (abs_add_le _ _).trans ?_
  linarith

/-- From one edge to the next, the error changes little. -/
theorem change_small {t : ℚ} (ht : |t - T| ≤ 51 / 2500 * T) (i : ℕ) (hi : i + 1 < n) :
    |(arg R e t (i + 1) - m (i + 1) * t) - (arg R e t i - m i * t)| ≤ 31 / 100 * T := by
  obtain ⟨hJ, -, -, h4, -, -⟩ := consts h
  have h1 := line h ht i (by omega)
  have h2 := line h ht (i + 1) hi
  have hq := h.quiet
  have hs := h.small
  have g1 : (0 : ℚ) ≤ m (i + 1) - m i := by
    have : (m i : ℚ) < m (i + 1) := by exact_mod_cast h.incr i hi
    linarith
  have g2 : (m (i + 1) : ℚ) - m i ≤ 12 := by
    have : (m (i + 1) : ℚ) ≤ m i + 12 := by exact_mod_cast h.gap i hi
    linarith
  have h3 : |((m (i + 1) : ℚ) - m i) * (T - t)| ≤ 12 * (51 / 2500 * T) := by
    rw [abs_mul, abs_of_nonneg g1]
    refine mul_le_mul g2 ?_ (abs_nonneg _) (by norm_num)
    rwa [abs_sub_comm]
  rw [show (arg R e t (i + 1) - m (i + 1) * t) - (arg R e t i - m i * t) =
    (arg R e t (i + 1) - m (i + 1) * t - (s - e 0 + t / 2 + m (i + 1) * (T - t))) - (arg R e t i - m i * t - (s - e 0 + t / 2 + m i * (T - t))) +
      ((m (i + 1) : ℚ) - m i) * (T - t) by ring]
  refine (abs_add_le _ _).trans ?_
  have h5 := abs_sub (arg R e t (i + 1) - m (i + 1) * t - (s - e 0 + t / 2 + m (i + 1) * (T - t))) (arg R e t i - m i * t - (s - e 0 + t / 2 + m i * (T - t)))
  linarith

theorem first_error {t : ℚ} (ht : |t - T| ≤ 51 / 2500 * T) : |arg R e t 0 - m 0 * t - t / 2| ≤ 1 / 10 ^ 5 * T := by
  obtain ⟨-, -, -, h4, -, -⟩ := consts h
  have h1 := (arg_props h ht 0 (by have := h.two; omega)).2
  rw [sub_self, zero_add] at h1
  rw [h.zero]
  push_cast
  rw [zero_mul, sub_zero]
  have hs := h.small
  have hT := h.pos
  linarith

/-- The number of symbols. -/
theorem total : R.u * m (n - 1) ≤ 1 / 100 ∧ R.u * (m (n - 1) * T) ≤ 3 * (R.u * (A + T)) ∧ (n : ℚ) - 1 ≤ m (n - 1) := by
  obtain ⟨hJ, hA, h3, h4, -, -⟩ := consts h
  have hun := R.u_nonneg
  have hT := h.pos
  have h2 := h.two
  have hq := h.quiet
  have hs := h.small
  have a1 := abs_le.1 (h.near 0 (by omega))
  have a2 := abs_le.1 (h.near (n - 1) (by omega))
  have b1 := abs_le.1 (h.bound 0 (by omega))
  have b2 := abs_le.1 (h.bound (n - 1) (by omega))
  rw [h.zero] at a1
  push_cast at a1
  have hMT : (m (n - 1) : ℚ) * T ≤ 2 * A + 2 * J := by linarith
  have h5 : R.u * (m (n - 1) * T) ≤ R.u * (3 * (A + T)) := mul_le_mul_of_nonneg_left (by linarith) hun
  refine ⟨?_, by linarith, ?_⟩
  · refine le_of_mul_le_mul_right (a := T) ?_ hT
    rw [mul_assoc]
    linarith
  · have : ∀ i, i < n → (i : ℚ) ≤ m i := by
      intro i
      induction i with
      | zero => intro _; rw [h.zero]; simp
      | succ i ih =>
        intro hi
        have h6 := ih (by omega)
        have h7 : (m i : ℚ) + 1 ≤ m (i + 1) := by exact_mod_cast h.incr i hi
        push_cast
        linarith
    have h8 := this (n - 1) (by omega)
    rw [Nat.cast_sub (by omega)] at h8
    simpa using h8

/-- Without jumps, the numbers of the symbols are right. -/
theorem no_jump_floor {t : ℚ} (ht : |t - T| ≤ 51 / 2500 * T)
    (hj : ∀ i, i + 1 < n → |R.fl (pyModF R (arg R e t (i + 1)) t - pyModF R (arg R e t i) t)| ≤ R.fl (t / 2)) :
    ∀ i < n, ⌊arg R e t i / t⌋ = m i := by
  have hT := h.pos
  have hus := R.u_small
  have ht' := abs_le.1 ht
  have ht0 : 0 < t := by linarith
  intro i
  induction i with
  | zero =>
    intro hi
    have h1 := abs_le.1 (first_error h ht)
    rw [Int.floor_eq_iff, le_div_iff₀ ht0, div_lt_iff₀ ht0]
    constructor <;> linarith
  | succ i ih =>
    intro hi
    have hf := ih (by omega)
    have hr := abs_le.1 (change_small h ht i hi)
    have hj' := hj i hi
    obtain ⟨p0, -⟩ := arg_props h ht i (by omega)
    obtain ⟨p1, -⟩ := arg_props h ht (i + 1) hi
    rw [pyModF_nonneg R p0 ht0, pyModF_nonneg R p1 ht0, hf] at hj'
    rw [Int.floor_eq_iff, le_div_iff₀ ht0, div_lt_iff₀ ht0] at hf
    generalize arg R e t (i + 1) = a' at *
    generalize arg R e t i = a at *
    have hz := steady_of R ht0 hj'
    have hz' := abs_le.1 hz
    have hut : R.u * t ≤ 1 / 100 * t := mul_le_mul_of_nonneg_right hus ht0.le
    have hfl : ⌊a' / t⌋ = m (i + 1) - 1 ∨ ⌊a' / t⌋ = m (i + 1) ∨ ⌊a' / t⌋ = m (i + 1) + 1 := by
      have b1 : m (i + 1) - 1 ≤ ⌊a' / t⌋ := by
        rw [Int.le_floor, le_div_iff₀ ht0]
        push_cast
        linarith
      have b2 : ⌊a' / t⌋ < m (i + 1) + 2 := by
        rw [Int.floor_lt, div_lt_iff₀ ht0]
        push_cast
        linarith
      omega
    rcases hfl with hc | hc | hc
    · rw [hc] at hz'
      push_cast at hz'
      exfalso
      linarith [hz'.2]
    · exact hc
    · rw [hc] at hz'
      push_cast at hz'
      exfalso
      linarith [hz'.1]

/-- Near the period there are no jumps. -/
theorem near_no_jump {t : ℚ} (ht : |t - T| ≤ 51 / 2500 * T) (hd : |t - T| * m (n - 1) ≤ T / 8) :
    ∀ i, i + 1 < n → |R.fl (pyModF R (arg R e t (i + 1)) t - pyModF R (arg R e t i) t)| ≤ R.fl (t / 2) := by
  obtain ⟨hJ, hA, h3, h4, -, -⟩ := consts h
  have hT := h.pos
  have hus := R.u_small
  have hun := R.u_nonneg
  have ht' := abs_le.1 ht
  have ht0 : 0 < t := by linarith
  have hq := h.quiet
  have hs := h.small
  have hcen : |s - e 0| ≤ J := by
    have := h.near 0 (by have := h.two; omega)
    rw [h.zero] at this
    rw [abs_sub_comm]
    simpa using this
  have hcen' := abs_le.1 hcen
  have hw : ∀ i < n, |arg R e t i - m i * t - t / 2| ≤ 19 / 100 * T := by
    intro i hi
    have h1 := line h ht i hi
    have h2 : |(m i : ℚ) * (T - t)| ≤ T / 8 := by
      refine le_trans ?_ hd
      rw [abs_mul, mul_comm, abs_sub_comm T t]
      refine mul_le_mul_of_nonneg_left ?_ (abs_nonneg _)
      have m1 := m_mono n m h.incr 0 i (by omega) hi
      have m2 := m_mono n m h.incr i (n - 1) (by omega) (by omega)
      rw [h.zero] at m1
      rw [abs_of_nonneg (by exact_mod_cast m1)]
      exact_mod_cast m2
    rw [show arg R e t i - m i * t - t / 2 = (arg R e t i - m i * t - (s - e 0 + t / 2 + m i * (T - t))) + ((s - e 0) + m i * (T - t)) by ring]
    refine (abs_add_le _ _).trans ?_
    have := abs_add_le (s - e 0) (m i * (T - t))
    linarith
  have hfl : ∀ i < n, ⌊arg R e t i / t⌋ = m i := by
    intro i hi
    have h1 := abs_le.1 (hw i hi)
    rw [Int.floor_eq_iff, le_div_iff₀ ht0, div_lt_iff₀ ht0]
    constructor <;> linarith
  intro i hi
  obtain ⟨p0, -⟩ := arg_props h ht i (by omega)
  obtain ⟨p1, -⟩ := arg_props h ht (i + 1) hi
  rw [pyModF_nonneg R p0 ht0, pyModF_nonneg R p1 ht0, hfl i (by omega), hfl (i + 1) hi]
  have a1 := abs_le.1 (hw i (by omega))
  have a2 := abs_le.1 (hw (i + 1) hi)
  generalize arg R e t (i + 1) = a' at *
  generalize arg R e t i = a at *
  have hz : |a' - t * (m (i + 1) : ℚ) - (a - t * m i)| ≤ 38 / 100 * T := by
    rw [abs_le]
    constructor <;> linarith
  have e1 := R.err (a' - t * (m (i + 1) : ℚ) - (a - t * m i))
  have e2 := abs_le.1 (half_near R ht0)
  generalize a' - t * (m (i + 1) : ℚ) - (a - t * m i) = z at *
  have e3 : |R.fl z| ≤ |R.fl z - z| + |z| := by
    have := abs_add_le (R.fl z - z) z
    rwa [sub_add_cancel] at this
  have e4 : R.u * |z| ≤ 1 / 100 * (38 / 100 * T) := mul_le_mul hus hz (abs_nonneg _) (by norm_num)
  have e5 : R.u * (t / 2) ≤ 1 / 100 * (t / 2) := mul_le_mul_of_nonneg_right hus (by linarith)
  linarith

/-- The line through the errors, with rounded numbers of the symbols and errors that are shifted by a constant. -/
theorem fit (mean : List ℚ → ℚ) (dot : List (ℚ × ℚ) → ℚ) (hmean : IsMean R d n mean) (hdot : IsProd R d n dot) {t c : ℚ} (x y : ℕ → ℚ)
    (hx : ∀ i < n, |x i - m i| ≤ R.u * m i) (hy : ∀ i < n, |y i - (c + m i * (T - t))| ≤ J + 100 * (R.u * (A + T))) (hB : ∀ i < n, |y i| ≤ 11 / 10 * T) :
    ∃ σ, slopeF R mean dot ((List.range n).map x) ((List.range n).map y) = some σ ∧ |σ - (T - t)| * ((n : ℚ) - 1) ≤ 7 / 2 * (J + η / 2) := by
  obtain ⟨hJ, hA, h3, h4, h5, -⟩ := consts h
  have hun := R.u_nonneg
  have hT := h.pos
  have hs := h.small
  have hq := h.quiet
  have h2 := h.two
  have h11 : (0 : ℚ) ≤ (n : ℚ) - 1 := by
    have : (2 : ℚ) ≤ n := by exact_mod_cast h2
    linarith
  obtain ⟨σ, h6, h7⟩ := slopeF_near R mean dot d n hmean hdot h.fine h.two m h.zero h.incr (h.dense.trans (mul_le_mul_of_nonneg_right (by norm_num) h11)) x y c (T - t) (J + 100 * (R.u * (A + T)))
    (11 / 10 * T) (by
      intro i hi
      refine (hx i hi).trans (mul_le_mul_of_nonneg_left ?_ hun)
      exact_mod_cast m_mono n m h.incr i (n - 1) (by omega) (by omega)) hy hB (by linarith)
  refine ⟨σ, h6, h7.trans ?_⟩
  have h8 : ((d : ℚ) + 1) * R.u * T ≤ (d + 1) * R.u * (A + T) := mul_le_mul_of_nonneg_left (by linarith) (by positivity)
  have h9 := h.eta
  linarith

theorem bits_near {t : ℚ} (ht : |t - T| ≤ 51 / 2500 * T) (hf : ∀ i < n, ⌊arg R e t i / t⌋ = m i) (i : ℕ) (hi : i < n) :
    |floorDivF R (arg R e t i) t - m i| ≤ R.u * m i := by
  have hT := h.pos
  have hun := R.u_nonneg
  have ht' := abs_le.1 ht
  have ht0 : 0 < t := by linarith
  have := floorDivF_near R (arg_props h ht i hi).1 ht0 (by
    rw [hf i hi, mul_assoc]
    have h1 := (total h).1
    have h2 : R.u * m i ≤ R.u * m (n - 1) := by
      refine mul_le_mul_of_nonneg_left ?_ hun
      exact_mod_cast m_mono n m h.incr i (n - 1) (by omega) (by omega)
    linarith)
  rwa [hf i hi] at this

end

/-! ### The score -/

theorem diffsF_range (R : Rounding) (n : ℕ) (f : ℕ → ℚ) :
    diffsF R ((List.range (n + 1)).map f) = (List.range n).map fun i : ℕ => R.fl (f (i + 1) - f i) := by
  induction n generalizing f with
  | zero => rfl
  | succ n ih =>
    have h1 : (List.range (n + 2)).map f = f 0 :: (List.range (n + 1)).map fun i => f (i + 1) := by
      rw [List.range_succ_eq_map, List.map_cons, List.map_map]
      rfl
    have h2 : (List.range (n + 1)).map (fun i => f (i + 1)) = f 1 :: (List.range n).map fun i => f (i + 2) := by
      rw [List.range_succ_eq_map, List.map_cons, List.map_map]
      rfl
    have h3 : (List.range (n + 1)).map (fun i : ℕ => R.fl (f (i + 1) - f i)) = R.fl (f 1 - f 0) :: (List.range n).map fun i : ℕ => R.fl (f (i + 2) - f (i + 1)) := by
      rw [List.range_succ_eq_map, List.map_cons, List.map_map]
      rfl
    rw [h1, h3, ← ih fun i => f (i + 1), h2]
    rfl

theorem disjointsF_zero (R : Rounding) (n : ℕ) (f : ℕ → ℚ) (t : ℚ) :
    disjointsF R ((List.range n).map f) t < 1 ↔ ∀ i, i + 1 < n → |R.fl (f (i + 1) - f i)| ≤ R.fl (t / 2) := by
  cases n with
  | zero => simp [disjointsF, diffsF]
  | succ n =>
    unfold disjointsF
    rw [Nat.lt_one_iff, diffsF_range, List.countP_eq_zero]
    simp only [List.mem_map, List.mem_range, decide_eq_true_eq, not_lt, forall_exists_index, and_imp, forall_apply_eq_imp_iff₂]
    constructor
    · intro h i hi
      exact h i (by omega)
    · intro h i hi
      exact h i (by omega)

/-- The edges start at zero. -/
def shifted (R : Rounding) (e : ℕ → ℚ) (n : ℕ) : List ℚ := (List.range n).map fun i => R.fl (e i - e 0)

section
variable {R : Rounding} {d n : ℕ} {e : ℕ → ℚ} {m : ℕ → ℤ} {s T J A η : ℚ} (h : Ticks R.u d n e m s T J A η)
include h

/-- There are no jumps. -/
def NoJumps (R : Rounding) (n : ℕ) (e : ℕ → ℚ) (t : ℚ) : Prop :=
  ∀ i, i + 1 < n → |R.fl (pyModF R (arg R e t (i + 1)) t - pyModF R (arg R e t i) t)| ≤ R.fl (t / 2)

/-- Without jumps the phase is within a period, and the line is nearly level. -/
theorem window {t : ℚ} (ht : |t - T| ≤ 51 / 2500 * T) (hj : NoJumps R n e t) (i : ℕ) (hi : i < n) :
    0 ≤ arg R e t i - m i * t ∧ arg R e t i - m i * t < t ∧ pyModF R (arg R e t i) t = arg R e t i - m i * t := by
  have hT := h.pos
  have ht' := abs_le.1 ht
  have ht0 : 0 < t := by linarith
  have hf := no_jump_floor h ht hj i hi
  have h6 := hf
  rw [Int.floor_eq_iff, le_div_iff₀ ht0, div_lt_iff₀ ht0] at h6
  refine ⟨by linarith, by linarith, ?_⟩
  rw [pyModF_nonneg R (arg_props h ht i hi).1 ht0, hf, mul_comm]

theorem level {t : ℚ} (ht : |t - T| ≤ 51 / 2500 * T) (hj : NoJumps R n e t) : |T - t| * ((n : ℚ) - 1) ≤ 11 / 10 * T := by
  obtain ⟨hJ, hA, h3, h4, h5, -⟩ := consts h
  have hT := h.pos
  have ht' := abs_le.1 ht
  have hs := h.small
  have hq := h.quiet
  have h2 := h.two
  have hn1 := (total h).2.2
  have a1 := line h ht 0 (by omega)
  have a2 := line h ht (n - 1) (by omega)
  obtain ⟨b1, b1', -⟩ := window h ht hj 0 (by omega)
  obtain ⟨b2, b2', -⟩ := window h ht hj (n - 1) (by omega)
  have hn0 : (2 : ℚ) ≤ n := by exact_mod_cast h2
  rw [h.zero] at a1 b1 b1'
  push_cast at a1 b1 b1'
  have a1' := abs_le.1 a1
  have a2' := abs_le.1 a2
  have h8 : |T - t| * m (n - 1) ≤ 11 / 10 * T := by
    have hm0 : (0 : ℚ) ≤ m (n - 1) := by linarith
    rw [← abs_of_nonneg hm0, ← abs_mul, abs_le]
    constructor <;> linarith
  exact (mul_le_mul_of_nonneg_left hn1 (abs_nonneg _)).trans h8

theorem slope_small {σ x : ℚ} (hσ : |σ - x| * ((n : ℚ) - 1) ≤ 7 / 2 * (J + η / 2)) (hx : |x| * ((n : ℚ) - 1) ≤ 11 / 10 * T) :
    -R.fl (1 - |σ|) < 1 := by
  obtain ⟨hJ, hA, h3, h4, h5, -⟩ := consts h
  have hT := h.pos
  have hus := R.u_small
  have hs := h.small
  have hq := h.quiet
  have h2 := h.two
  have hn0 : (2 : ℚ) ≤ n := by exact_mod_cast h2
  have hσ1 : |σ| * ((n : ℚ) - 1) ≤ 19 / 10 * ((n : ℚ) - 1) := by
    have h8 := abs_add_le (σ - x) x
    rw [sub_add_cancel] at h8
    have h9 := mul_le_mul_of_nonneg_right h8 (show (0 : ℚ) ≤ n - 1 by linarith)
    have hu := h.unit
    linarith
  have hσ' := le_of_mul_le_mul_right hσ1 (by linarith)
  have hz := R.err (1 - |σ|)
  have hz1 : abs (1 - |σ|) ≤ 1 := by
    have := abs_nonneg σ
    rw [abs_le]
    constructor <;> linarith
  have hz2 : R.u * abs (1 - |σ|) ≤ 1 / 100 * 1 := mul_le_mul hus hz1 (abs_nonneg _) (by norm_num)
  have hz' := abs_le.1 hz
  have h1 := hz'.1
  have h3 : -1 < R.fl (1 - |σ|) := by linarith
  linarith

/-- The line through the errors without jumps. -/
theorem fit_score (mean : List ℚ → ℚ) (dot : List (ℚ × ℚ) → ℚ) (hmean : IsMean R d n mean) (hdot : IsProd R d n dot) {t : ℚ}
    (ht : |t - T| ≤ 51 / 2500 * T) (hj : NoJumps R n e t) :
    ∃ σ, slopeF R mean dot ((List.range n).map fun i => floorDivF R (arg R e t i) t) ((List.range n).map fun i => pyModF R (arg R e t i) t) = some σ ∧
      |σ - (T - t)| * ((n : ℚ) - 1) ≤ 7 / 2 * (J + η / 2) := by
  obtain ⟨hJ, hA, h3, h4, h5, -⟩ := consts h
  have hT := h.pos
  have ht' := abs_le.1 ht
  have hf := no_jump_floor h ht hj
  refine fit h mean dot hmean hdot (t := t) (c := s - e 0 + t / 2) (fun i => floorDivF R (arg R e t i) t)
    (fun i => pyModF R (arg R e t i) t) (fun i hi => bits_near h ht hf i hi) ?_ ?_
  · intro i hi
    obtain ⟨-, -, h1⟩ := window h ht hj i hi
    simp only [h1]
    refine (line h ht i hi).trans ?_
    linarith
  · intro i hi
    obtain ⟨h1, h2, h6⟩ := window h ht hj i hi
    simp only [h6]
    rw [abs_of_nonneg h1]
    linarith

/-- The score is a number, less than one if and only if there are no jumps. -/
theorem score_spec (mean : List ℚ → ℚ) (dot : List (ℚ × ℚ) → ℚ) (hmean : IsMean R d n mean) (hdot : IsProd R d n dot) {t : ℚ}
    (ht : |t - T| ≤ 51 / 2500 * T) : ∃ x, tieScoreF R mean dot (shifted R e n) t = some x ∧ (x < 1 ↔ NoJumps R n e t) := by
  have e1 : (shifted R e n).map (fun e => R.fl (e + R.fl (t / 2))) = (List.range n).map (arg R e t) := by
    unfold shifted
    rw [List.map_map]
    rfl
  have e2 : ((List.range n).map (arg R e t)).map (fun x => pyModF R x t) = (List.range n).map fun i => pyModF R (arg R e t i) t := by
    rw [List.map_map]
    rfl
  have e3 : ((List.range n).map (arg R e t)).map (fun x => floorDivF R x t) = (List.range n).map fun i => floorDivF R (arg R e t i) t := by
    rw [List.map_map]
    rfl
  unfold tieScoreF
  simp only [e1, e2, e3]
  have hz : disjointsF R ((List.range n).map fun i => pyModF R (arg R e t i) t) t < 1 ↔ NoJumps R n e t :=
    disjointsF_zero R n (fun i => pyModF R (arg R e t i) t) t
  by_cases hj : NoJumps R n e t
  · rw [if_pos (hz.2 hj)]
    obtain ⟨σ, h6, h7⟩ := fit_score h mean dot hmean hdot ht hj
    exact ⟨-R.fl (1 - |σ|), by rw [h6]; rfl, iff_of_true (slope_small h h7 (level h ht hj)) hj⟩
  · have hd : ¬ disjointsF R ((List.range n).map fun i => pyModF R (arg R e t i) t) t < 1 := fun hc => hj (hz.1 hc)
    rw [if_neg hd]
    refine ⟨_, rfl, iff_of_false ?_ hj⟩
    push Not at hd ⊢
    exact_mod_cast hd

end

/-! ### The periods tested -/

theorem span_near (R : Rounding) (compiled : Bool) (lo hi : ℚ) (n : ℕ) (hn : 2 ≤ n) (h0 : 0 < lo) (h1 : lo ≤ hi) :
    (∀ t ∈ spanF R compiled lo hi n, lo - 5 * (R.u * hi) ≤ t ∧ t ≤ hi + 5 * (R.u * hi)) ∧
    ∀ x, lo ≤ x → x ≤ hi → ∃ t ∈ spanF R compiled lo hi n, |t - x| ≤ (hi - lo) / (n - 1 : ℕ) / 2 + 5 * (R.u * hi) := by
  have hun := R.u_nonneg
  have hus := R.u_small
  have hhi : 0 < hi := by linarith
  have huh : 0 ≤ R.u * hi := by positivity
  have huh2 : R.u * (R.u * hi) ≤ 1 / 100 * (R.u * hi) := mul_le_mul_of_nonneg_right hus huh
  obtain ⟨N, hN⟩ : ∃ N, n = N + 1 := ⟨n - 1, by omega⟩
  have hNn : n - 1 = N := by omega
  have hN0 : 0 < N := by omega
  have hNq : (0 : ℚ) < N := by exact_mod_cast hN0
  -- each one
  have key : ∀ i : ℕ, i ≤ N → lo ≤ lo + i * ((hi - lo) / N) ∧ lo + i * ((hi - lo) / N) ≤ hi ∧
      |R.fl (lo + R.fl (i * R.fl (R.fl (hi - lo) / N))) - (lo + i * ((hi - lo) / N))| ≤ 5 * (R.u * hi) := by
    intro i hi'
    have hb := (step_bounds R h1 hN0 i).2
    have hi0 : 0 ≤ (i : ℚ) * ((hi - lo) / N) := mul_nonneg (Nat.cast_nonneg _) (div_nonneg (by linarith) hNq.le)
    have hi1 : (i : ℚ) * ((hi - lo) / N) ≤ hi - lo := by
      have : (i : ℚ) ≤ N := by exact_mod_cast hi'
      calc (i : ℚ) * ((hi - lo) / N) ≤ N * ((hi - lo) / N) := mul_le_mul_of_nonneg_right this (div_nonneg (by linarith) hNq.le)
        _ = hi - lo := by field_simp
    refine ⟨by linarith, by linarith, ?_⟩
    generalize (i : ℚ) * ((hi - lo) / N) = z at *
    generalize R.fl ((i : ℚ) * R.fl (R.fl (hi - lo) / N)) = v at *
    have hz : 31 / 10 * R.u * z ≤ 31 / 10 * R.u * hi := mul_le_mul_of_nonneg_left (by linarith) (by linarith)
    have hv := abs_le.1 hb
    have he := R.err (lo + v)
    have hlv : |lo + v| ≤ hi + 31 / 10 * (R.u * hi) := by
      rw [abs_le]
      constructor <;> linarith
    have he2 : R.u * |lo + v| ≤ R.u * (hi + 31 / 10 * (R.u * hi)) := mul_le_mul_of_nonneg_left hlv hun
    rw [show R.fl (lo + v) - (lo + z) = (R.fl (lo + v) - (lo + v)) + (v - z) by ring]
    refine (abs_add_le _ _).trans ?_
    linarith
  -- the list
  have hlist : ∃ f : ℕ → ℚ, spanF R compiled lo hi n = (List.range n).map f ∧ ∀ i < n, |f i - (lo + i * ((hi - lo) / N))| ≤ 5 * (R.u * hi) := by
    cases compiled with
    | true =>
      refine ⟨fun i => R.fl (lo + R.fl (i * R.fl (R.fl (hi - lo) / N))), ?_, ?_⟩
      · unfold spanF
        rw [if_pos rfl, hNn]
      · intro i hi'
        exact (key i (by omega)).2.2
    | false =>
      refine ⟨gridF R lo hi N, ?_, ?_⟩
      · unfold spanF linspaceF
        rw [if_neg (by simp), hNn, hN]
      · intro i hi'
        unfold gridF
        by_cases hlt : i < N
        · rw [if_pos hlt, add_comm]
          exact (key i (by omega)).2.2
        · obtain rfl : i = N := by omega
          rw [if_neg hlt, if_neg (by omega)]
          rw [show hi - (lo + (i : ℚ) * ((hi - lo) / i)) = 0 by field_simp; ring, abs_zero]
          linarith
  obtain ⟨f, hf, hfn⟩ := hlist
  rw [hf]
  constructor
  · intro t ht
    obtain ⟨i, hi', rfl⟩ := List.mem_map.1 ht
    have hi'' := List.mem_range.1 hi'
    obtain ⟨k1, k2, -⟩ := key i (by omega)
    have := abs_le.1 (hfn i hi'')
    constructor <;> linarith
  · intro x hx1 hx2
    obtain ⟨t, ht, htx⟩ := linspace_near lo hi x N hN0 hx1 hx2
    unfold Stats.linspace at ht
    obtain ⟨i, hi', rfl⟩ := List.mem_map.1 ht
    have hi'' := List.mem_range.1 hi'
    refine ⟨f i, List.mem_map.2 ⟨i, List.mem_range.2 (by omega), rfl⟩, ?_⟩
    have h3 := hfn i (by omega)
    rw [hNn]
    rw [show f i - x = (f i - (lo + i * ((hi - lo) / N))) - (x - (lo + i * ((hi - lo) / N))) by ring]
    refine (abs_sub _ _).trans ?_
    linarith

/-! ### The search -/

section
variable {R : Rounding} {d n : ℕ} {e : ℕ → ℚ} {m : ℕ → ℤ} {s T J A η : ℚ} (h : Ticks R.u d n e m s T J A η)
include h

/-- The search ends in its first round with a period without jumps. -/
theorem search_ok (mean : List ℚ → ℚ) (dot : List (ℚ × ℚ) → ℚ) (hmean : IsMean R d n mean) (hdot : IsProd R d n dot)
    (sort : List Scored → List Scored) (hsort : Reorders sort) (hbest : BestFirst sort) (compiled : Bool) (left : ℕ) (lo hi : ℚ)
    (hclose : ∀ t ∈ spanF R compiled lo hi (firstPoints n), |t - T| ≤ 51 / 2500 * T)
    (hnear : ∃ t ∈ spanF R compiled lo hi (firstPoints n), NoJumps R n e t) :
    ∃ t ∈ spanF R compiled lo hi (firstPoints n), searchF R mean dot sort compiled ((List.range n).map e) 100 left lo hi = .ok t ∧ NoJumps R n e t := by
  obtain ⟨t1, ht1, hj1⟩ := hnear
  have h2 := h.two
  have hg : pyGet ((List.range n).map e) 0 = .ok (e 0) := by
    unfold pyGet
    rw [List.getElem?_map, List.getElem?_range (by omega)]
    rfl
  have hsh : ((List.range n).map e).map (fun x => R.fl (x - e 0)) = shifted R e n := by
    rw [List.map_map]
    rfl
  have hlen : (shifted R e n).length = n := by simp [shifted]
  have hsc : ∀ t ∈ spanF R compiled lo hi (firstPoints n), ∃ x, tieScoreF R mean dot (shifted R e n) t = some x ∧ (x < 1 ↔ NoJumps R n e t) :=
    fun t ht => score_spec h mean dot hmean hdot (hclose t ht)
  obtain ⟨scores, hscores⟩ : ∃ l, (spanF R compiled lo hi (firstPoints n)).map (fun t => (t, tieScoreF R mean dot (shifted R e n) t)) = l := ⟨_, rfl⟩
  have hnn : ∀ s ∈ scores, s.2 ≠ none := by
    intro s hs
    rw [← hscores] at hs
    obtain ⟨t, ht, rfl⟩ := List.mem_map.1 hs
    obtain ⟨x, hx, -⟩ := hsc t ht
    simp only [hx]
    exact Option.some_ne_none x
  have hts : tieScoresF R mean dot sort compiled (shifted R e n) (spanF R compiled lo hi (firstPoints n)) = .ok (sort scores) := by
    unfold tieScoresF
    simp only [hscores]
    rw [if_neg]
    rintro ⟨-, hc⟩
    obtain ⟨s, hs, hs'⟩ := List.any_eq_true.1 hc
    exact hnn s hs (Option.isNone_iff_eq_none.1 hs')
  obtain ⟨x1, hx1, hx1'⟩ := hsc t1 ht1
  have hm1 : (t1, some x1) ∈ scores := by
    rw [← hscores, ← hx1]
    exact List.mem_map.2 ⟨t1, ht1, rfl⟩
  obtain ⟨b, r, hbr⟩ : ∃ b r, sort scores = b :: r := by
    refine List.exists_cons_of_ne_nil fun hc => ?_
    have hp := (hsort scores).mem_iff (a := (t1, some x1))
    rw [hc] at hp
    exact List.not_mem_nil (hp.2 hm1)
  obtain ⟨y, hy, hyx⟩ := hbest scores hnn b r hbr _ hm1 x1 rfl
  have hy' : b.2 = some y := hy
  have hb : b ∈ scores := (hsort scores).mem_iff.1 (by rw [hbr]; exact List.mem_cons_self)
  rw [← hscores] at hb
  obtain ⟨t, ht, rfl⟩ := List.mem_map.1 hb
  have hy1 : y < 1 := lt_of_le_of_lt hyx (hx1'.2 hj1)
  refine ⟨t, ht, ?_, ?_⟩
  · unfold searchF
    simp only [hg, bind, Except.bind, hsh, hlen, hts, hbr]
    rw [if_pos]
    · rfl
    · simp only at hy'
      rw [hy']
      unfold scoreLt
      simp only [decide_eq_true_eq]
      linarith
  · obtain ⟨z, hz, hz'⟩ := hsc t ht
    simp only at hy'
    rw [hy'] at hz
    obtain rfl := Option.some.inj hz
    exact hz'.1 hy1

/-- The bounds of the search in cdr.py: one percent around a period that is at most 0.9 % off. -/
theorem bounds_ok {t0 lo hi : ℚ} (ht0 : |t0 - T| ≤ 9 / 1000 * T) (hlo : lo = R.fl (t0 * R.fl (1 - R.fl (1 / 100))))
    (hhi : hi = R.fl (t0 * R.fl (1 + R.fl (1 / 100)))) : 981 / 1000 * T ≤ lo ∧ lo ≤ T ∧ T ≤ hi ∧ hi ≤ 10193 / 10000 * T := by
  have hT := h.pos
  have hun := R.u_nonneg
  have hu5 : R.u ≤ 1 / 10 ^ 5 := by
    have h1 := h.fine
    have h2 : 0 ≤ (d : ℚ) * R.u := by positivity
    linarith
  have h0 := abs_le.1 ht0
  have ha := R.err (1 / 100)
  rw [abs_of_pos (by norm_num : (0 : ℚ) < 1 / 100)] at ha
  have ha' := abs_le.1 ha
  obtain ⟨a, haa⟩ : ∃ a, R.fl (1 / 100) = a := ⟨_, rfl⟩
  rw [haa] at ha' hlo hhi
  have hb := R.err (1 - a)
  have hc := R.err (1 + a)
  rw [abs_of_pos (show (0 : ℚ) < 1 - a by linarith)] at hb
  rw [abs_of_pos (show (0 : ℚ) < 1 + a by linarith)] at hc
  have hb' := abs_le.1 hb
  have hc' := abs_le.1 hc
  have hb2 : R.u * (1 - a) ≤ 1 / 10 ^ 5 * 1 := mul_le_mul hu5 (by linarith) (by linarith) (by norm_num)
  have hc2 : R.u * (1 + a) ≤ 1 / 10 ^ 5 * (11 / 10) := mul_le_mul hu5 (by linarith) (by linarith) (by norm_num)
  obtain ⟨b, hbb⟩ : ∃ b, R.fl (1 - a) = b := ⟨_, rfl⟩
  obtain ⟨c, hcc⟩ : ∃ c, R.fl (1 + a) = c := ⟨_, rfl⟩
  rw [hbb] at hb' hlo
  rw [hcc] at hc' hhi
  have b1 : 98998 / 100000 ≤ b := by linarith
  have b2 : b ≤ 99002 / 100000 := by linarith
  have c1 : 100998 / 100000 ≤ c := by linarith
  have c2 : c ≤ 101002 / 100000 := by linarith
  have t1 : 991 / 1000 * T ≤ t0 := by linarith
  have t2 : t0 ≤ 1009 / 1000 * T := by linarith
  have p1 : 991 / 1000 * T * (98998 / 100000) ≤ t0 * b := mul_le_mul t1 b1 (by norm_num) (by linarith)
  have p2 : t0 * b ≤ 1009 / 1000 * T * (99002 / 100000) := mul_le_mul t2 b2 (by linarith) (by linarith)
  have p3 : 991 / 1000 * T * (100998 / 100000) ≤ t0 * c := mul_le_mul t1 c1 (by norm_num) (by linarith)
  have p4 : t0 * c ≤ 1009 / 1000 * T * (101002 / 100000) := mul_le_mul t2 c2 (by linarith) (by linarith)
  have e1 := R.err (t0 * b)
  have e2 := R.err (t0 * c)
  rw [abs_of_pos (show (0 : ℚ) < t0 * b by linarith)] at e1
  rw [abs_of_pos (show (0 : ℚ) < t0 * c by linarith)] at e2
  rw [← hlo] at e1
  rw [← hhi] at e2
  have e1' := abs_le.1 e1
  have e2' := abs_le.1 e2
  have q1 : R.u * (t0 * b) ≤ 1 / 10 ^ 5 * (t0 * b) := mul_le_mul_of_nonneg_right hu5 (by linarith)
  have q2 : R.u * (t0 * c) ≤ 1 / 10 ^ 5 * (t0 * c) := mul_le_mul_of_nonneg_right hu5 (by linarith)
  refine ⟨?_, ?_, ?_, ?_⟩ <;> linarith

end

/-! ### The line through the errors -/

/-- The number of the symbol in the compiled loop, _cdr.pyx:182. -/
def rawBits (R : Rounding) (e : ℕ → ℚ) (t : ℚ) (i : ℕ) : ℤ := ⌊R.fl (arg R e t i / t)⌋

/-- The error before it is unwrapped, _cdr.pyx:183. -/
def rawTie (R : Rounding) (e : ℕ → ℚ) (t : ℚ) (i : ℕ) : ℚ := R.fl (R.fl (e i - e 0) - R.fl (rawBits R e t i * t))

section
variable {R : Rounding} {d n : ℕ} {e : ℕ → ℚ} {m : ℕ → ℤ} {s T J A η : ℚ} (h : Ticks R.u d n e m s T J A η)
include h

/-- The fitted period is accurate if the line is. -/
theorem period_near {t σ : ℚ} (hσ : |σ - (T - t)| * ((n : ℚ) - 1) ≤ 7 / 2 * (J + η / 2)) :
    |R.fl (t + σ) - T| * ((n : ℚ) - 1) ≤ 7 / 2 * (J + η) := by
  obtain ⟨hJ, hA, h3, h4, h5, -⟩ := consts h
  have hT := h.pos
  have hun := R.u_nonneg
  have hs := h.small
  have hq := h.quiet
  have h2 := h.two
  have hn0 : (2 : ℚ) ≤ n := by exact_mod_cast h2
  obtain ⟨-, h02, h03⟩ := total h
  have he := R.err (t + σ)
  have h1 : |σ - (T - t)| ≤ T := by
    have : |σ - (T - t)| * 1 ≤ |σ - (T - t)| * ((n : ℚ) - 1) := mul_le_mul_of_nonneg_left (by linarith) (abs_nonneg _)
    linarith
  have h1' := abs_le.1 h1
  have h6 : |t + σ| ≤ 2 * T := by
    rw [abs_le]
    constructor <;> linarith
  have h7 : |R.fl (t + σ) - T| ≤ R.u * (2 * T) + |σ - (T - t)| := by
    rw [show R.fl (t + σ) - T = (R.fl (t + σ) - (t + σ)) + (σ - (T - t)) by ring]
    refine (abs_add_le _ _).trans ?_
    have := mul_le_mul_of_nonneg_left h6 hun
    linarith
  have h8 := mul_le_mul_of_nonneg_right h7 (show (0 : ℚ) ≤ n - 1 by linarith)
  have h9 : R.u * (2 * T) * ((n : ℚ) - 1) ≤ R.u * (2 * T) * m (n - 1) := mul_le_mul_of_nonneg_left h03 (by positivity)
  linarith

/-- The fallback: nothing jumps, so the errors are those of the search. -/
theorem detrend_fallback (mean : List ℚ → ℚ) (dot : List (ℚ × ℚ) → ℚ) (hmean : IsMean R d n mean) (hdot : IsProd R d n dot) {t : ℚ}
    (ht : |t - T| ≤ 51 / 2500 * T) (hj : NoJumps R n e t) :
    ∃ T', detrendF R mean dot false ((List.range n).map e) t = .ok (some T') ∧ |T' - T| * ((n : ℚ) - 1) ≤ 7 / 2 * (J + η) := by
  obtain ⟨hJ, hA, h3, h4, h5, -⟩ := consts h
  have hT := h.pos
  have hun := R.u_nonneg
  have hus := R.u_small
  have hs := h.small
  have hq := h.quiet
  have h2 := h.two
  have ht' := abs_le.1 ht
  have ht0 : 0 < t := by linarith
  have hf := no_jump_floor h ht hj
  have hhalf := abs_le.1 (half_near R ht0)
  have hut : R.u * t ≤ 2 * (R.u * T) := by
    have := mul_le_mul_of_nonneg_left (show t ≤ 2 * T by linarith) hun
    linarith
  obtain ⟨y, hy⟩ : ∃ y : ℕ → ℚ, (fun i => R.fl (pyModF R (arg R e t i) t - R.fl (t / 2))) = y := ⟨_, rfl⟩
  have hyi : ∀ i < n, |y i - (arg R e t i - m i * t - t / 2)| ≤ 3 * (R.u * T) ∧ |y i| ≤ 6 / 10 * T := by
    intro i hi
    obtain ⟨w1, w2, w3⟩ := window h ht hj i hi
    have h6 := R.err (pyModF R (arg R e t i) t - R.fl (t / 2))
    rw [show R.fl (pyModF R (arg R e t i) t - R.fl (t / 2)) = y i by rw [← hy], w3] at h6
    have h7 : |arg R e t i - m i * t - R.fl (t / 2)| ≤ t := by
      rw [abs_le]
      constructor <;> linarith
    have h8 := abs_le.1 (h6.trans (mul_le_mul_of_nonneg_left h7 hun))
    constructor
    · rw [abs_le]
      constructor <;> linarith
    · rw [abs_le]
      constructor <;> linarith
  have hg : pyGet ((List.range n).map e) 0 = .ok (e 0) := by
    unfold pyGet
    rw [List.getElem?_map, List.getElem?_range (by omega)]
    rfl
  have hun' : unwrapF R ((List.range n).map e) (e 0) t = (List.range n).map fun i => (floorDivF R (arg R e t i) t, y i) := by
    unfold unwrapF
    simp only [List.map_map]
    have e1 : ((fun x => (floorDivF R x t, R.fl (pyModF R x t - R.fl (t / 2)))) ∘ (fun e' => R.fl (R.fl (e' - e 0) + R.fl (t / 2))) ∘ e) =
        fun i => (floorDivF R (arg R e t i) t, y i) := by
      rw [← hy]
      rfl
    rw [e1]
    have e2 : (Prod.snd ∘ fun i => (floorDivF R (arg R e t i) t, y i)) = y := rfl
    rw [e2]
    have e3 : ((diffsF R ((List.range n).map y)).zipIdx.filter fun d => decide (R.fl (t / 2) < |d.1|)) = [] := by
      rw [List.filter_eq_nil_iff]
      intro a ha
      have ha' := List.fst_mem_of_mem_zipIdx ha
      obtain ⟨k, rfl⟩ : ∃ k, n = k + 1 := ⟨n - 1, by omega⟩
      rw [diffsF_range] at ha'
      obtain ⟨i, hi, hai⟩ := List.mem_map.1 ha'
      have hi' := List.mem_range.1 hi
      rw [← hai]
      simp only [decide_eq_true_eq, not_lt]
      have c1 := abs_le.1 (change_small h ht i (by omega))
      have c2 := abs_le.1 (hyi i (by omega)).1
      have c3 := abs_le.1 (hyi (i + 1) (by omega)).1
      have c4 : |y (i + 1) - y i| ≤ 32 / 100 * T := by
        rw [abs_le]
        constructor <;> linarith
      have c5 := R.err (y (i + 1) - y i)
      have c6 : R.u * |y (i + 1) - y i| ≤ 1 / 100 * (32 / 100 * T) := mul_le_mul hus c4 (abs_nonneg _) (by norm_num)
      have c7 := abs_add_le (R.fl (y (i + 1) - y i) - (y (i + 1) - y i)) (y (i + 1) - y i)
      rw [sub_add_cancel] at c7
      linarith
    rw [e3]
    rfl
  obtain ⟨σ, h6, h7⟩ := fit h mean dot hmean hdot (t := t) (c := s - e 0) (fun i => floorDivF R (arg R e t i) t) y
    (fun i hi => bits_near h ht hf i hi)
    (by
      intro i hi
      have c1 := abs_le.1 (line h ht i hi)
      have c2 := abs_le.1 (hyi i hi).1
      rw [abs_le]
      constructor <;> linarith)
    (by
      intro i hi
      have := (hyi i hi).2
      linarith)
  refine ⟨R.fl (t + σ), ?_, period_near h h7⟩
  unfold detrendF
  simp only [hg, bind, Except.bind, if_neg (show ¬ false = true by simp), hun', List.map_map]
  have e4 : (Prod.fst ∘ fun i => (floorDivF R (arg R e t i) t, y i)) = fun i => floorDivF R (arg R e t i) t := rfl
  have e5 : (Prod.snd ∘ fun i => (floorDivF R (arg R e t i) t, y i)) = y := rfl
  rw [e4, e5, h6]
  rfl

theorem raw_bits {t : ℚ} (ht : |t - T| ≤ 51 / 2500 * T) (hj : NoJumps R n e t) (i : ℕ) (hi : i < n) :
    rawBits R e t i = m i ∨ (rawBits R e t i = m i + 1 ∧ 9 / 10 * t ≤ arg R e t i - m i * t) ∨
      (rawBits R e t i = m i - 1 ∧ arg R e t i - m i * t ≤ 1 / 10 * t) := by
  have hT := h.pos
  have hun := R.u_nonneg
  have hus := R.u_small
  have h2 := h.two
  have ht' := abs_le.1 ht
  have ht0 : 0 < t := by linarith
  have hf := no_jump_floor h ht hj i hi
  have ha := (arg_props h ht i hi).1
  obtain ⟨z, hz⟩ : ∃ z, arg R e t i / t = z := ⟨_, rfl⟩
  have hza : arg R e t i = z * t := by
    rw [← hz]
    field_simp
  have hz0 : 0 ≤ z := by
    rw [← hz]
    positivity
  rw [hz] at hf
  have hf' := Int.floor_eq_iff.1 hf
  have he := R.err z
  rw [abs_of_nonneg hz0] at he
  have hum : R.u * z ≤ 1 / 50 := by
    have h1 := (total h).1
    have h3 : R.u * m i ≤ R.u * m (n - 1) := by
      refine mul_le_mul_of_nonneg_left ?_ hun
      exact_mod_cast m_mono n m h.incr i (n - 1) (by omega) (by omega)
    have h4 := mul_le_mul_of_nonneg_left hf'.2.le hun
    linarith
  have he' := abs_le.1 (he.trans hum)
  unfold rawBits
  rw [hz, hza]
  obtain ⟨b, hb⟩ : ∃ b, ⌊R.fl z⌋ = b := ⟨_, rfl⟩
  rw [hb]
  have hb' := Int.floor_eq_iff.1 hb
  have h5 : b < m i + 2 := by
    have : (b : ℚ) < m i + 2 := by linarith
    exact_mod_cast this
  have h6 : m i - 2 < b := by
    have : ((m i : ℚ)) - 2 < b := by linarith
    exact_mod_cast this
  rcases (by omega : b = m i ∨ b = m i + 1 ∨ b = m i - 1) with h7 | h7 | h7
  · exact Or.inl h7
  · refine Or.inr (Or.inl ⟨h7, ?_⟩)
    rw [h7] at hb'
    push_cast at hb'
    rw [← sub_mul]
    exact mul_le_mul_of_nonneg_right (by linarith) ht0.le
  · refine Or.inr (Or.inr ⟨h7, ?_⟩)
    rw [h7] at hb'
    push_cast at hb'
    rw [← sub_mul]
    exact mul_le_mul_of_nonneg_right (by linarith) ht0.le

theorem raw_tie {t : ℚ} (ht : |t - T| ≤ 51 / 2500 * T) (hj : NoJumps R n e t) (i : ℕ) (hi : i < n) :
    |rawTie R e t i - (arg R e t i - m i * t - t / 2 - (rawBits R e t i - m i : ℤ) * t)| ≤ 30 * (R.u * (A + T)) := by
  obtain ⟨hJ, hA, h3, h4, h5, -⟩ := consts h
  have hT := h.pos
  have hun := R.u_nonneg
  have hus := R.u_small
  have h2 := h.two
  have hs := h.small
  have ht' := abs_le.1 ht
  have ht0 : 0 < t := by linarith
  obtain ⟨w1, w2, -⟩ := window h ht hj i hi
  have hb : |((rawBits R e t i - m i : ℤ) : ℚ)| ≤ 1 := by
    rcases raw_bits h ht hj i hi with hb | ⟨hb, -⟩ | ⟨hb, -⟩ <;> rw [hb] <;> simp
  obtain ⟨k, hk⟩ : ∃ k : ℤ, rawBits R e t i - m i = k := ⟨_, rfl⟩
  have hkb : (rawBits R e t i : ℚ) = m i + k := by
    rw [← hk]
    push_cast
    ring
  rw [hk] at hb ⊢
  unfold rawTie
  rw [hkb]
  have hk' := abs_le.1 hb
  have hkt : |(k : ℚ) * t| ≤ t := by
    rw [abs_mul, abs_of_pos ht0]
    have := mul_le_mul_of_nonneg_right hb ht0.le
    linarith
  have hkt' := abs_le.1 hkt
  have hm0 : 0 ≤ m i := by
    have := m_mono n m h.incr 0 i (by omega) (by omega)
    rwa [h.zero] at this
  have hm0' : (0 : ℚ) ≤ m i := by exact_mod_cast hm0
  have hmi : (m i : ℚ) ≤ m (n - 1) := by exact_mod_cast m_mono n m h.incr i (n - 1) (by omega) (by omega)
  -- the product
  have hp := R.err ((m i + k) * t)
  have hp1 : |((m i : ℚ) + k) * t| ≤ 11 / 10 * (m (n - 1) * T) + 11 / 10 * T := by
    have q1 : (m i : ℚ) * t ≤ m (n - 1) * (11 / 10 * T) := mul_le_mul hmi (by linarith) ht0.le (by linarith)
    have q2 : 0 ≤ (m i : ℚ) * t := by positivity
    rw [add_mul, abs_le]
    constructor <;> linarith
  have hp2 := mul_le_mul_of_nonneg_left hp1 hun
  obtain ⟨-, h02, -⟩ := total h
  have hp3 := abs_le.1 (hp.trans (hp2.trans (show _ ≤ 5 * (R.u * (A + T)) by linarith)))
  -- the edge
  have he := R.err (e i - e 0)
  have he1 : |e i - e 0| ≤ 2 * A := by
    have b1 := abs_le.1 (h.bound i hi)
    have b2 := abs_le.1 (h.bound 0 (by omega))
    rw [abs_le]
    constructor <;> linarith
  have huA : R.u * A ≤ R.u * (A + T) := mul_le_mul_of_nonneg_left (by linarith) hun
  have he2 := abs_le.1 (he.trans ((mul_le_mul_of_nonneg_left he1 hun).trans (show _ ≤ 2 * (R.u * (A + T)) by linarith)))
  have ha := abs_le.1 (arg_props h ht i hi).2
  obtain ⟨E, hE⟩ : ∃ E, R.fl (e i - e 0) = E := ⟨_, rfl⟩
  obtain ⟨p, hpp⟩ : ∃ p, R.fl (((m i : ℚ) + k) * t) = p := ⟨_, rfl⟩
  rw [hE] at he2 ⊢
  rw [hpp] at hp3 ⊢
  have hexp : ((m i : ℚ) + k) * t = m i * t + k * t := by ring
  rw [hexp] at hp3
  have hf := R.err (E - p)
  have hf1 : |E - p| ≤ 2 * T := by
    rw [abs_le]
    constructor <;> linarith
  have hf2 := abs_le.1 (hf.trans ((mul_le_mul_of_nonneg_left hf1 hun).trans (show _ ≤ 2 * (R.u * (A + T)) by linarith)))
  rw [abs_le]
  constructor <;> linarith

theorem raw_step {t : ℚ} (ht : |t - T| ≤ 51 / 2500 * T) (hj : NoJumps R n e t) (i : ℕ) (hi : i + 1 < n) :
    (rawBits R e t (i + 1) - m (i + 1) = rawBits R e t i - m i ∧ ¬ R.fl (rawTie R e t (i + 1) - rawTie R e t i) < -R.fl (t / 2) ∧
      ¬ R.fl (t / 2) < R.fl (rawTie R e t (i + 1) - rawTie R e t i)) ∨
    (rawBits R e t (i + 1) - m (i + 1) = rawBits R e t i - m i + 1 ∧ R.fl (rawTie R e t (i + 1) - rawTie R e t i) < -R.fl (t / 2)) ∨
    (rawBits R e t (i + 1) - m (i + 1) = rawBits R e t i - m i - 1 ∧ ¬ R.fl (rawTie R e t (i + 1) - rawTie R e t i) < -R.fl (t / 2) ∧
      R.fl (t / 2) < R.fl (rawTie R e t (i + 1) - rawTie R e t i)) := by
  obtain ⟨hJ, hA, h3, h4, h5, -⟩ := consts h
  have hT := h.pos
  have hus := R.u_small
  have hs := h.small
  have ht' := abs_le.1 ht
  have ht0 : 0 < t := by linarith
  have hhalf := abs_le.1 (half_near R ht0)
  have hut : R.u * (t / 2) ≤ 1 / 100 * (t / 2) := mul_le_mul_of_nonneg_right hus (by linarith)
  have c1 := abs_le.1 (change_small h ht i hi)
  have r1 := abs_le.1 (raw_tie h ht hj i (by omega))
  have r2 := abs_le.1 (raw_tie h ht hj (i + 1) hi)
  have b1 := raw_bits h ht hj i (by omega)
  have b2 := raw_bits h ht hj (i + 1) hi
  obtain ⟨k, hk⟩ : ∃ k : ℤ, rawBits R e t i - m i = k := ⟨_, rfl⟩
  obtain ⟨l, hl⟩ : ∃ l : ℤ, rawBits R e t (i + 1) - m (i + 1) = l := ⟨_, rfl⟩
  rw [hk] at r1 ⊢
  rw [hl] at r2 ⊢
  have he := R.err (rawTie R e t (i + 1) - rawTie R e t i)
  obtain ⟨x, hx⟩ : ∃ x, rawTie R e t (i + 1) - rawTie R e t i = x := ⟨_, rfl⟩
  have hxb : |x - -((l - k : ℤ) : ℚ) * t| ≤ 32 / 100 * T := by
    rw [← hx, abs_le]
    push_cast
    constructor <;> linarith
  rw [hx] at he ⊢
  have hxb' := abs_le.1 hxb
  have key : l - k = 0 ∨ l - k = 1 ∨ l - k = -1 := by
    rcases b1 with b1 | ⟨b1, b1'⟩ | ⟨b1, b1'⟩ <;> rcases b2 with b2 | ⟨b2, b2'⟩ | ⟨b2, b2'⟩
    · omega
    · omega
    · omega
    · omega
    · omega
    · linarith
    · omega
    · linarith
    · omega
  have hx2 : |x| ≤ 2 * T := by
    have : |((l - k : ℤ) : ℚ) * t| ≤ t := by
      rw [abs_mul, abs_of_pos ht0]
      have : |((l - k : ℤ) : ℚ)| ≤ 1 := by
        rcases key with h' | h' | h' <;> rw [h'] <;> simp
      have := mul_le_mul_of_nonneg_right this ht0.le
      linarith
    have := abs_le.1 this
    rw [abs_le]
    constructor <;> linarith
  have he2 : R.u * |x| ≤ 1 / 100 * (2 * T) := mul_le_mul hus hx2 (abs_nonneg _) (by norm_num)
  have he' := abs_le.1 (he.trans he2)
  rcases key with h' | h' | h'
  · refine Or.inl ⟨by omega, ?_, ?_⟩ <;> rw [h'] at hxb' <;> push_cast at hxb' <;> push Not <;> linarith
  · refine Or.inr (Or.inl ⟨by omega, ?_⟩)
    rw [h'] at hxb'
    push_cast at hxb'
    linarith
  · refine Or.inr (Or.inr ⟨by omega, ?_, ?_⟩) <;> rw [h'] at hxb' <;> push_cast at hxb' <;> try push Not
    · linarith
    · linarith

/-- The compiled loop unwraps. -/
theorem unwrap_compiled {t : ℚ} (ht : |t - T| ≤ 51 / 2500 * T) (hj : NoJumps R n e t)
    (hfix : ∀ k : ℤ, |k| ≤ 1 → R.fl k = k ∧ R.fl (k * t) = k * t) (c : ℕ) : ∀ i, i + c + 1 ≤ n →
    unwrapCF R (e 0) t ((List.range c).map fun j => e (i + 1 + j)) (rawTie R e t i) (-(rawBits R e t i - m i : ℤ)) ((rawBits R e t i - m i : ℤ) * t) =
      (List.range c).map fun j => (R.fl (rawBits R e t (i + 1 + j) + -(rawBits R e t (i + 1 + j) - m (i + 1 + j) : ℤ)),
        R.fl (rawTie R e t (i + 1 + j) + (rawBits R e t (i + 1 + j) - m (i + 1 + j) : ℤ) * t)) := by
  induction c with
  | zero => intro i _; rfl
  | succ c ih =>
    intro i hi
    have e1 : ∀ {α : Type} (f : ℕ → α), (List.range (c + 1)).map (fun j => f (i + 1 + j)) = f (i + 1) :: (List.range c).map fun j => f (i + 1 + 1 + j) := by
      intro α f
      rw [List.range_succ_eq_map, List.map_cons, List.map_map]
      congr 1
      apply List.map_congr_left
      intro j _
      simp only [Function.comp]
      congr 1
      omega
    rw [e1 e, e1 fun j => (R.fl (rawBits R e t j + -(rawBits R e t j - m j : ℤ)), R.fl (rawTie R e t j + (rawBits R e t j - m j : ℤ) * t))]
    rw [← ih (i + 1) (by omega)]
    have hb : |rawBits R e t (i + 1) - m (i + 1)| ≤ 1 := by
      rcases raw_bits h ht hj (i + 1) (by omega) with hb | ⟨hb, -⟩ | ⟨hb, -⟩ <;> rw [hb] <;> simp
    obtain ⟨f1, f2⟩ := hfix _ hb
    obtain ⟨f3, -⟩ := hfix (-(rawBits R e t (i + 1) - m (i + 1))) (by rwa [abs_neg])
    have hstep := raw_step h ht hj i (by omega)
    obtain ⟨l, hl⟩ : ∃ l : ℤ, rawBits R e t (i + 1) - m (i + 1) = l := ⟨_, rfl⟩
    obtain ⟨k, hk⟩ : ∃ k : ℤ, rawBits R e t i - m i = k := ⟨_, rfl⟩
    rw [hl, hk] at hstep
    rw [hl] at f1 f2 f3
    have ho : (if R.fl (rawTie R e t (i + 1) - rawTie R e t i) < -R.fl (t / 2) then (R.fl (-(k : ℚ) + -1), R.fl (k * t + t))
      else if R.fl (t / 2) < R.fl (rawTie R e t (i + 1) - rawTie R e t i) then (R.fl (-(k : ℚ) + 1), R.fl (k * t + -t)) else (-(k : ℚ), k * t)) =
        ((-(l : ℚ), l * t) : ℚ × ℚ) := by
      rcases hstep with ⟨a1, a2, a3⟩ | ⟨a1, a2⟩ | ⟨a1, a2, a3⟩
      · rw [if_neg a2, if_neg a3, a1]
      · rw [if_pos a2]
        rw [show -(k : ℚ) + -1 = ((-l : ℤ) : ℚ) by rw [a1]; push_cast; ring, show (k : ℚ) * t + t = l * t by rw [a1]; push_cast; ring, f2, f3]
        push_cast
        rfl
      · rw [if_neg a2, if_pos a3]
        rw [show -(k : ℚ) + 1 = ((-l : ℤ) : ℚ) by rw [a1]; push_cast; ring, show (k : ℚ) * t + -t = l * t by rw [a1]; push_cast; ring, f2, f3]
        push_cast
        rfl
    rw [hl, hk]
    conv_lhs => unfold unwrapCF
    change (R.fl (rawBits R e t (i + 1) + (if R.fl (rawTie R e t (i + 1) - rawTie R e t i) < -R.fl (t / 2) then (R.fl (-(k : ℚ) + -1), R.fl (k * t + t))
      else if R.fl (t / 2) < R.fl (rawTie R e t (i + 1) - rawTie R e t i) then (R.fl (-(k : ℚ) + 1), R.fl (k * t + -t)) else (-(k : ℚ), k * t)).1),
      R.fl (rawTie R e t (i + 1) + (if R.fl (rawTie R e t (i + 1) - rawTie R e t i) < -R.fl (t / 2) then (R.fl (-(k : ℚ) + -1), R.fl (k * t + t))
      else if R.fl (t / 2) < R.fl (rawTie R e t (i + 1) - rawTie R e t i) then (R.fl (-(k : ℚ) + 1), R.fl (k * t + -t)) else (-(k : ℚ), k * t)).2)) ::
      unwrapCF R (e 0) t _ (rawTie R e t (i + 1)) (if R.fl (rawTie R e t (i + 1) - rawTie R e t i) < -R.fl (t / 2) then (R.fl (-(k : ℚ) + -1), R.fl (k * t + t))
      else if R.fl (t / 2) < R.fl (rawTie R e t (i + 1) - rawTie R e t i) then (R.fl (-(k : ℚ) + 1), R.fl (k * t + -t)) else (-(k : ℚ), k * t)).1
      (if R.fl (rawTie R e t (i + 1) - rawTie R e t i) < -R.fl (t / 2) then (R.fl (-(k : ℚ) + -1), R.fl (k * t + t))
      else if R.fl (t / 2) < R.fl (rawTie R e t (i + 1) - rawTie R e t i) then (R.fl (-(k : ℚ) + 1), R.fl (k * t + -t)) else (-(k : ℚ), k * t)).2 = _
    rw [ho]

/-- The compiled version. -/
theorem detrend_compiled (mean : List ℚ → ℚ) (dot : List (ℚ × ℚ) → ℚ) (hmean : IsMean R d n mean) (hdot : IsProd R d n dot) {t : ℚ}
    (ht : |t - T| ≤ 51 / 2500 * T) (hj : NoJumps R n e t) (hfix : ∀ k : ℤ, |k| ≤ 1 → R.fl k = k ∧ R.fl (k * t) = k * t) :
    ∃ T', detrendF R mean dot true ((List.range n).map e) t = .ok (some T') ∧ |T' - T| * ((n : ℚ) - 1) ≤ 7 / 2 * (J + η) := by
  obtain ⟨hJ, hA, h3, h4, h5, -⟩ := consts h
  have hT := h.pos
  have hun := R.u_nonneg
  have hs := h.small
  have hq := h.quiet
  have h2 := h.two
  have ht' := abs_le.1 ht
  have ht0 : 0 < t := by linarith
  obtain ⟨x, hx⟩ : ∃ x : ℕ → ℚ, (fun i => R.fl (rawBits R e t i + -(rawBits R e t i - m i : ℤ))) = x := ⟨_, rfl⟩
  obtain ⟨y, hy⟩ : ∃ y : ℕ → ℚ, (fun i => R.fl (rawTie R e t i + (rawBits R e t i - m i : ℤ) * t)) = y := ⟨_, rfl⟩
  have hg : pyGet ((List.range n).map e) 0 = .ok (e 0) := by
    unfold pyGet
    rw [List.getElem?_map, List.getElem?_range (by omega)]
    rfl
  have hb0 : rawBits R e t 0 = 0 := by
    have hf := abs_le.1 (first_error h ht)
    have hz := h.zero
    rcases raw_bits h ht hj 0 (by omega) with hb | ⟨-, hb⟩ | ⟨-, hb⟩
    · rw [hb, hz]
    · linarith
    · linarith
  have ht00 : rawTie R e t 0 = 0 := by
    unfold rawTie
    rw [hb0]
    simp [fl_zero]
  have hx0 : x 0 = 0 := by
    rw [← hx]
    simp only [hb0, h.zero]
    simp [fl_zero]
  have hy0 : y 0 = 0 := by
    rw [← hy]
    simp only [hb0, h.zero, ht00]
    simp [fl_zero]
  obtain ⟨c, hc⟩ : ∃ c, n = c + 1 := ⟨n - 1, by omega⟩
  have hlist : ((0 : ℚ), (0 : ℚ)) :: unwrapCF R (e 0) t ((List.range n).map e).tail 0 0 0 = (List.range n).map fun i => (x i, y i) := by
    have hu := unwrap_compiled h ht hj hfix c 0 (by omega)
    rw [hb0, h.zero, ht00] at hu
    simp only [sub_self, Int.cast_zero, neg_zero, zero_mul] at hu
    have e1 : ((List.range n).map e).tail = (List.range c).map fun j => e (0 + 1 + j) := by
      rw [hc, List.range_succ_eq_map, List.map_cons, List.tail_cons, List.map_map]
      apply List.map_congr_left
      intro j _
      simp only [Function.comp]
      congr 1
      omega
    rw [e1, hu, hc]
    conv_rhs => rw [List.range_succ_eq_map, List.map_cons, List.map_map, hx0, hy0]
    congr 1
    apply List.map_congr_left
    intro j _
    rw [← hx, ← hy]
    simp only [Function.comp, show 0 + 1 + j = j.succ by omega]
  have hxi : ∀ i < n, |x i - m i| ≤ R.u * m i := by
    intro i hi
    have hm0 : 0 ≤ m i := by
      have := m_mono n m h.incr 0 i (by omega) (by omega)
      rwa [h.zero] at this
    have he := R.err (m i : ℚ)
    rw [abs_of_nonneg (by exact_mod_cast hm0 : (0 : ℚ) ≤ m i)] at he
    rw [← hx]
    simp only
    rw [show ((rawBits R e t i : ℤ) : ℚ) + -((rawBits R e t i - m i : ℤ) : ℚ) = m i by push_cast; ring]
    exact he
  have hyi : ∀ i < n, |y i - (arg R e t i - m i * t - t / 2)| ≤ 31 * (R.u * (A + T)) ∧ |y i| ≤ 6 / 10 * T := by
    intro i hi
    obtain ⟨w1, w2, -⟩ := window h ht hj i hi
    have r1 := abs_le.1 (raw_tie h ht hj i hi)
    obtain ⟨z, hz⟩ : ∃ z, rawTie R e t i + (rawBits R e t i - m i : ℤ) * t = z := ⟨_, rfl⟩
    have hyz : y i = R.fl z := by rw [← hy, ← hz]
    have he := R.err z
    have hz1 : |z - (arg R e t i - m i * t - t / 2)| ≤ 30 * (R.u * (A + T)) := by
      rw [← hz, abs_le]
      constructor <;> linarith
    have hz' := abs_le.1 hz1
    have hz2 : |z| ≤ T := by
      rw [abs_le]
      constructor <;> linarith
    have he' := abs_le.1 (he.trans (mul_le_mul_of_nonneg_left hz2 hun))
    rw [hyz]
    constructor
    · rw [abs_le]
      constructor <;> linarith
    · rw [abs_le]
      constructor <;> linarith
  obtain ⟨σ, h6, h7⟩ := fit h mean dot hmean hdot (t := t) (c := s - e 0) x y hxi
    (by
      intro i hi
      have c1 := abs_le.1 (line h ht i hi)
      have c2 := abs_le.1 (hyi i hi).1
      rw [abs_le]
      constructor <;> linarith)
    (by
      intro i hi
      have := (hyi i hi).2
      linarith)
  refine ⟨R.fl (t + σ), ?_, period_near h h7⟩
  unfold detrendF
  simp only [hg, bind, Except.bind, if_true, hlist, List.map_map]
  have e4 : (Prod.fst ∘ fun i => (x i, y i)) = x := rfl
  have e5 : (Prod.snd ∘ fun i => (x i, y i)) = y := rfl
  rw [e4, e5, h6]
  rfl

end

/-- The periods tested are floats. -/
theorem span_floats (R : Floats) (compiled : Bool) (lo hi : ℚ) (n : ℕ) (hlo : R.fl lo = lo) (hhi : R.fl hi = hi) :
    ∀ t ∈ spanF R.toRounding compiled lo hi n, R.fl t = t := by
  intro t ht
  unfold spanF at ht
  split at ht
  · obtain ⟨i, -, rfl⟩ := List.mem_map.1 ht
    exact R.idem _
  · unfold linspaceF at ht
    obtain ⟨i, -, rfl⟩ := List.mem_map.1 ht
    unfold gridF
    split
    · exact R.idem _
    · split
      · exact hlo
      · exact hhi

theorem fixed_small (R : Floats) {t : ℚ} (ht : R.fl t = t) (k : ℤ) (hk : |k| ≤ 1) : R.fl k = k ∧ R.fl (k * t) = k * t := by
  have := abs_le.1 hk
  rcases (by omega : k = 0 ∨ k = 1 ∨ k = -1) with rfl | rfl | rfl
  · simp [fl_zero R.toRounding]
  · simp [R.one, ht]
  · push_cast
    rw [neg_one_mul, R.neg, R.neg, R.one, ht]
    simp

/-! ### The period -/

theorem sum_range (f : ℕ → ℚ) (k : ℕ) : ((List.range k).map fun i : ℕ => f (i + 1) - f i).sum = f k - f 0 := by
  induction k with
  | zero => simp
  | succ k ih =>
    rw [List.range_succ, List.map_append, List.sum_append, ih]
    simp

section
variable {R : Floats} {d n : ℕ} {e : ℕ → ℚ} {m : ℕ → ℤ} {s T J A η : ℚ} (h : Ticks R.u d n e m s T J A η)
include h

/-- Step 1 accepts the edges. -/
theorem symbols_ok (mean : List ℚ → ℚ) (hmean : IsMean R.toRounding d n mean) {t0 : ℚ} (ht0 : |t0 - T| ≤ 9 / 1000 * T) :
    ¬ (mean ((diffsF R.toRounding ((List.range n).map e)).map fun p => (⌊R.fl (R.fl (p / t0) + 1 / 2)⌋ : ℚ)) < R.fl (9 / 10) ∨
      5 < mean ((diffsF R.toRounding ((List.range n).map e)).map fun p => (⌊R.fl (R.fl (p / t0) + 1 / 2)⌋ : ℚ))) := by
  obtain ⟨hJ, hA, h3, h4, h5, -⟩ := consts h
  have hT := h.pos
  have hus := R.u_small
  have hs := h.small
  have hq := h.quiet
  have h2 := h.two
  have h0 := abs_le.1 ht0
  have hpos : 0 < t0 := by linarith
  obtain ⟨c, hc⟩ : ∃ c, n = c + 1 := ⟨n - 1, by omega⟩
  have hnc : (n : ℚ) - 1 = c := by rw [hc]; push_cast; ring
  have hc1 : n - 1 = c := by omega
  have hlist : (diffsF R.toRounding ((List.range n).map e)).map (fun p => (⌊R.fl (R.fl (p / t0) + 1 / 2)⌋ : ℚ)) =
      (List.range c).map fun i : ℕ => (m (i + 1) : ℚ) - m i := by
    rw [hc, diffsF_range, List.map_map]
    apply List.map_congr_left
    intro i hi
    have hi' := List.mem_range.1 hi
    simp only [Function.comp]
    have g1 := abs_le.1 (h.near i (by omega))
    have g2 := abs_le.1 (h.near (i + 1) (by omega))
    have i1 := h.incr i (by omega)
    have i2 := h.gap i (by omega)
    have i1' : (0 : ℚ) ≤ m (i + 1) - m i := by
      have : (m i : ℚ) < m (i + 1) := by exact_mod_cast i1
      linarith
    have i2' : (m (i + 1) : ℚ) - m i ≤ 12 := by
      have : (m (i + 1) : ℚ) ≤ m i + 12 := by exact_mod_cast i2
      linarith
    have hprod : |((m (i + 1) : ℚ) - m i) * (T - t0)| ≤ 12 * (9 / 1000 * T) := by
      rw [abs_mul, abs_of_nonneg i1', abs_sub_comm]
      exact mul_le_mul i2' ht0 (abs_nonneg _) (by norm_num)
    have hprod' := abs_le.1 hprod
    have := gap_symbols R.toRounding (A := A) (T := t0) (J := 12 * (9 / 1000 * T) + 2 * J) (s := e i - m i * t0) (k := m i) (k' := m (i + 1))
      (e := e i) (e' := e (i + 1)) hpos (h.bound i (by omega)) (h.bound (i + 1) (by omega))
      (by
        have : R.u * (A + t0) ≤ 2 * (R.u * (A + T)) := by
          have := mul_le_mul_of_nonneg_left (show A + t0 ≤ 2 * (A + T) by linarith) R.u_nonneg
          linarith
        linarith)
      (by
        rw [show e i - (e i - m i * t0 + m i * t0) = 0 by ring, abs_zero]
        linarith)
      (by
        rw [abs_le]
        constructor <;> linarith)
    rw [this]
    push_cast
    ring
  rw [hlist]
  obtain ⟨l, hl⟩ : ∃ l, (List.range c).map (fun i : ℕ => (m (i + 1) : ℚ) - m i) = l := ⟨_, rfl⟩
  have hll : l.length = c := by rw [← hl]; simp
  have hsum : l.sum = m (n - 1) := by
    rw [← hl, sum_range (fun i => (m i : ℚ)) c, h.zero, hc1]
    simp
  have hlpos : ∀ x ∈ l, 0 ≤ x := by
    intro x hx
    rw [← hl] at hx
    obtain ⟨i, hi, rfl⟩ := List.mem_map.1 hx
    have hi' := List.mem_range.1 hi
    have : (m i : ℚ) < m (i + 1) := by exact_mod_cast h.incr i (by omega)
    linarith
  rw [hl]
  have hne : l ≠ [] := by intro hh; rw [hh] at hll; simp at hll; omega
  have hN : (0 : ℚ) < l.length := by exact_mod_cast List.length_pos_iff.2 hne
  have hfine := h.fine
  have h1 := mean_near R.toRounding d n mean hmean (by linarith) l hne (by omega)
  have habs : l.map (fun x => |x|) = l := by
    conv_rhs => rw [← List.map_id l]
    apply List.map_congr_left
    intro x hx
    rw [abs_of_nonneg (hlpos x hx)]
    rfl
  rw [habs] at h1
  have hd := h.dense
  have hn1 := (total h).2.2
  have a1 : 1 ≤ avg l := by
    unfold avg
    rw [le_div_iff₀ hN, hsum, hll]
    linarith
  have a2 : avg l ≤ 49 / 10 := by
    unfold avg
    rw [div_le_iff₀ hN, hsum, hll]
    linarith
  have h6 : 100 / 99 * ((d + 1) * R.u) * avg l ≤ 100 / 99 * (1 / 10 ^ 5) * avg l :=
    mul_le_mul_of_nonneg_right (by linarith) (by linarith)
  have h7 := abs_le.1 (h1.trans h6)
  have h8 := (abs_le.1 (R.err (9 / 10))).2
  rw [abs_of_pos (by norm_num : (0 : ℚ) < 9 / 10)] at h8
  push Not
  constructor <;> linarith

/-- The search started by cdr.py finds a period without jumps if it tests enough periods. -/
theorem search_default (mean : List ℚ → ℚ) (dot : List (ℚ × ℚ) → ℚ) (hmean : IsMean R.toRounding d n mean) (hdot : IsProd R.toRounding d n dot)
    (sort : List Scored → List Scored) (hsort : Reorders sort) (hbest : BestFirst sort) (compiled : Bool) (left : ℕ) {t0 : ℚ}
    (ht0 : |t0 - T| ≤ 9 / 1000 * T) (hN : (m (n - 1) : ℚ) ≤ 6 * (firstPoints n - 1 : ℕ)) :
    ∃ t, searchF R.toRounding mean dot sort compiled ((List.range n).map e) 100 left (R.fl (t0 * R.fl (1 - R.fl (1 / 100)))) (R.fl (t0 * R.fl (1 + R.fl (1 / 100)))) = .ok t ∧
      |t - T| ≤ 51 / 2500 * T ∧ NoJumps R.toRounding n e t ∧ R.fl t = t := by
  obtain ⟨b1, b2, b3, b4⟩ := bounds_ok h ht0 rfl rfl
  obtain ⟨lo, hlo⟩ : ∃ lo, R.fl (t0 * R.fl (1 - R.fl (1 / 100))) = lo := ⟨_, rfl⟩
  obtain ⟨hi, hhi⟩ : ∃ hi, R.fl (t0 * R.fl (1 + R.fl (1 / 100))) = hi := ⟨_, rfl⟩
  rw [hlo] at b1 b2
  rw [hhi] at b3 b4
  rw [hlo, hhi]
  have hT := h.pos
  have hun := R.u_nonneg
  have hu5 : R.u ≤ 1 / 10 ^ 5 := by
    have h1 := h.fine
    have h2 : 0 ≤ (d : ℚ) * R.u := by positivity
    linarith
  have hfp := firstPoints_pos n
  obtain ⟨s1, s2⟩ := span_near R.toRounding compiled lo hi (firstPoints n) (by omega) (by linarith) (by linarith)
  have huh : R.u * hi ≤ 1 / 10 ^ 5 * hi := mul_le_mul_of_nonneg_right hu5 (by linarith)
  have hclose : ∀ t ∈ spanF R.toRounding compiled lo hi (firstPoints n), |t - T| ≤ 51 / 2500 * T := by
    intro t ht
    have := s1 t ht
    rw [abs_le]
    constructor <;> linarith
  obtain ⟨t1, ht1, hd1⟩ := s2 T b2 b3
  have hK : (19 : ℚ) ≤ (firstPoints n - 1 : ℕ) := by exact_mod_cast (by omega : 19 ≤ firstPoints n - 1)
  obtain ⟨h01, h02, h03⟩ := total h
  have h2 := h.two
  have hn0 : (2 : ℚ) ≤ n := by exact_mod_cast h2
  have hj : NoJumps R.toRounding n e t1 := by
    refine near_no_jump h (hclose t1 ht1) ?_
    have hm0 : (0 : ℚ) ≤ m (n - 1) := by linarith
    refine (mul_le_mul_of_nonneg_right hd1 hm0).trans ?_
    obtain ⟨K, hKe⟩ : ∃ K : ℚ, ((firstPoints n - 1 : ℕ) : ℚ) = K := ⟨_, rfl⟩
    rw [hKe] at hN hK ⊢
    have k1 : (hi - lo) / K / 2 * m (n - 1) ≤ (hi - lo) / K / 2 * (6 * K) :=
      mul_le_mul_of_nonneg_left hN (div_nonneg (div_nonneg (by linarith) (by linarith)) (by norm_num))
    have k2 : (hi - lo) / K / 2 * (6 * K) = 3 * (hi - lo) := by
      have : K ≠ 0 := by linarith
      field_simp
      ring
    have k3 : 5 * (R.u * hi) * m (n - 1) = 5 * (R.u * m (n - 1)) * hi := by ring
    have k4 : 5 * (R.u * m (n - 1)) * hi ≤ 5 * (R.u * m (n - 1)) * (10193 / 10000 * T) := mul_le_mul_of_nonneg_left b4 (by positivity)
    have k5 := h.small
    obtain ⟨-, -, -, k6, -, -⟩ := consts h
    linarith
  obtain ⟨t, ht, hs, hjt⟩ := search_ok h mean dot hmean hdot sort hsort hbest compiled left lo hi hclose ⟨t1, ht1, hj⟩
  exact ⟨t, hs, hclose t ht, hjt, span_floats R compiled lo hi _ (by rw [← hlo]; exact R.idem _) (by rw [← hhi]; exact R.idem _) t ht⟩

/-- The period recovered. -/
theorem period_default (mean : List ℚ → ℚ) (dot : List (ℚ × ℚ) → ℚ) (hmean : IsMean R.toRounding d n mean) (hdot : IsProd R.toRounding d n dot)
    (sort : List Scored → List Scored) (hsort : Reorders sort) (hbest : BestFirst sort) (compiled : Bool) {t0 : ℚ}
    (ht0 : |t0 - T| ≤ 9 / 1000 * T) (hN : (m (n - 1) : ℚ) ≤ 6 * (firstPoints n - 1 : ℕ)) :
    ∃ T', periodF R.toRounding mean (fun e lo hi tol => searchF R.toRounding mean dot sort compiled e tol 10 lo hi)
      (detrendF R.toRounding mean dot compiled) ⟨some t0, false⟩ ((List.range n).map e) = .ok (some T') ∧ |T' - T| * ((n : ℚ) - 1) ≤ 7 / 2 * (J + η) := by
  have h2 := h.two
  obtain ⟨t, hs, hc, hj, hfix⟩ := search_default h mean dot hmean hdot sort hsort hbest compiled 10 ht0 hN
  have hd : ∃ T', detrendF R.toRounding mean dot compiled ((List.range n).map e) t = .ok (some T') ∧ |T' - T| * ((n : ℚ) - 1) ≤ 7 / 2 * (J + η) := by
    cases compiled with
    | false => exact detrend_fallback h mean dot hmean hdot hc hj
    | true => exact detrend_compiled h mean dot hmean hdot hc hj (fixed_small R hfix)
  obtain ⟨T', hd1, hd2⟩ := hd
  refine ⟨T', ?_, hd2⟩
  unfold periodF
  rw [if_neg (by simp; omega)]
  simp only
  rw [if_neg (symbols_ok h mean hmean ht0)]
  simp only [if_neg (show ¬ false = true by simp), bind, Except.bind, hs]
  exact hd1

end

end Verif.Props.FloatSearch
