import Verif.Model.FloatCdr
import Verif.Props.FloatEye
import Verif.Props.CdrRun

/-!
C98: the recovered clock in double precision.
-/

namespace Verif.Props.FloatCdr

open Verif Verif.Eye Verif.Cdr Verif.Float Verif.Props.Float Verif.Props.FloatStats Verif.Props.FloatEye Verif.Props.EyeWindow Verif.Props.CdrRun

/-! ### Specification -/

/-- A clock with period `T` that fits the data edges up to `ε`: each data edge is its error after a symbol boundary, the clock edges are the centres of
the symbols from `start` on, as many as cover the data; the mean of the errors is at most `μ`. -/
structure Nearly (edges : List ℚ) (T ε μ start : ℚ) (clk ties : List ℚ) : Prop where
  one_each : ties.length = edges.length
  zero_mean : |ties.sum| ≤ μ * ties.length
  steady : ties.IsChain fun x y => |y - x| ≤ T / 2 + ε
  first : ∀ a ∈ edges.head?, |start - a| ≤ T / 2 + ε + μ
  boundaries : ∀ i (h : i < edges.length) (h' : i < ties.length), ∃ k : ℤ, |edges[i] - (start + k * T + ties[i])| ≤ ε
  count : ∀ a ∈ edges.head?, ∀ b ∈ edges.getLast?, ((clk.length : ℚ) - 1) * T < b - a + ε ∧ b - a ≤ clk.length * T + ε
  centres : ∀ i (h : i < clk.length), |clk[i] - (start + (i + 1 / 2) * T)| ≤ ε

/-- Data edges at symbol boundaries `s + k * T` up to a jitter of at most `J`. -/
def Jittered (s T J : ℚ) (edges : List ℚ) (k : List ℤ) : Prop :=
  List.Forall₂ (fun e (j : ℤ) => |e - (s + j * T)| ≤ J) edges k

/-! ### The mean -/

theorem pow_bound {u : ℚ} (hu : 0 ≤ u) (k : ℕ) (h : k * u ≤ 1 / 100) : (1 + u) ^ k - 1 ≤ 100 / 99 * (k * u) := by
  by_cases hk : k = 0
  · subst hk
    simp
  have hk1 : (1 : ℚ) ≤ k := by exact_mod_cast Nat.one_le_iff_ne_zero.2 hk
  have hu1 : u ≤ 1 / 100 := by nlinarith
  have h1 : 1 + (k : ℚ) * (-u) ≤ (1 + -u) ^ k := one_add_mul_le_pow (by linarith) k
  have h2 : (1 + u) ^ k * (1 + -u) ^ k ≤ 1 := by
    rw [← mul_pow]
    refine pow_le_one₀ ?_ ?_ <;> nlinarith
  have h3 : 0 ≤ (1 + u) ^ k := by positivity
  have h4 : (1 + u) ^ k * (1 - k * u) ≤ 1 := by
    refine le_trans ?_ h2
    apply mul_le_mul_of_nonneg_left _ h3
    linarith
  have h5 : 0 ≤ (k : ℚ) * u := by positivity
  have h6 : (1 + u) ^ k ≤ 100 / 99 := by nlinarith
  nlinarith

theorem abs_sum_le (l : List ℚ) : |l.sum| ≤ (l.map fun x => |x|).sum := by
  induction l with
  | nil => simp
  | cons a l ih =>
    simp only [List.sum_cons, List.map_cons]
    have := abs_add_le a l.sum
    linarith

theorem summed_near (R : Rounding) (d : ℕ) (l : List ℚ) (s : ℚ) (h : Summed R d l s) :
    |s - l.sum| ≤ ((1 + R.u) ^ d - 1) * (l.map fun x => |x|).sum := by
  have hu := R.u_nonneg
  induction h with
  | one d x =>
    have : (1 : ℚ) ≤ (1 + R.u) ^ d := one_le_pow₀ (by linarith)
    simp
    exact mul_nonneg (by linarith) (abs_nonneg x)
  | @add d l m k s t _ _ hp i1 i2 =>
    have e1 : k.sum = l.sum + m.sum := by rw [← hp.sum_eq, List.sum_append]
    have e2 : (k.map fun x => |x|).sum = (l.map fun x => |x|).sum + (m.map fun x => |x|).sum := by
      rw [← (hp.map fun x => |x|).sum_eq, List.map_append, List.sum_append]
    rw [e1, e2]
    have a1 := abs_sum_le l
    have a2 := abs_sum_le m
    have b0 := R.err (s + t)
    set L := (l.map fun x => |x|).sum
    set M := (m.map fun x => |x|).sum
    set g := (1 + R.u) ^ d with hg
    have c1 : |s + t - (l.sum + m.sum)| ≤ (g - 1) * (L + M) := by
      rw [show s + t - (l.sum + m.sum) = (s - l.sum) + (t - m.sum) by ring]
      have := abs_add_le (s - l.sum) (t - m.sum)
      linarith
    have c2 : |s + t| ≤ g * (L + M) := by
      rw [show s + t = (s + t - (l.sum + m.sum)) + (l.sum + m.sum) by ring]
      have h1 := abs_add_le (s + t - (l.sum + m.sum)) (l.sum + m.sum)
      have h2 := abs_add_le l.sum m.sum
      linarith
    have c3 : R.u * |s + t| ≤ R.u * (g * (L + M)) := mul_le_mul_of_nonneg_left c2 hu
    rw [pow_succ, ← hg]
    have c4 : |R.fl (s + t) - (l.sum + m.sum)| ≤ |R.fl (s + t) - (s + t)| + |s + t - (l.sum + m.sum)| := by
      rw [show R.fl (s + t) - (l.sum + m.sum) = (R.fl (s + t) - (s + t)) + (s + t - (l.sum + m.sum)) by ring]
      exact abs_add_le _ _
    nlinarith

/-- The mean in floats is near the mean. -/
theorem mean_near (R : Rounding) (d n : ℕ) (mean : List ℚ → ℚ) (hm : IsMean R d n mean) (hd : (d + 1) * R.u ≤ 1 / 100) (l : List ℚ) (hne : l ≠ [])
    (hl : l.length ≤ n) : |mean l - avg l| ≤ 100 / 99 * ((d + 1) * R.u) * avg (l.map fun x => |x|) := by
  obtain ⟨s, hs, he⟩ := hm l hne hl
  have hu := R.u_nonneg
  have h1 := summed_near R d l s hs
  have hn : (0 : ℚ) < l.length := by exact_mod_cast List.length_pos_iff.2 hne
  have h2 := R.err (s / l.length)
  have hp := pow_bound hu (d + 1) (by push_cast; exact hd)
  push_cast at hp
  unfold avg
  rw [List.length_map, he]
  have a1 := abs_sum_le l
  set A := (l.map fun x => |x|).sum
  set g := (1 + R.u) ^ d with hg
  rw [pow_succ, ← hg] at hp
  have hA : 0 ≤ A / l.length := div_nonneg ((abs_nonneg _).trans a1) hn.le
  have c1 : |s / l.length - l.sum / l.length| ≤ (g - 1) * (A / l.length) := by
    rw [← sub_div, abs_div, abs_of_pos hn, ← mul_div_assoc]
    exact div_le_div_of_nonneg_right h1 hn.le
  have c2 : |s / l.length| ≤ g * (A / l.length) := by
    have h3 : |l.sum / l.length| ≤ A / l.length := by
      rw [abs_div, abs_of_pos hn]
      exact div_le_div_of_nonneg_right a1 hn.le
    rw [show s / l.length = (s / l.length - l.sum / l.length) + l.sum / l.length by ring]
    have := abs_add_le (s / l.length - l.sum / l.length) (l.sum / l.length)
    linarith
  have c3 : R.u * |s / l.length| ≤ R.u * (g * (A / l.length)) := mul_le_mul_of_nonneg_left c2 hu
  have c4 : |R.fl (s / l.length) - l.sum / l.length| ≤ |R.fl (s / l.length) - s / l.length| + |s / l.length - l.sum / l.length| := by
    rw [show R.fl (s / l.length) - l.sum / l.length = (R.fl (s / l.length) - s / l.length) + (s / l.length - l.sum / l.length) by ring]
    exact abs_add_le _ _
  have c5 : (g * (1 + R.u) - 1) * (A / l.length) ≤ 100 / 99 * ((d + 1) * R.u) * (A / l.length) := mul_le_mul_of_nonneg_right hp hA
  nlinarith

theorem avg_abs_le (l : List ℚ) (B : ℚ) (h : ∀ x ∈ l, |x| ≤ B) (hne : l ≠ []) : avg (l.map fun x => |x|) ≤ B := by
  unfold avg
  have hn : (0 : ℚ) < (l.map fun x => |x|).length := by
    rw [List.length_map]
    exact_mod_cast List.length_pos_iff.2 hne
  rw [div_le_iff₀ hn, List.length_map]
  clear hn hne
  induction l with
  | nil => simp
  | cons a l ih =>
    simp only [List.map_cons, List.sum_cons, List.length_cons]
    push_cast
    have h1 := h a List.mem_cons_self
    have h2 := ih fun x hx => h x (List.mem_cons_of_mem _ hx)
    linarith

/-- Adding one number after the other is one way to compute the mean. -/
theorem meanF_isMean (R : Rounding) (n : ℕ) : IsMean R (n - 1) n (meanF R) := by
  have key : ∀ (l : List ℚ) (d : ℕ) (p : List ℚ) (s : ℚ), Summed R d p s → Summed R (d + l.length) (p ++ l) (l.foldl (fun s x => R.fl (s + x)) s) := by
    intro l
    induction l with
    | nil =>
      intro d p s h
      simpa using h
    | cons a l ih =>
      intro d p s h
      have := ih (d + 1) (p ++ [a]) (R.fl (s + a)) (.add h (.one d a) (List.Perm.refl _))
      rw [List.foldl_cons, List.length_cons]
      rw [List.append_assoc, List.singleton_append] at this
      rw [show d + (l.length + 1) = d + 1 + l.length by omega]
      exact this
  have mono : ∀ (d : ℕ) (l : List ℚ) (s : ℚ), Summed R d l s → ∀ e, d ≤ e → Summed R e l s := by
    intro d l s h
    induction h with
    | one d x => exact fun e _ => .one e x
    | add h1 h2 hp i1 i2 =>
      intro e he
      obtain ⟨e', rfl⟩ : ∃ e', e = e' + 1 := ⟨e - 1, by omega⟩
      exact .add (i1 e' (by omega)) (i2 e' (by omega)) hp
  intro l hne hl
  obtain ⟨a, l, rfl⟩ := List.exists_cons_of_ne_nil hne
  refine ⟨_, mono _ _ _ (key l 0 [a] a (.one 0 a)) (n - 1) ?_, rfl⟩
  rw [List.length_cons] at hl
  omega

/-! ### The errors of the data edges -/

theorem half_near (R : Rounding) {T : ℚ} (hT : 0 < T) : |R.fl (T / 2) - T / 2| ≤ R.u * (T / 2) := by
  have := R.err (T / 2)
  rwa [abs_of_pos (show (0 : ℚ) < T / 2 by linarith)] at this

/-- The argument of the remainder. -/
theorem arg_near (R : Rounding) {A T e first : ℚ} (hT : 0 < T) (he : |e| ≤ A) (hf : |first| ≤ A) :
    |R.fl (R.fl (e - first) + R.fl (T / 2)) - (e - first + T / 2)| ≤ 5 * R.u * (A + T) := by
  have hu := R.u_nonneg
  have hs := R.u_small
  have hA : 0 ≤ A := (abs_nonneg _).trans he
  have h0 : |e - first| ≤ 2 * A := by
    have := abs_sub e first
    linarith
  have h1 := R.err (e - first)
  have h2 := half_near R hT
  have h3 := R.err (R.fl (e - first) + R.fl (T / 2))
  set x := R.fl (e - first)
  set y := R.fl (T / 2)
  have h4 : R.u * |e - first| ≤ R.u * (2 * A) := mul_le_mul_of_nonneg_left h0 hu
  have uA : R.u * A ≤ 1 / 100 * A := mul_le_mul_of_nonneg_right hs hA
  have uT : R.u * T ≤ 1 / 100 * T := mul_le_mul_of_nonneg_right hs hT.le
  have uA0 : 0 ≤ R.u * A := mul_nonneg hu hA
  have uT0 : 0 ≤ R.u * T := mul_nonneg hu hT.le
  have h5 : |x + y - (e - first + T / 2)| ≤ 2 * (R.u * A) + R.u * T / 2 := by
    rw [show x + y - (e - first + T / 2) = (x - (e - first)) + (y - T / 2) by ring]
    have := abs_add_le (x - (e - first)) (y - T / 2)
    linarith
  have h6 : |x + y| ≤ 21 / 10 * A + T := by
    rw [show x + y = (x + y - (e - first + T / 2)) + ((e - first) + T / 2) by ring]
    have g1 := abs_add_le (x + y - (e - first + T / 2)) ((e - first) + T / 2)
    have g2 := abs_add_le (e - first) (T / 2)
    rw [abs_of_pos (show (0 : ℚ) < T / 2 by linarith)] at g2
    linarith
  have h7 : R.u * |x + y| ≤ R.u * (21 / 10 * A + T) := mul_le_mul_of_nonneg_left h6 hu
  have h8 : |R.fl (x + y) - (e - first + T / 2)| ≤ |R.fl (x + y) - (x + y)| + |x + y - (e - first + T / 2)| := by
    rw [show R.fl (x + y) - (e - first + T / 2) = (R.fl (x + y) - (x + y)) + (x + y - (e - first + T / 2)) by ring]
    exact abs_add_le _ _
  nlinarith

/-- The error of a data edge is its distance from a symbol boundary, up to rounding. -/
theorem tieF_near (R : Rounding) {A T e first : ℚ} (hT : 0 < T) (he : |e| ≤ A) (hf : |first| ≤ A) :
    |tieF R first T e| ≤ 54 / 100 * T ∧
    |tieF R first T e - (pyMod (R.fl (R.fl (e - first) + R.fl (T / 2))) T - T / 2)| ≤ 3 * R.u * T ∧
    ∃ k : ℤ, |e - first - k * T - tieF R first T e| ≤ 8 * R.u * (A + T) := by
  have hu := R.u_nonneg
  have hs := R.u_small
  have hA : 0 ≤ A := (abs_nonneg _).trans he
  have ha := arg_near R hT he hf
  set x := R.fl (R.fl (e - first) + R.fl (T / 2))
  obtain ⟨m1, m2, m3⟩ := pyModF_near R x T hT
  obtain ⟨p1, p2, k, p3⟩ := pyMod_spec x T hT
  have h2 := half_near R hT
  have h3 := R.err (pyModF R x T - R.fl (T / 2))
  have uT : R.u * T ≤ 1 / 100 * T := mul_le_mul_of_nonneg_right hs hT.le
  have uT0 : 0 ≤ R.u * T := mul_nonneg hu hT.le
  have uA0 : 0 ≤ R.u * A := mul_nonneg hu hA
  unfold tieF
  set y := R.fl (T / 2)
  set m := pyModF R x T
  have h2' := abs_le.1 h2
  have h4 : |m - y| ≤ 52 / 100 * T := by
    rw [abs_le]
    constructor <;> linarith
  have h5 : R.u * |m - y| ≤ R.u * (52 / 100 * T) := mul_le_mul_of_nonneg_left h4 hu
  have h6 : |R.fl (m - y) - (pyMod x T - T / 2)| ≤ 3 * R.u * T := by
    rw [show R.fl (m - y) - (pyMod x T - T / 2) = (R.fl (m - y) - (m - y)) + ((m - pyMod x T) - (y - T / 2)) by ring]
    have g1 := abs_add_le (R.fl (m - y) - (m - y)) ((m - pyMod x T) - (y - T / 2))
    have g2 := abs_sub (m - pyMod x T) (y - T / 2)
    linarith
  refine ⟨?_, h6, k, ?_⟩
  · rw [show R.fl (m - y) = (R.fl (m - y) - (m - y)) + (m - y) by ring]
    have g1 := abs_add_le (R.fl (m - y) - (m - y)) (m - y)
    nlinarith
  · rw [show e - first - k * T - R.fl (m - y) = -(x - (e - first + T / 2)) - (R.fl (m - y) - (pyMod x T - T / 2)) + (x - (k * T + pyMod x T)) by ring,
      show x - (k * T + pyMod x T) = 0 by linarith, add_zero]
    have g1 := abs_sub (-(x - (e - first + T / 2))) (R.fl (m - y) - (pyMod x T - T / 2))
    rw [abs_neg] at g1
    linarith

/-- The size of an error. -/
theorem tieF_small (R : Rounding) {A T e first : ℚ} (hT : 0 < T) (he : |e| ≤ A) (hf : |first| ≤ A) : |tieF R first T e| ≤ T / 2 + 3 * R.u * T := by
  obtain ⟨-, h, -⟩ := tieF_near R hT he hf
  set x := R.fl (R.fl (e - first) + R.fl (T / 2))
  obtain ⟨p1, p2, -⟩ := pyMod_spec x T hT
  have h1 : |pyMod x T - T / 2| ≤ T / 2 := by
    rw [abs_le]
    constructor <;> linarith
  rw [show tieF R first T e = (tieF R first T e - (pyMod x T - T / 2)) + (pyMod x T - T / 2) by ring]
  have := abs_add_le (tieF R first T e - (pyMod x T - T / 2)) (pyMod x T - T / 2)
  linarith

theorem abs_avg_le (l : List ℚ) (B : ℚ) (h : ∀ x ∈ l, |x| ≤ B) (hne : l ≠ []) : |avg l| ≤ B := by
  refine le_trans ?_ (avg_abs_le l B h hne)
  unfold avg
  rw [abs_div, List.length_map, Nat.abs_cast]
  exact div_le_div_of_nonneg_right (abs_sum_le l) (Nat.cast_nonneg _)

theorem chain_of_diffsF (R : Rounding) (l : List ℚ) (B : ℚ) (h : (diffsF R l).any (fun d => decide (B < |d|)) = false) :
    l.IsChain fun x y => |R.fl (y - x)| ≤ B := by
  induction l with
  | nil => exact List.isChain_nil
  | cons a l ih =>
    cases l with
    | nil => exact List.isChain_singleton a
    | cons b l =>
      have e : diffsF R (a :: b :: l) = R.fl (b - a) :: diffsF R (b :: l) := rfl
      rw [e, List.any_cons, Bool.or_eq_false_iff] at h
      rw [List.isChain_cons_cons]
      refine ⟨?_, ih h.2⟩
      have := h.1
      simp only [decide_eq_false_iff_not, not_lt] at this
      exact this

/-- A rounded difference of at most half a period. -/
theorem steady_of (R : Rounding) {T z : ℚ} (hT : 0 < T) (h : |R.fl z| ≤ R.fl (T / 2)) : |z| ≤ T / 2 + 2 * R.u * T := by
  have hu := R.u_nonneg
  have hs := R.u_small
  have h1 := R.err z
  have h2 := (abs_le.1 (half_near R hT)).2
  have h3 : |z| ≤ |R.fl z| + |R.fl z - z| := by
    have := abs_sub (R.fl z) (R.fl z - z)
    rwa [show R.fl z - (R.fl z - z) = z by ring] at this
  have h4 : |z| * (1 - R.u) ≤ T / 2 * (1 + R.u) := by nlinarith
  have h5 : |z| * (99 / 100) ≤ |z| * (1 - R.u) := mul_le_mul_of_nonneg_left (by linarith) (abs_nonneg z)
  have h6 : |z| ≤ 55 / 100 * T := by nlinarith
  have h7 : R.u * |z| ≤ R.u * (55 / 100 * T) := mul_le_mul_of_nonneg_left h6 hu
  nlinarith [mul_nonneg hu hT.le]

/-- The number of clock edges covers the data, up to rounding. -/
theorem count_near (R : Rounding) {S T : ℚ} (hT : 0 < T) (hS : 0 ≤ S) :
    0 ≤ ⌈R.fl (R.fl S / T)⌉ ∧ ((⌈R.fl (R.fl S / T)⌉ : ℚ) - 1) * T < S + 21 / 10 * R.u * S ∧ S ≤ ⌈R.fl (R.fl S / T)⌉ * T + 21 / 10 * R.u * S := by
  have hu := R.u_nonneg
  have hs := R.u_small
  obtain ⟨a, ha, ea⟩ := rel R S
  obtain ⟨b, hb, eb⟩ := rel R (R.fl S / T)
  have s1 : |(1 + a) - 1| ≤ 1 * R.u := by simpa using ha
  have s2 := step hu hs (by norm_num) s1 hb
  have hq : R.fl (R.fl S / T) * T = S * ((1 + a) * (1 + b)) := by
    rw [eb, ea]
    field_simp
  have a1 := abs_le.1 (ha.trans hs)
  have b1 := abs_le.1 (hb.trans hs)
  have hq0 : 0 ≤ R.fl (R.fl S / T) := by
    rw [eb, ea]
    exact mul_nonneg (div_nonneg (mul_nonneg hS (by linarith)) hT.le) (by linarith)
  have c1 := Int.le_ceil (R.fl (R.fl S / T))
  have c2 := Int.ceil_lt_add_one (R.fl (R.fl S / T))
  have s3 : |S * ((1 + a) * (1 + b)) - S| ≤ 21 / 10 * R.u * S := by
    rw [show S * ((1 + a) * (1 + b)) - S = S * ((1 + a) * (1 + b) - 1) by ring, abs_mul, abs_of_nonneg hS]
    nlinarith [mul_nonneg hu hS]
  have s4 := abs_le.1 s3
  refine ⟨Int.ceil_nonneg hq0, ?_, ?_⟩
  · have : ((⌈R.fl (R.fl S / T)⌉ : ℚ) - 1) * T < R.fl (R.fl S / T) * T := mul_lt_mul_of_pos_right (by linarith) hT
    rw [hq] at this
    linarith
  · have : R.fl (R.fl S / T) * T ≤ ⌈R.fl (R.fl S / T)⌉ * T := mul_le_mul_of_nonneg_right c1 hT.le
    rw [hq] at this
    linarith

/-- One clock edge. -/
theorem clk_near (R : Rounding) {A T start : ℚ} (hT : 0 < T) (hA : 0 ≤ A) (hst : |start| ≤ 102 / 100 * A + 57 / 100 * T) (n : ℕ)
    (hn : ((n + 1 : ℕ) - 1 : ℚ) * T ≤ 205 / 100 * A) (i : ℕ) (hi : i ≤ n) :
    |R.fl (R.fl (gridF R 0 (R.fl (T * ((n + 1 : ℕ) - 1 : ℚ))) n i + start) + R.fl (T / 2)) - (start + (i + 1 / 2) * T)| ≤ 20 * R.u * (A + T) := by
  have hu := R.u_nonneg
  have hs := R.u_small
  have uT : R.u * T ≤ 1 / 100 * T := mul_le_mul_of_nonneg_right hs hT.le
  have uT0 : 0 ≤ R.u * T := mul_nonneg hu hT.le
  have uA : R.u * A ≤ 1 / 100 * A := mul_le_mul_of_nonneg_right hs hA
  have uA0 : 0 ≤ R.u * A := mul_nonneg hu hA
  have en : ((n + 1 : ℕ) - 1 : ℚ) = n := by push_cast; ring
  rw [en] at hn ⊢
  have hn0 : (0 : ℚ) ≤ n := Nat.cast_nonneg n
  have hW0 : 0 ≤ n * T := mul_nonneg hn0 hT.le
  have hiT : (i : ℚ) * T ≤ n * T := mul_le_mul_of_nonneg_right (by exact_mod_cast hi) hT.le
  have hiT0 : 0 ≤ (i : ℚ) * T := mul_nonneg (Nat.cast_nonneg i) hT.le
  have hlin : |gridF R 0 (R.fl (T * n)) n i - i * T| ≤ 13 * (R.u * A) := by
    by_cases hz : n = 0
    · subst hz
      have : i = 0 := by omega
      subst this
      simp [gridF]
      exact uA0
    · have hnp : (0 : ℚ) < n := by exact_mod_cast Nat.pos_of_ne_zero hz
      obtain ⟨a, ha, ea⟩ := rel R (T * n)
      have a1 := abs_le.1 (ha.trans hs)
      have hh : 0 ≤ R.fl (T * n) := by
        rw [ea]
        exact mul_nonneg (by linarith [mul_comm T (n : ℚ)]) (by linarith)
      have g := gridF_near R hh (Nat.pos_of_ne_zero hz) i hi
      rw [abs_zero, sub_zero, zero_add, zero_add] at g
      have e1 : (i : ℚ) * (R.fl (T * n) / n) - i * T = i * T * a := by
        rw [ea]
        field_simp
        ring
      have e2 : |(i : ℚ) * (R.fl (T * n) / n) - i * T| ≤ R.u * (205 / 100 * A) := by
        rw [e1, abs_mul, abs_of_nonneg hiT0, mul_comm]
        exact mul_le_mul ha (by linarith) hiT0 hu
      have e3 : R.fl (T * n) ≤ 208 / 100 * A := by
        rw [ea]
        have : T * n * a ≤ T * n * (1 / 100) := mul_le_mul_of_nonneg_left a1.2 (by linarith [mul_comm T (n : ℚ)])
        linarith [mul_comm T (n : ℚ)]
      have e4 : R.u * (5 * R.fl (T * n)) ≤ R.u * (5 * (208 / 100 * A)) := mul_le_mul_of_nonneg_left (by linarith) hu
      rw [show gridF R 0 (R.fl (T * n)) n i - i * T = (gridF R 0 (R.fl (T * n)) n i - i * (R.fl (T * n) / n)) + (i * (R.fl (T * n) / n) - i * T) by ring]
      have := abs_add_le (gridF R 0 (R.fl (T * n)) n i - i * (R.fl (T * n) / n)) (i * (R.fl (T * n) / n) - i * T)
      linarith
  set lin := gridF R 0 (R.fl (T * n)) n i
  have h2 := half_near R hT
  have h3 := R.err (lin + start)
  have h4 := R.err (R.fl (lin + start) + R.fl (T / 2))
  set y := R.fl (T / 2)
  set x := R.fl (lin + start)
  have b1 : |lin + start| ≤ 32 / 10 * A + 57 / 100 * T := by
    rw [show lin + start = (lin - i * T) + (i * T + start) by ring]
    have g1 := abs_add_le (lin - i * T) (i * T + start)
    have g2 := abs_add_le ((i : ℚ) * T) start
    rw [abs_of_nonneg hiT0] at g2
    linarith
  have b2 : R.u * |lin + start| ≤ R.u * (32 / 10 * A + 57 / 100 * T) := mul_le_mul_of_nonneg_left b1 hu
  have b3 : |x + y| ≤ 33 / 10 * A + 11 / 10 * T := by
    rw [show x + y = (x - (lin + start)) + (lin + start) + ((y - T / 2) + T / 2) by ring]
    have g1 := abs_add_le ((x - (lin + start)) + (lin + start)) ((y - T / 2) + T / 2)
    have g2 := abs_add_le (x - (lin + start)) (lin + start)
    have g3 := abs_add_le (y - T / 2) (T / 2)
    rw [abs_of_pos (show (0 : ℚ) < T / 2 by linarith)] at g3
    linarith
  have b4 : R.u * |x + y| ≤ R.u * (33 / 10 * A + 11 / 10 * T) := mul_le_mul_of_nonneg_left b3 hu
  rw [show R.fl (x + y) - (start + (i + 1 / 2) * T) =
    (R.fl (x + y) - (x + y)) + ((x - (lin + start)) + ((lin - i * T) + (y - T / 2))) by ring]
  have g1 := abs_add_le (R.fl (x + y) - (x + y)) ((x - (lin + start)) + ((lin - i * T) + (y - T / 2)))
  have g2 := abs_add_le (x - (lin + start)) ((lin - i * T) + (y - T / 2))
  have g3 := abs_add_le (lin - i * T) (y - T / 2)
  linarith

/-! ### The clock -/

theorem sum_near (l : List ℚ) (f : ℚ → ℚ) (c B : ℚ) (h : ∀ x ∈ l, |f x - (x - c)| ≤ B) : |(l.map f).sum - (l.sum - c * l.length)| ≤ B * l.length := by
  induction l with
  | nil => simp
  | cons a l ih =>
    have h1 := h a List.mem_cons_self
    have h2 := ih fun x hx => h x (List.mem_cons_of_mem _ hx)
    simp only [List.map_cons, List.sum_cons, List.length_cons]
    push_cast
    rw [show f a + (l.map f).sum - (a + l.sum - c * (l.length + 1)) = (f a - (a - c)) + ((l.map f).sum - (l.sum - c * l.length)) by ring]
    have := abs_add_le (f a - (a - c)) ((l.map f).sum - (l.sum - c * l.length))
    linarith

/-- The clock for a positive period, or a jump over more than half a period. -/
theorem clockF_spec (R : Rounding) (mean : List ℚ → ℚ) (d : ℕ) (first : ℚ) (rest : List ℚ) (last T A : ℚ)
    (hm : IsMean R d (first :: rest).length mean) (hd : (d + 1) * R.u ≤ 1 / 100) (hA : ∀ e ∈ first :: rest, |e| ≤ A)
    (hl : (first :: rest).getLast? = some last) (hT : 0 < T) (hfl : first ≤ last) :
    (∃ clk ties, clockF R mean (first :: rest) first last (some T) = .ok (clk, ties) ∧
      ties = ((first :: rest).map (tieF R first T)).map (fun x => R.fl (x - mean ((first :: rest).map (tieF R first T)))) ∧
      Nearly (first :: rest) T (20 * R.u * (A + T)) (2 * ((d + 1) * R.u) * T) (R.fl (first + mean ((first :: rest).map (tieF R first T)))) clk ties) ∨
    (clockF R mean (first :: rest) first last (some T) = .error .arithmeticError ∧
      ∃ x y, [x, y] <:+: ((first :: rest).map (tieF R first T)).map (fun x => R.fl (x - mean ((first :: rest).map (tieF R first T)))) ∧
        R.fl (T / 2) < |R.fl (y - x)|) := by
  have hu := R.u_nonneg
  have hs := R.u_small
  have hf : |first| ≤ A := hA first List.mem_cons_self
  have hA0 : 0 ≤ A := (abs_nonneg _).trans hf
  have uT : R.u * T ≤ 1 / 100 * T := mul_le_mul_of_nonneg_right hs hT.le
  have uT0 : 0 ≤ R.u * T := mul_nonneg hu hT.le
  have uA : R.u * A ≤ 1 / 100 * A := mul_le_mul_of_nonneg_right hs hA0
  have uA0 : 0 ≤ R.u * A := mul_nonneg hu hA0
  have hlast : |last| ≤ A := hA last (List.mem_of_getLast? hl)
  obtain ⟨raw, hraw⟩ : ∃ raw, (first :: rest).map (tieF R first T) = raw := ⟨_, rfl⟩
  have hlen : raw.length = (first :: rest).length := by rw [← hraw, List.length_map]
  have hne : raw ≠ [] := by intro h; rw [h] at hlen; simp at hlen
  have hb : ∀ x ∈ raw, |x| ≤ T / 2 + 3 * R.u * T := by
    intro x hx
    rw [← hraw] at hx
    obtain ⟨e, he, rfl⟩ := List.mem_map.1 hx
    exact tieF_small R hT (hA e he) hf
  have ha := abs_avg_le raw _ hb hne
  have hmn := mean_near R d _ mean hm hd raw hne hlen.le
  have haa := avg_abs_le raw _ hb hne
  set g := ((d : ℚ) + 1) * R.u with hg
  have hg0 : 0 ≤ g := by positivity
  have hug : R.u ≤ g := by
    rw [hg]
    have : (0 : ℚ) ≤ d := Nat.cast_nonneg d
    nlinarith
  have hgT : R.u * T ≤ g * T := mul_le_mul_of_nonneg_right hug hT.le
  have hgT1 : g * T ≤ 1 / 100 * T := mul_le_mul_of_nonneg_right hd hT.le
  have hmn' : |mean raw - avg raw| ≤ 55 / 100 * (g * T) := by
    refine hmn.trans ?_
    have h1 : avg (raw.map fun x => |x|) ≤ 53 / 100 * T := by linarith
    have h2 : 100 / 99 * g * avg (raw.map fun x => |x|) ≤ 100 / 99 * g * (53 / 100 * T) := mul_le_mul_of_nonneg_left h1 (by positivity)
    refine h2.trans ?_
    nlinarith [mul_nonneg hg0 hT.le]
  obtain ⟨μ, hμ⟩ : ∃ μ, mean raw = μ := ⟨_, rfl⟩
  rw [hμ] at hmn'
  have hμb : |μ| ≤ T / 2 + 3 * R.u * T + 55 / 100 * (g * T) := by
    rw [show μ = (μ - avg raw) + avg raw by ring]
    have := abs_add_le (μ - avg raw) (avg raw)
    linarith
  have hst := R.err (first + μ)
  obtain ⟨start, hstart⟩ : ∃ start, R.fl (first + μ) = start := ⟨_, rfl⟩
  rw [hstart] at hst
  have hfm : |first + μ| ≤ A + 54 / 100 * T := by
    have := abs_add_le first μ
    linarith
  have hst' : |start - (first + μ)| ≤ R.u * A + 54 / 100 * (R.u * T) := by
    have := mul_le_mul_of_nonneg_left hfm hu
    linarith
  have hstb : |start| ≤ 102 / 100 * A + 57 / 100 * T := by
    rw [show start = (start - (first + μ)) + (first + μ) by ring]
    have := abs_add_le (start - (first + μ)) (first + μ)
    linarith
  have htie : ∀ x ∈ raw, |R.fl (x - μ) - (x - μ)| ≤ 11 / 10 * (R.u * T) := by
    intro x hx
    have h1 := R.err (x - μ)
    have h2 : |x - μ| ≤ 11 / 10 * T := by
      have := abs_sub x μ
      have := hb x hx
      linarith
    have := mul_le_mul_of_nonneg_left h2 hu
    linarith
  have hS0 : 0 ≤ last - first := by linarith
  have hS : last - first ≤ 2 * A := by
    have h1 := (abs_le.1 hlast).2
    have h2 := (abs_le.1 hf).1
    linarith
  have huS : R.u * (last - first) ≤ R.u * (2 * A) := mul_le_mul_of_nonneg_left hS hu
  obtain ⟨n0, n1, n2⟩ := count_near R hT hS0
  unfold clockF
  simp only [if_neg (not_le.2 hT), hraw, hμ, hstart]
  obtain ⟨q, hq⟩ : ∃ q, R.fl (R.fl (last - first) / T) = q := ⟨_, rfl⟩
  rw [hq] at n0 n1 n2 ⊢
  obtain ⟨n, hn⟩ := Int.eq_ofNat_of_zero_le n0
  rw [hn] at n1 n2 ⊢
  push_cast at n1 n2
  split
  · rename_i hd'
    right
    refine ⟨rfl, ?_⟩
    have key : ∀ l : List ℚ, (diffsF R l).any (fun d => decide (R.fl (T / 2) < |d|)) = true → ∃ x y, [x, y] <:+: l ∧ R.fl (T / 2) < |R.fl (y - x)| := by
      intro l
      induction l with
      | nil => simp [diffsF]
      | cons a l ih =>
        cases l with
        | nil => simp [diffsF]
        | cons b l =>
          intro h
          have e : diffsF R (a :: b :: l) = R.fl (b - a) :: diffsF R (b :: l) := rfl
          rw [e, List.any_cons, Bool.or_eq_true] at h
          rcases h with h | h
          · exact ⟨a, b, ⟨[], l, rfl⟩, by simpa using h⟩
          · obtain ⟨x, y, hxy, hlt⟩ := ih h
            exact ⟨x, y, hxy.trans (List.suffix_cons a (b :: l)).isInfix, hlt⟩
    exact key _ hd'
  · rename_i hd'
    rw [Bool.not_eq_true] at hd'
    left
    rw [if_neg (by omega)]
    refine ⟨_, _, rfl, rfl, ?_⟩
    have hclen : (if (n : ℤ) = 0 then [] else (linspaceF R 0 (R.fl (T * (((n : ℤ) : ℚ) - 1))) ((n : ℤ).toNat - 1)).map
        fun x => R.fl (R.fl (x + start) + R.fl (T / 2))).length = n := by
      by_cases hz : n = 0
      · subst hz
        simp
      · rw [if_neg (by exact_mod_cast hz), List.length_map]
        unfold linspaceF
        rw [List.length_map, List.length_range]
        omega
    refine ⟨by rw [List.length_map, hlen], ?_, ?_, ?_, ?_, ?_, ?_⟩
    · rw [List.length_map]
      have h1 := sum_near raw (fun x => R.fl (x - μ)) μ _ htie
      have hN : (0 : ℚ) < raw.length := by exact_mod_cast List.length_pos_iff.2 hne
      have h2 : raw.sum - μ * raw.length = (avg raw - μ) * raw.length := by
        rw [sub_mul, avg_mul raw hne]
      have h3 : |raw.sum - μ * raw.length| ≤ 55 / 100 * (g * T) * raw.length := by
        rw [h2, abs_mul, abs_of_pos hN, abs_sub_comm]
        exact mul_le_mul_of_nonneg_right hmn' hN.le
      set Z := (raw.map fun x => R.fl (x - μ)).sum
      rw [show Z = (Z - (raw.sum - μ * raw.length)) + (raw.sum - μ * raw.length) by ring]
      have h4 := abs_add_le (Z - (raw.sum - μ * raw.length)) (raw.sum - μ * raw.length)
      have h5 : 11 / 10 * (R.u * T) * raw.length ≤ 11 / 10 * (g * T) * raw.length := mul_le_mul_of_nonneg_right (by linarith) hN.le
      have h6 : 0 ≤ g * T * raw.length := by positivity
      linarith
    · refine (chain_of_diffsF R _ _ hd').imp ?_
      intro x y hxy
      have := steady_of R hT hxy
      linarith
    · intro a ha'
      obtain rfl : first = a := by simpa using ha'
      rw [show start - first = (start - (first + μ)) + μ by ring]
      have := abs_add_le (start - (first + μ)) μ
      linarith
    · intro i h h'
      obtain ⟨-, -, k, hk⟩ := tieF_near R hT (hA _ (List.getElem_mem h)) hf
      refine ⟨k, ?_⟩
      have hi : i < raw.length := by rw [hlen]; exact h
      have hri : raw[i] = tieF R first T (first :: rest)[i] := by
        subst hraw
        rw [List.getElem_map]
      have h1 := htie raw[i] (List.getElem_mem hi)
      rw [List.getElem_map]
      rw [← hri] at hk
      rw [show (first :: rest)[i] - (start + k * T + R.fl (raw[i] - μ)) =
        ((first :: rest)[i] - first - k * T - raw[i]) - ((start - (first + μ)) + (R.fl (raw[i] - μ) - (raw[i] - μ))) by ring]
      have g1 := abs_sub ((first :: rest)[i] - first - k * T - raw[i]) ((start - (first + μ)) + (R.fl (raw[i] - μ) - (raw[i] - μ)))
      have g2 := abs_add_le (start - (first + μ)) (R.fl (raw[i] - μ) - (raw[i] - μ))
      linarith
    · intro a ha' b hb'
      obtain rfl : first = a := by simpa using ha'
      rw [hl] at hb'
      obtain rfl : last = b := by simpa using hb'
      rw [hclen]
      constructor <;> linarith
    · intro i hi
      have hin : i < n := by rw [hclen] at hi; exact hi
      have hz : n ≠ 0 := by omega
      obtain ⟨m, rfl⟩ : ∃ m, n = m + 1 := ⟨n - 1, by omega⟩
      have hge : (if ((m + 1 : ℕ) : ℤ) = 0 then [] else (linspaceF R 0 (R.fl (T * ((((m + 1 : ℕ) : ℤ) : ℚ) - 1))) (((m + 1 : ℕ) : ℤ).toNat - 1)).map
          fun x => R.fl (R.fl (x + start) + R.fl (T / 2)))[i] =
          R.fl (R.fl (gridF R 0 (R.fl (T * ((m + 1 : ℕ) - 1 : ℚ))) m i + start) + R.fl (T / 2)) := by
        have e : (if ((m + 1 : ℕ) : ℤ) = 0 then [] else (linspaceF R 0 (R.fl (T * ((((m + 1 : ℕ) : ℤ) : ℚ) - 1))) (((m + 1 : ℕ) : ℤ).toNat - 1)).map
            fun x => R.fl (R.fl (x + start) + R.fl (T / 2))) =
            (linspaceF R 0 (R.fl (T * ((m + 1 : ℕ) - 1 : ℚ))) m).map fun x => R.fl (R.fl (x + start) + R.fl (T / 2)) := by
          rw [if_neg (by omega)]
          rfl
        simp only [e, List.getElem_map]
        congr 3
        unfold linspaceF
        rw [List.getElem_map, List.getElem_range]
      rw [hge]
      refine clk_near R hT hA0 hstb m ?_ i (by omega)
      linarith

/-! ### Locking -/

/-- The error of a data edge near a symbol boundary. -/
theorem tieF_jitter (R : Rounding) {A T J s e first : ℚ} {k k0 : ℤ} (hT : 0 < T) (he : |e| ≤ A) (hf : |first| ≤ A)
    (hJ : 2 * J + 20 * R.u * (A + T) < T / 2) (h1 : |e - (s + k * T)| ≤ J) (h0 : |first - (s + k0 * T)| ≤ J) :
    |e - first - ((k - k0 : ℤ) : ℚ) * T - tieF R first T e| ≤ 8 * R.u * (A + T) := by
  have hu := R.u_nonneg
  have hA : 0 ≤ A := (abs_nonneg _).trans he
  have uT0 : 0 ≤ R.u * T := mul_nonneg hu hT.le
  have uA0 : 0 ≤ R.u * A := mul_nonneg hu hA
  have ha := arg_near R hT he hf
  obtain ⟨-, h6, -⟩ := tieF_near R hT he hf
  set x := R.fl (R.fl (e - first) + R.fl (T / 2))
  obtain ⟨p1, p2, j, p3⟩ := pyMod_spec x T hT
  have g1 := abs_le.1 h1
  have g0 := abs_le.1 h0
  have ga := abs_le.1 ha
  have hj : j = k - k0 := by
    have l1 : (((j : ℤ) : ℚ) - ((k - k0 : ℤ) : ℚ)) * T < 1 * T := by
      push_cast
      linarith
    have l2 : (((k - k0 : ℤ) : ℚ) - ((j : ℤ) : ℚ)) * T < 1 * T := by
      push_cast
      linarith
    have l3 := lt_of_mul_lt_mul_right l1 hT.le
    have l4 := lt_of_mul_lt_mul_right l2 hT.le
    have l5 : j - (k - k0) < 1 := by exact_mod_cast l3
    have l6 : (k - k0) - j < 1 := by exact_mod_cast l4
    omega
  rw [hj] at p3
  rw [show e - first - ((k - k0 : ℤ) : ℚ) * T - tieF R first T e =
    -(x - (e - first + T / 2)) - (tieF R first T e - (pyMod x T - T / 2)) + (x - pyMod x T - T * ((k - k0 : ℤ) : ℚ)) by ring, p3, sub_self, add_zero]
  have g2 := abs_sub (-(x - (e - first + T / 2))) (tieF R first T e - (pyMod x T - T / 2))
  rw [abs_neg] at g2
  linarith

theorem raw_mean (R : Rounding) (mean : List ℚ → ℚ) (d n : ℕ) (hm : IsMean R d n mean) (hd : (d + 1) * R.u ≤ 1 / 100) {T : ℚ} (hT : 0 < T) (raw : List ℚ)
    (hne : raw ≠ []) (hlen : raw.length ≤ n) (hb : ∀ x ∈ raw, |x| ≤ T / 2 + 3 * R.u * T) :
    |mean raw - avg raw| ≤ (d + 1) * R.u * T ∧ |mean raw| ≤ 55 / 100 * T := by
  have hu := R.u_nonneg
  have hs := R.u_small
  have uT : R.u * T ≤ 1 / 100 * T := mul_le_mul_of_nonneg_right hs hT.le
  have hg0 : 0 ≤ ((d : ℚ) + 1) * R.u := by positivity
  have h1 := mean_near R d n mean hm hd raw hne hlen
  have h2 := avg_abs_le raw _ hb hne
  have h3 := abs_avg_le raw _ hb hne
  set g := ((d : ℚ) + 1) * R.u
  have hgT : g * T ≤ 1 / 100 * T := mul_le_mul_of_nonneg_right hd hT.le
  have h5 : 100 / 99 * g * avg (raw.map fun x => |x|) ≤ 100 / 99 * g * (53 / 100 * T) := mul_le_mul_of_nonneg_left (by linarith) (by positivity)
  have h6 : 0 ≤ g * T := by positivity
  have h4 : |mean raw - avg raw| ≤ g * T := by linarith
  refine ⟨h4, ?_⟩
  rw [show mean raw = (mean raw - avg raw) + avg raw by ring]
  have := abs_add_le (mean raw - avg raw) (avg raw)
  linarith

theorem forall₂_getElem {α β : Type} {P : α → β → Prop} {l : List α} {m : List β} (h : List.Forall₂ P l m) (i : ℕ) (hi : i < l.length)
    (hi' : i < m.length) : P l[i] m[i] := by
  have := (List.forall₂_iff_get.1 h).2 i hi hi'
  simpa using this

/-- Steps 4 and 5 for edges with little jitter. -/
theorem clockF_locks (R : Rounding) (mean : List ℚ → ℚ) (d : ℕ) (first : ℚ) (rest : List ℚ) (last T A J s : ℚ) (k0 : ℤ) (ks : List ℤ)
    (hm : IsMean R d (first :: rest).length mean) (hd : (d + 1) * R.u ≤ 1 / 100) (hA : ∀ e ∈ first :: rest, |e| ≤ A)
    (hl : (first :: rest).getLast? = some last) (hT : 0 < T) (hfl : first ≤ last) (hk : Jittered s T J (first :: rest) (k0 :: ks))
    (hJ : 2 * J + 20 * R.u * (A + T) < T / 2) :
    ∃ clk ties start, clockF R mean (first :: rest) first last (some T) = .ok (clk, ties) ∧
      Nearly (first :: rest) T (20 * R.u * (A + T)) (2 * ((d + 1) * R.u) * T) start clk ties ∧
      |start - (s + k0 * T)| ≤ J + 20 * R.u * (A + T) + 2 * ((d + 1) * R.u) * T ∧
      (∀ i (h : i < (first :: rest).length) (h' : i < ties.length) (h'' : i < (k0 :: ks).length),
        |(first :: rest)[i] - (start + (((k0 :: ks)[i] - k0 : ℤ) : ℚ) * T + ties[i])| ≤ 20 * R.u * (A + T)) := by
  have hu := R.u_nonneg
  have hs := R.u_small
  have hf : |first| ≤ A := hA first List.mem_cons_self
  have hA0 : 0 ≤ A := (abs_nonneg _).trans hf
  have uT0 : 0 ≤ R.u * T := mul_nonneg hu hT.le
  have uT : R.u * T ≤ 1 / 100 * T := mul_le_mul_of_nonneg_right hs hT.le
  have uA0 : 0 ≤ R.u * A := mul_nonneg hu hA0
  have hk0 : |first - (s + k0 * T)| ≤ J := forall₂_getElem hk 0 (by simp) (by simp)
  have hlen2 := hk.length_eq
  obtain ⟨raw, hraw⟩ : ∃ raw, (first :: rest).map (tieF R first T) = raw := ⟨_, rfl⟩
  have hlen : raw.length = (first :: rest).length := by rw [← hraw, List.length_map]
  have hne : raw ≠ [] := by intro h; rw [h] at hlen; simp at hlen
  have hb : ∀ x ∈ raw, |x| ≤ T / 2 + 3 * R.u * T := by
    intro x hx
    rw [← hraw] at hx
    obtain ⟨e, he, rfl⟩ := List.mem_map.1 hx
    exact tieF_small R hT (hA e he) hf
  obtain ⟨hmn, hμb⟩ := raw_mean R mean d _ hm hd hT raw hne hlen.le hb
  have hri : ∀ i (hi : i < raw.length) (h : i < (first :: rest).length), raw[i] = tieF R first T (first :: rest)[i] := by
    intro i hi h
    subst hraw
    rw [List.getElem_map]
  have hjit : ∀ i (hi : i < raw.length) (h : i < (first :: rest).length) (h'' : i < (k0 :: ks).length),
      |(first :: rest)[i] - first - (((k0 :: ks)[i] - k0 : ℤ) : ℚ) * T - raw[i]| ≤ 8 * R.u * (A + T) := by
    intro i hi h h''
    rw [hri i hi h]
    exact tieF_jitter R hT (hA _ (List.getElem_mem h)) hf hJ (forall₂_getElem hk i h h'') hk0
  have hoff : ∀ x ∈ raw, |x - (s + k0 * T - first)| ≤ J + 8 * R.u * (A + T) := by
    intro x hx
    obtain ⟨i, hi, rfl⟩ := List.mem_iff_getElem.1 hx
    have h : i < (first :: rest).length := by omega
    have h'' : i < (k0 :: ks).length := by omega
    have a1 := hjit i hi h h''
    have a2 := forall₂_getElem hk i h h''
    push_cast at a1
    rw [show raw[i] - (s + k0 * T - first) = ((first :: rest)[i] - (s + ((k0 :: ks)[i] : ℚ) * T)) -
      ((first :: rest)[i] - first - (((k0 :: ks)[i] : ℚ) - k0) * T - raw[i]) by ring]
    have := abs_sub ((first :: rest)[i] - (s + ((k0 :: ks)[i] : ℚ) * T)) ((first :: rest)[i] - first - (((k0 :: ks)[i] : ℚ) - k0) * T - raw[i])
    linarith
  have htie : ∀ x ∈ raw, |R.fl (x - mean raw) - (x - mean raw)| ≤ 11 / 10 * (R.u * T) := by
    intro x hx
    have h1 := R.err (x - mean raw)
    have h2 : |x - mean raw| ≤ 11 / 10 * T := by
      have := abs_sub x (mean raw)
      have := hb x hx
      linarith
    have := mul_le_mul_of_nonneg_left h2 hu
    linarith
  have hst := R.err (first + mean raw)
  have hst' : |R.fl (first + mean raw) - (first + mean raw)| ≤ R.u * A + 55 / 100 * (R.u * T) := by
    have h1 : |first + mean raw| ≤ A + 55 / 100 * T := by
      have := abs_add_le first (mean raw)
      linarith
    have := mul_le_mul_of_nonneg_left h1 hu
    linarith
  rcases clockF_spec R mean d first rest last T A hm hd hA hl hT hfl with ⟨clk, ties, c1, c2, c3⟩ | ⟨-, x, y, hxy, hlt⟩
  · rw [hraw] at c2 c3
    refine ⟨clk, ties, _, c1, c3, ?_, ?_⟩
    · have havg : |avg raw - (s + k0 * T - first)| ≤ J + 8 * R.u * (A + T) := by
        have h1 := abs_avg_le (raw.map fun x => x - (s + k0 * T - first)) (J + 8 * R.u * (A + T)) (by
          intro z hz
          obtain ⟨x, hx, rfl⟩ := List.mem_map.1 hz
          exact hoff x hx) (by simpa using hne)
        have hN : (raw.length : ℚ) ≠ 0 := by exact_mod_cast (List.length_pos_iff.2 hne).ne'
        have h2 : avg (raw.map fun x => x - (s + k0 * T - first)) = avg raw - (s + k0 * T - first) := by
          unfold avg
          rw [sum_sub_const, List.length_map]
          field_simp
        rwa [h2] at h1
      rw [show R.fl (first + mean raw) - (s + k0 * T) = (R.fl (first + mean raw) - (first + mean raw)) + ((mean raw - avg raw) + (avg raw - (s + k0 * T - first))) by ring]
      have g1 := abs_add_le (R.fl (first + mean raw) - (first + mean raw)) ((mean raw - avg raw) + (avg raw - (s + k0 * T - first)))
      have g2 := abs_add_le (mean raw - avg raw) (avg raw - (s + k0 * T - first))
      have g3 : 0 ≤ ((d : ℚ) + 1) * R.u * T := by positivity
      linarith
    · intro i h h' h''
      have hi : i < raw.length := by rw [hlen]; exact h
      have e : ties[i] = R.fl (raw[i] - mean raw) := by
        subst c2
        rw [List.getElem_map]
      have a1 := hjit i hi h h''
      have a2 := htie raw[i] (List.getElem_mem hi)
      rw [e]
      generalize (((k0 :: ks)[i] - k0 : ℤ) : ℚ) = z at a1 ⊢
      rw [show (first :: rest)[i] - (R.fl (first + mean raw) + z * T + R.fl (raw[i] - mean raw)) =
        ((first :: rest)[i] - first - z * T - raw[i]) -
        ((R.fl (first + mean raw) - (first + mean raw)) + (R.fl (raw[i] - mean raw) - (raw[i] - mean raw))) by ring]
      have g1 := abs_sub ((first :: rest)[i] - first - z * T - raw[i])
        ((R.fl (first + mean raw) - (first + mean raw)) + (R.fl (raw[i] - mean raw) - (raw[i] - mean raw)))
      have g2 := abs_add_le (R.fl (first + mean raw) - (first + mean raw)) (R.fl (raw[i] - mean raw) - (raw[i] - mean raw))
      linarith
  · exfalso
    rw [hraw] at hxy
    have hx : x ∈ raw.map fun x => R.fl (x - mean raw) := hxy.subset (by simp)
    have hy : y ∈ raw.map fun x => R.fl (x - mean raw) := hxy.subset (by simp)
    obtain ⟨p, hp, rfl⟩ := List.mem_map.1 hx
    obtain ⟨q, hq, rfl⟩ := List.mem_map.1 hy
    have a1 := htie p hp
    have a2 := htie q hq
    have b1 := hoff p hp
    have b2 := hoff q hq
    have h2 := (abs_le.1 (half_near R hT)).1
    generalize R.fl (p - mean raw) = x at *
    generalize R.fl (q - mean raw) = y at *
    have c1 : |y - x| ≤ 2 * J + 19 * R.u * (A + T) := by
      rw [show y - x = ((y - (q - mean raw)) - (x - (p - mean raw))) + ((q - (s + k0 * T - first)) - (p - (s + k0 * T - first))) by ring]
      have g1 := abs_add_le ((y - (q - mean raw)) - (x - (p - mean raw))) ((q - (s + k0 * T - first)) - (p - (s + k0 * T - first)))
      have g2 := abs_sub (y - (q - mean raw)) (x - (p - mean raw))
      have g3 := abs_sub (q - (s + k0 * T - first)) (p - (s + k0 * T - first))
      linarith
    have c2 := R.err (y - x)
    have c3 : |R.fl (y - x)| ≤ |R.fl (y - x) - (y - x)| + |y - x| := by
      have := abs_add_le (R.fl (y - x) - (y - x)) (y - x)
      rwa [sub_add_cancel] at this
    have c4 : R.u * |y - x| ≤ R.u * (T / 2) := mul_le_mul_of_nonneg_left (by linarith) hu
    linarith

/-! ### The period -/

theorem sum_diffs (a : ℚ) (l : List ℚ) (b : ℚ) (h : (a :: l).getLast? = some b) : (diffs (a :: l)).sum = b - a := by
  induction l generalizing a with
  | nil =>
    obtain rfl : a = b := by simpa using h
    simp [diffs]
  | cons c l ih =>
    have e : diffs (a :: c :: l) = (c - a) :: diffs (c :: l) := rfl
    rw [e, List.sum_cons, ih c (by rw [← h]; simp)]
    ring

theorem length_diffs (l : List ℚ) : (diffs l).length = l.length - 1 := by
  induction l with
  | nil => rfl
  | cons a l ih =>
    cases l with
    | nil => rfl
    | cons b l =>
      have e : diffs (a :: b :: l) = (b - a) :: diffs (b :: l) := rfl
      rw [e, List.length_cons, ih]
      simp

/-- The number of symbols between two edges. -/
theorem gap_symbols (R : Rounding) {A T J s e e' : ℚ} {k k' : ℤ} (hT : 0 < T) (he : |e| ≤ A) (he' : |e'| ≤ A)
    (hJ : 2 * J + 20 * R.u * (A + T) < T / 2) (h : |e - (s + k * T)| ≤ J) (h' : |e' - (s + k' * T)| ≤ J) :
    ⌊R.fl (R.fl (R.fl (e' - e) / T) + 1 / 2)⌋ = k' - k := by
  have hu := R.u_nonneg
  have hs := R.u_small
  have hA : 0 ≤ A := (abs_nonneg _).trans he
  have uT0 : 0 ≤ R.u * T := mul_nonneg hu hT.le
  have uT : R.u * T ≤ 1 / 100 * T := mul_le_mul_of_nonneg_right hs hT.le
  have uA0 : 0 ≤ R.u * A := mul_nonneg hu hA
  obtain ⟨a, ha, ea⟩ := rel R (e' - e)
  obtain ⟨b, hb, eb⟩ := rel R (R.fl (e' - e) / T)
  have s1 : |(1 + a) - 1| ≤ 1 * R.u := by simpa using ha
  have s2 := step hu hs (by norm_num) s1 hb
  have hD : |e' - e| ≤ 2 * A := by
    have := abs_sub e' e
    linarith
  have hq : R.fl (R.fl (e' - e) / T) * T - (e' - e) = (e' - e) * ((1 + a) * (1 + b) - 1) := by
    rw [eb, ea]
    field_simp
  set q := R.fl (R.fl (e' - e) / T)
  have hq1 : |q * T - (e' - e)| ≤ 21 / 5 * (R.u * A) := by
    rw [hq, abs_mul]
    calc |e' - e| * |(1 + a) * (1 + b) - 1| ≤ (2 * A) * ((1 + 1 + 1 / 100) * R.u) := mul_le_mul hD s2 (abs_nonneg _) (by linarith)
      _ ≤ 21 / 5 * (R.u * A) := by linarith
  have hq2 : |q * T| ≤ 21 / 10 * A := by
    rw [show q * T = (q * T - (e' - e)) + (e' - e) by ring]
    have := abs_add_le (q * T - (e' - e)) (e' - e)
    have uA : R.u * A ≤ 1 / 100 * A := mul_le_mul_of_nonneg_right hs hA
    linarith
  have hv := R.err (q + 1 / 2)
  set v := R.fl (q + 1 / 2)
  have hv1 : |v * T - (q * T + T / 2)| ≤ R.u * (21 / 10 * A + T / 2) := by
    rw [show v * T - (q * T + T / 2) = (v - (q + 1 / 2)) * T by ring, abs_mul, abs_of_pos hT]
    have h1 : |v - (q + 1 / 2)| * T ≤ R.u * |q + 1 / 2| * T := mul_le_mul_of_nonneg_right hv hT.le
    have h2 : |q + 1 / 2| * T ≤ 21 / 10 * A + T / 2 := by
      rw [← abs_of_pos hT, ← abs_mul, abs_of_pos hT, show (q + 1 / 2) * T = q * T + T / 2 by ring]
      have := abs_add_le (q * T) (T / 2)
      rw [abs_of_pos (show (0 : ℚ) < T / 2 by linarith)] at this
      linarith
    have h3 := mul_le_mul_of_nonneg_left h2 hu
    linarith
  have g1 := abs_le.1 h
  have g2 := abs_le.1 h'
  have g3 := abs_le.1 hq1
  have g4 := abs_le.1 hv1
  rw [Int.floor_eq_iff]
  push_cast
  constructor
  · have : ((k' : ℚ) - k) * T ≤ v * T := by linarith
    exact le_of_mul_le_mul_right this hT
  · have : v * T < ((k' : ℚ) - k + 1) * T := by linarith
    exact lt_of_mul_lt_mul_right this hT.le

theorem numSym_eq (R : Rounding) {A T J s : ℚ} (hT : 0 < T) (hJ : 2 * J + 20 * R.u * (A + T) < T / 2) (edges : List ℚ) (k : List ℤ)
    (hk : Jittered s T J edges k) (hA : ∀ e ∈ edges, |e| ≤ A) :
    ((diffsF R edges).map fun p => (⌊R.fl (R.fl (p / T) + 1 / 2)⌋ : ℚ)) = diffs (k.map fun j : ℤ => (j : ℚ)) := by
  induction hk with
  | nil => rfl
  | @cons e j es js h hs ih =>
    cases hs with
    | nil => rfl
    | @cons e' j' es' js' h' hs' =>
      have i1 := ih fun x hx => hA x (List.mem_cons_of_mem _ hx)
      have e1 : diffsF R (e :: e' :: es') = R.fl (e' - e) :: diffsF R (e' :: es') := rfl
      have e2 : diffs ((j :: j' :: js').map fun j : ℤ => (j : ℚ)) = ((j' : ℚ) - j) :: diffs ((j' :: js').map fun j : ℤ => (j : ℚ)) := rfl
      rw [e1, e2, List.map_cons, i1, gap_symbols R hT (hA e List.mem_cons_self) (hA e' (by simp)) hJ h h']
      push_cast
      rfl

theorem k_mono (R : Rounding) {A T J s : ℚ} (hT : 0 < T) (hA0 : 0 ≤ A) (hJ : 2 * J + 20 * R.u * (A + T) < T / 2) (edges : List ℚ) (k : List ℤ)
    (hk : Jittered s T J edges k) (hs : edges.Pairwise (· < ·)) : ∀ x ∈ diffs (k.map fun j : ℤ => (j : ℚ)), 0 ≤ x := by
  induction hk with
  | nil => simp [diffs]
  | @cons e j es js h hs' ih =>
    cases hs' with
    | nil => simp [diffs]
    | @cons e' j' es' js' h' hs'' =>
      have e2 : diffs ((j :: j' :: js').map fun j : ℤ => (j : ℚ)) = ((j' : ℚ) - j) :: diffs ((j' :: js').map fun j : ℤ => (j : ℚ)) := rfl
      rw [e2]
      rw [List.pairwise_cons] at hs
      intro x hx
      rcases List.mem_cons.1 hx with rfl | hx
      · have h1 := hs.1 e' List.mem_cons_self
        have g1 := abs_le.1 h
        have g2 := abs_le.1 h'
        have hu : 0 ≤ R.u * (A + T) := mul_nonneg R.u_nonneg (by linarith)
        have h2 : ((j : ℚ) - j') * T < 1 * T := by linarith
        have h3 := lt_of_mul_lt_mul_right h2 hT.le
        have h4 : j - j' < 1 := by exact_mod_cast h3
        have h5 : (0 : ℤ) ≤ j' - j := by omega
        exact_mod_cast h5
      · exact ih hs.2 x hx

/-- Step 1 accepts edges with little jitter and between 0.95 and 4.9 symbols per edge on average. -/
theorem periodF_locks (R : Rounding) (mean : List ℚ → ℚ) (minimize : List ℚ → ℚ → ℚ → ℚ → Except PyErr ℚ) (detrend : List ℚ → ℚ → Except PyErr (Option ℚ))
    (d : ℕ) (edges : List ℚ) (T A J s : ℚ) (k0 : ℤ) (ks : List ℤ) (kl : ℤ) (hm : IsMean R d edges.length mean) (hd : (d + 1) * R.u ≤ 1 / 100)
    (hA : ∀ e ∈ edges, |e| ≤ A) (hT : 0 < T) (hs : edges.Pairwise (· < ·)) (h2 : 2 ≤ edges.length) (hk : Jittered s T J edges (k0 :: ks))
    (hkl : (k0 :: ks).getLast? = some kl) (hJ : 2 * J + 20 * R.u * (A + T) < T / 2)
    (ha : 19 / 20 * ((edges.length : ℚ) - 1) ≤ kl - k0 ∧ kl - k0 ≤ 49 / 10 * ((edges.length : ℚ) - 1)) :
    periodF R mean minimize detrend ⟨some T, true⟩ edges = .ok (some T) := by
  have hu := R.u_nonneg
  have hlen := hk.length_eq
  have hA0 : 0 ≤ A := by
    obtain ⟨e, l, rfl⟩ := List.exists_cons_of_ne_nil (show edges ≠ [] by intro h; subst h; simp at h2)
    exact (abs_nonneg _).trans (hA e List.mem_cons_self)
  unfold periodF
  rw [if_neg (by omega)]
  simp only
  rw [numSym_eq R hT hJ edges _ hk hA]
  have hpos := k_mono R hT hA0 hJ edges _ hk hs
  obtain ⟨l, hl⟩ : ∃ l, diffs ((k0 :: ks).map fun j : ℤ => (j : ℚ)) = l := ⟨_, rfl⟩
  have hll : l.length = edges.length - 1 := by rw [← hl, length_diffs, List.length_map, ← hlen]
  have hsum : l.sum = kl - k0 := by
    rw [← hl]
    refine sum_diffs (k0 : ℚ) (ks.map fun j : ℤ => (j : ℚ)) kl ?_
    rw [show (k0 : ℚ) :: ks.map (fun j : ℤ => (j : ℚ)) = (k0 :: ks).map fun j : ℤ => (j : ℚ) from rfl, List.getLast?_map, hkl]
    rfl
  rw [hl] at hpos ⊢
  have hne : l ≠ [] := by intro h; rw [h] at hll; simp at hll; omega
  have hN : (0 : ℚ) < l.length := by exact_mod_cast List.length_pos_iff.2 hne
  have hNe : (l.length : ℚ) = (edges.length : ℚ) - 1 := by
    rw [hll, Nat.cast_sub (by omega)]
    simp
  have h1 := mean_near R d _ mean hm hd l hne (by omega)
  have habs : l.map (fun x => |x|) = l := by
    conv_rhs => rw [← List.map_id l]
    apply List.map_congr_left
    intro x hx
    rw [abs_of_nonneg (hpos x hx)]
    rfl
  rw [habs] at h1
  have a1 : 19 / 20 ≤ avg l := by
    unfold avg
    rw [le_div_iff₀ hN, hsum, hNe]
    exact ha.1
  have a2 : avg l ≤ 49 / 10 := by
    unfold avg
    rw [div_le_iff₀ hN, hsum, hNe]
    exact ha.2
  have h3 : 100 / 99 * ((d + 1) * R.u) * avg l ≤ 100 / 99 * (1 / 100) * avg l :=
    mul_le_mul_of_nonneg_right (by linarith) (by linarith)
  have h4 := abs_le.1 (h1.trans h3)
  have h5 := (abs_le.1 (R.err (9 / 10))).2
  rw [abs_of_pos (by norm_num : (0 : ℚ) < 9 / 10)] at h5
  have hs' := R.u_small
  rw [if_neg, if_pos trivial]
  push Not
  constructor <;> linarith

/-! ### C98 -/

theorem runF_eq (R : Rounding) (mean : List ℚ → ℚ) (minimize : List ℚ → ℚ → ℚ → ℚ → Except PyErr ℚ) (detrend : List ℚ → ℚ → Except PyErr (Option ℚ))
    (c : Config) (first : ℚ) (rest : List ℚ) (last : ℚ) (hl : (first :: rest).getLast? = some last) :
    runF R mean minimize detrend c (first :: rest) false =
      (periodF R mean minimize detrend c (first :: rest)).bind (clockF R mean (first :: rest) first last) ∧
    runF R mean minimize detrend c (first :: rest) true = (runF R mean minimize detrend c (first :: rest) false).map
      fun r => (r.1, r.1.map (previous (first :: rest) r.2)) := by
  have hg : pyGet (first :: rest) 0 = .ok first := rfl
  have hgl : pyGet (first :: rest) ((first :: rest).length - 1) = .ok last := by
    unfold pyGet
    rw [List.getLast?_eq_getElem?] at hl
    rw [hl]
  unfold runF
  simp only [hg, hgl, bind, Except.bind]
  cases periodF R mean minimize detrend c (first :: rest) with
  | error e => exact ⟨rfl, rfl⟩
  | ok t =>
    simp only
    cases clockF R mean (first :: rest) first last t with
    | error e => exact ⟨rfl, rfl⟩
    | ok r => exact ⟨rfl, rfl⟩

/-- **C98.** Whatever clock is returned in rounded arithmetic, it fits the data edges up to rounding: the errors are relative to the times involved, for
the mean of the time interval errors relative to the period.  The period is the given one if it is fixed. -/
theorem C98_fits (R : Rounding) (mean : List ℚ → ℚ) (minimize : List ℚ → ℚ → ℚ → ℚ → Except PyErr ℚ) (detrend : List ℚ → ℚ → Except PyErr (Option ℚ))
    (c : Config) (d : ℕ) (edges : List ℚ) (A : ℚ) (hs : edges.Pairwise (· < ·)) (hm : IsMean R d edges.length mean) (hd : (d + 1) * R.u ≤ 1 / 100)
    (hA : ∀ e ∈ edges, |e| ≤ A) (clk ties : List ℚ) (h : runF R mean minimize detrend c edges false = .ok (clk, ties)) :
    ∃ T start, 0 < T ∧ (c.fixedPeriod = true → c.tSym = some T) ∧
      Nearly edges T (20 * R.u * (A + T)) (2 * ((d + 1) * R.u) * T) start clk ties := by
  have hne : edges ≠ [] := by
    intro hc
    subst hc
    cases h
  obtain ⟨first, rest, rfl⟩ := List.exists_cons_of_ne_nil hne
  obtain ⟨last, hlast⟩ : ∃ last, (first :: rest).getLast? = some last := ⟨_, List.getLast?_eq_some_getLast hne⟩
  have hfl := last_ge first rest hs last hlast
  rw [(runF_eq R mean minimize detrend c first rest last hlast).1] at h
  cases hp : periodF R mean minimize detrend c (first :: rest) with
  | error e => rw [hp] at h; cases h
  | ok t =>
    rw [hp] at h
    change clockF R mean (first :: rest) first last t = .ok (clk, ties) at h
    cases t with
    | none => cases h
    | some T =>
      have hT : 0 < T := by
        by_contra hc
        unfold clockF at h
        simp only at h
        rw [if_pos (not_lt.1 hc)] at h
        cases h
      rcases clockF_spec R mean d first rest last T A hm hd hA hlast hT hfl with ⟨clk', ties', c1, -, c3⟩ | ⟨c1, -⟩
      · rw [h] at c1
        cases c1
        refine ⟨T, _, hT, ?_, c3⟩
        intro hf
        unfold periodF at hp
        split at hp
        · cases hp
        · split at hp
          · cases hp
          · simp only [hf, if_true] at hp
            split at hp
            · cases hp
            · rename_i ht _
              rw [ht]
              cases hp
              rfl
      · rw [h] at c1
        cases c1

/-- **C98.** Data edges with a jitter below a quarter of the fixed period, up to rounding, give a clock: no error is raised, every clock edge is within
the jitter and rounding of the centre of a symbol, every data edge is the distance of its symbol number and its time interval error from the start. -/
theorem C98_locks (R : Rounding) (mean : List ℚ → ℚ) (minimize : List ℚ → ℚ → ℚ → ℚ → Except PyErr ℚ) (detrend : List ℚ → ℚ → Except PyErr (Option ℚ))
    (d : ℕ) (edges : List ℚ) (T A J s : ℚ) (k0 : ℤ) (ks : List ℤ) (kl : ℤ) (hs : edges.Pairwise (· < ·)) (hm : IsMean R d edges.length mean)
    (hd : (d + 1) * R.u ≤ 1 / 100) (hA : ∀ e ∈ edges, |e| ≤ A) (hT : 0 < T) (h2 : 2 ≤ edges.length) (hk : Jittered s T J edges (k0 :: ks))
    (hkl : (k0 :: ks).getLast? = some kl) (hJ : 2 * J + 20 * R.u * (A + T) < T / 2)
    (ha : 19 / 20 * ((edges.length : ℚ) - 1) ≤ kl - k0 ∧ kl - k0 ≤ 49 / 10 * ((edges.length : ℚ) - 1)) :
    ∃ clk ties start, runF R mean minimize detrend ⟨some T, true⟩ edges false = .ok (clk, ties) ∧
      Nearly edges T (20 * R.u * (A + T)) (2 * ((d + 1) * R.u) * T) start clk ties ∧
      (∀ i (h : i < clk.length), |clk[i] - (s + (k0 + i + 1 / 2) * T)| ≤ J + 40 * R.u * (A + T) + 2 * ((d + 1) * R.u) * T) ∧
      (∀ i (h : i < edges.length) (h' : i < ties.length) (h'' : i < (k0 :: ks).length),
        |edges[i] - (start + (((k0 :: ks)[i] - k0 : ℤ) : ℚ) * T + ties[i])| ≤ 20 * R.u * (A + T)) := by
  have hne : edges ≠ [] := by intro h; subst h; simp at h2
  obtain ⟨first, rest, rfl⟩ := List.exists_cons_of_ne_nil hne
  obtain ⟨last, hlast⟩ : ∃ last, (first :: rest).getLast? = some last := ⟨_, List.getLast?_eq_some_getLast hne⟩
  have hfl := last_ge first rest hs last hlast
  obtain ⟨clk, ties, start, c1, c2, c3, c4⟩ := clockF_locks R mean d first rest last T A J s k0 ks hm hd hA hlast hT hfl hk hJ
  refine ⟨clk, ties, start, ?_, c2, ?_, c4⟩
  · rw [(runF_eq R mean minimize detrend _ first rest last hlast).1,
      periodF_locks R mean minimize detrend d _ T A J s k0 ks kl hm hd hA hT hs h2 hk hkl hJ ha]
    exact c1
  · intro i h
    have g1 := c2.centres i h
    rw [show clk[i] - (s + (k0 + i + 1 / 2) * T) = (clk[i] - (start + (i + 1 / 2) * T)) + (start - (s + k0 * T)) by ring]
    have := abs_add_le (clk[i] - (start + (i + 1 / 2) * T)) (start - (s + k0 * T))
    linarith

theorem count_of (edges clk ties : List ℚ) (T ε μ start a b : ℚ) (hT : 0 < T) (h : Nearly edges T ε μ start clk ties) (ha : edges.head? = some a)
    (hb : edges.getLast? = some b) (m : ℕ) (h1 : ((m : ℚ) - 1) * T + ε < b - a) (h2 : b - a + ε ≤ m * T) : clk.length = m := by
  obtain ⟨c1, c2⟩ := h.count a ha b hb
  have d1 : ((clk.length : ℚ) - 1) * T < m * T := by linarith
  have d2 : ((m : ℚ) - 1) * T < clk.length * T := by linarith
  have e1 := lt_of_mul_lt_mul_right d1 hT.le
  have e2 := lt_of_mul_lt_mul_right d2 hT.le
  have f1 : (clk.length : ℤ) - 1 < m := by exact_mod_cast e1
  have f2 : (m : ℤ) - 1 < clk.length := by exact_mod_cast e2
  omega

/-- **C98.** The number of clock edges is the number of symbols begun, unless the data ends within rounding of a symbol boundary. -/
theorem C98_count_partial (R : Rounding) (mean : List ℚ → ℚ) (minimize : List ℚ → ℚ → ℚ → ℚ → Except PyErr ℚ)
    (detrend : List ℚ → ℚ → Except PyErr (Option ℚ)) (T : ℚ) (d : ℕ) (edges : List ℚ) (A : ℚ) (hs : edges.Pairwise (· < ·))
    (hm : IsMean R d edges.length mean) (hd : (d + 1) * R.u ≤ 1 / 100) (hA : ∀ e ∈ edges, |e| ≤ A) (clk ties : List ℚ)
    (h : runF R mean minimize detrend ⟨some T, true⟩ edges false = .ok (clk, ties)) (a b : ℚ) (ha : edges.head? = some a)
    (hb : edges.getLast? = some b) (m : ℕ) (h1 : ((m : ℚ) - 1) * T + 20 * R.u * (A + T) < b - a) (h2 : b - a + 20 * R.u * (A + T) ≤ m * T) :
    clk.length = m := by
  obtain ⟨T', start, hT, hf, hn⟩ := C98_fits R mean minimize detrend ⟨some T, true⟩ d edges A hs hm hd hA clk ties h
  obtain rfl : T = T' := Option.some.inj (hf rfl)
  exact count_of edges clk ties T _ _ start a b hT hn ha hb m h1 h2

/-- **C98.** Resampling only changes the errors: the clock is the same, and the error at each clock edge is the one of a data edge. -/
theorem C98_resample (R : Rounding) (mean : List ℚ → ℚ) (minimize : List ℚ → ℚ → ℚ → ℚ → Except PyErr ℚ) (detrend : List ℚ → ℚ → Except PyErr (Option ℚ))
    (c : Config) (edges : List ℚ) (hs : edges.Pairwise (· < ·)) (hne : edges ≠ []) (clk r : List ℚ) :
    runF R mean minimize detrend c edges true = .ok (clk, r) ↔
      ∃ ties, runF R mean minimize detrend c edges false = .ok (clk, ties) ∧ r = clk.map (previous edges ties) := by
  obtain ⟨first, rest, rfl⟩ := List.exists_cons_of_ne_nil hne
  obtain ⟨last, hlast⟩ : ∃ last, (first :: rest).getLast? = some last := ⟨_, List.getLast?_eq_some_getLast hne⟩
  rw [(runF_eq R mean minimize detrend c first rest last hlast).2]
  cases runF R mean minimize detrend c (first :: rest) false with
  | error e => simp [Except.map]
  | ok p =>
    obtain ⟨p1, p2⟩ := p
    simp only [Except.map]
    constructor
    · intro h
      cases h
      exact ⟨p2, rfl, rfl⟩
    · rintro ⟨ties, h1, rfl⟩
      cases h1
      rfl

/-- **C98.** The documented errors are raised in doubles, too: ValueError for fewer than two edges, ValueError without a period in the configuration,
and ValueError where another fit of the period would give a clock but this one does not give a number. -/
theorem C98_errors (R : Rounding) (mean : List ℚ → ℚ) (minimize : List ℚ → ℚ → ℚ → ℚ → Except PyErr ℚ) (detrend other : List ℚ → ℚ → Except PyErr (Option ℚ))
    (c : Config) (edges : List ℚ) (hne : edges ≠ []) (resample : Bool) :
    (edges.length < 2 → runF R mean minimize detrend c edges resample = .error .valueError) ∧
    (c.tSym = none → runF R mean minimize detrend c edges resample = .error .valueError) ∧
    ((∀ t, detrend edges t = .ok none) → c.fixedPeriod = false → (∃ out, runF R mean minimize other c edges resample = .ok out) →
      runF R mean minimize detrend c edges resample = .error .valueError) := by
  obtain ⟨first, rest, rfl⟩ := List.exists_cons_of_ne_nil hne
  have hg : pyGet (first :: rest) 0 = .ok first := rfl
  unfold runF
  simp only [hg, bind, Except.bind]
  unfold periodF
  refine ⟨fun h => ?_, fun h => ?_, fun hd hf hother => ?_⟩
  · rw [if_pos h]
  · rw [h]
    split <;> rename_i hx <;> split at hx <;> simp_all
  · obtain ⟨out, ho⟩ := hother
    have hl : ∃ z, pyGet (first :: rest) ((first :: rest).length - 1) = .ok z := by
      unfold pyGet
      rw [List.getElem?_eq_getElem (by simp)]
      exact ⟨_, rfl⟩
    obtain ⟨z, hz⟩ := hl
    by_cases h2 : (first :: rest).length < 2
    · rw [if_pos h2]
    rw [if_neg h2] at ho ⊢
    cases ht : c.tSym with
    | none => rfl
    | some t =>
      rw [ht] at ho
      simp only [hf, Bool.false_eq_true, if_false, bind, Except.bind, hz] at ho ⊢
      split at ho
      · rename_i hx
        cases ho
      · rename_i hx
        split at hx
        · cases hx
        · rename_i hm
          rw [if_neg hm]
          split at hx
          · cases hx
          · rename_i hmin
            simp only [hd, clockF]

/-- The third part of `C98_errors`: two bits with another fit, in doubles. -/
example : ∃ out, runF double (meanF double) (fun _ _ _ _ => .ok 1) (fun _ t => .ok (some t)) ⟨some 1, false⟩ [0, 1, 2, 4] true = .ok out := by
  refine ⟨([1 / 2, 3 / 2, 5 / 2, 7 / 2], [0, 0, 0, 0]), by decide +kernel⟩

/-- **C98 (no rounding).** With exact arithmetic these are the functions of the other properties. -/
theorem C98_exact : (∀ n, IsMean exact (n - 1) n avg) ∧ (∀ mi de c e, periodF exact avg mi de c e = period mi de c e) ∧
    ∀ (e : List ℚ) (a b T : ℚ), 0 < T → clockF exact avg e a b (some T) = clock e a b (some T) := by
  have hdiff : ∀ l, diffsF exact l = diffs l := by
    intro l
    induction l with
    | nil => rfl
    | cons a l ih =>
      cases l with
      | nil => rfl
      | cons b l =>
        change (b - a) :: diffsF exact (b :: l) = (b - a) :: diffs (b :: l)
        rw [ih]
  have hfl : ∀ x, exact.fl x = x := fun _ => rfl
  refine ⟨?_, ?_, ?_⟩
  · intro n l hne hl
    obtain ⟨s, h1, h2⟩ := meanF_isMean exact n l hne hl
    refine ⟨l.sum, ?_, rfl⟩
    have h3 := summed_near exact _ l s h1
    have h4 : s = l.sum := by
      have : |s - l.sum| ≤ 0 := by simpa [exact] using h3
      linarith [abs_nonpos_iff.1 this]
    rwa [← h4]
  · intro mi de c e
    unfold periodF period
    obtain ⟨t, f⟩ := c
    cases t <;> simp only [hdiff, hfl]
  · intro e a b T hT
    unfold clockF clock
    simp only [if_neg (not_le.2 hT), if_neg hT.ne', hdiff, linspaceF_exact]
    have ht : ∀ x, tieF exact a T x = pyMod (x - a + T / 2) T - T / 2 := by
      intro x
      unfold tieF
      have := pyModF_near exact (x - a + T / 2) T hT
      have h0 : pyModF exact (x - a + T / 2) T = pyMod (x - a + T / 2) T := by
        have h1 : |pyModF exact (x - a + T / 2) T - pyMod (x - a + T / 2) T| ≤ 0 := by simpa [exact] using this.1
        linarith [abs_nonpos_iff.1 h1]
      simp only [exact, id] at h0 ⊢
      rw [h0]
    have ht' : tieF exact a T = fun x => pyMod (x - a + T / 2) T - T / 2 := funext ht
    rw [ht']
    simp only [hfl]

/-- **C98 fails for the number of clock edges.** Data edges at exact multiples of a fixed period of 0.05 (all of them doubles): three symbols, as many clock
edges in exact arithmetic, but four in doubles, the last one after the last data edge. -/
theorem C98_count_fails : ∃ T : ℚ, ∃ edges : List ℚ, (∀ v ∈ T :: edges, double.fl v = v) ∧ edges = [T, 2 * T, 4 * T] ∧
    (∀ mi de, ∃ clk ties, run mi de ⟨some T, true⟩ edges false = .ok (clk, ties) ∧ clk.length = 3) ∧
    ∀ mi de, ∃ clk ties, runF double (meanF double) mi de ⟨some T, true⟩ edges false = .ok (clk, ties) ∧ clk.length = 4 ∧
      ∃ x ∈ clk, 4 * T < x := by
  let T : ℚ := 3602879701896397 / 72057594037927936
  have e1 : ∀ mi de, run mi de ⟨some T, true⟩ [T, 2 * T, 4 * T] false =
      (clock [T, 2 * T, 4 * T] T (4 * T) (some T)) := by
    intro mi de
    rw [(run_eq mi de _ T [2 * T, 4 * T] (4 * T) (by simp)).1]
    have : period mi de ⟨some T, true⟩ [T, 2 * T, 4 * T] = .ok (some T) := by
      unfold period
      rw [if_neg (by decide)]
      simp only
      rw [if_neg (by decide +kernel), if_pos trivial]
    rw [this]
    rfl
  have e2 : ∀ mi de, runF double (meanF double) mi de ⟨some T, true⟩ [T, 2 * T, 4 * T] false =
      (clockF double (meanF double) [T, 2 * T, 4 * T] T (4 * T) (some T)) := by
    intro mi de
    rw [(runF_eq double (meanF double) mi de _ T [2 * T, 4 * T] (4 * T) (by simp)).1]
    have : periodF double (meanF double) mi de ⟨some T, true⟩ [T, 2 * T, 4 * T] = .ok (some T) := by
      unfold periodF
      rw [if_neg (by decide)]
      simp only
      rw [if_neg (by decide +kernel), if_pos trivial]
    rw [this]
    rfl
  refine ⟨T, [T, 2 * T, 4 * T], by decide +kernel, rfl, ?_, ?_⟩
  · intro mi de
    rw [e1]
    have : (clock [T, 2 * T, 4 * T] T (4 * T) (some T)).toOption.map (fun r => r.1.length) = some 3 := by decide +kernel
    cases hc : clock [T, 2 * T, 4 * T] T (4 * T) (some T) with
    | error e => rw [hc] at this; cases this
    | ok r =>
      rw [hc] at this
      exact ⟨r.1, r.2, rfl, Option.some.inj this⟩
  · intro mi de
    rw [e2]
    have : (clockF double (meanF double) [T, 2 * T, 4 * T] T (4 * T) (some T)).toOption.map (fun r => (r.1.length, r.1.any fun x => decide (4 * T < x))) =
        some (4, true) := by decide +kernel
    cases hc : clockF double (meanF double) [T, 2 * T, 4 * T] T (4 * T) (some T) with
    | error e => rw [hc] at this; cases this
    | ok r =>
      rw [hc] at this
      have h := Option.some.inj this
      refine ⟨r.1, r.2, rfl, congrArg Prod.fst h, ?_⟩
      have h2 := congrArg Prod.snd h
      simpa using h2

/-- The hypotheses of the C98 theorems are met by doubles: five edges of a clock with period 1 and a jitter of an eighth, starting at 1000.1. -/
example : let edges : List ℚ := [10001 / 10, 100121 / 100, 100405 / 100, 10051 / 10, 100818 / 100]
    edges.Pairwise (· < ·) ∧ IsMean double 4 edges.length (meanF double) ∧ ((4 : ℕ) + 1) * double.u ≤ 1 / 100 ∧ (∀ e ∈ edges, |e| ≤ 1100) ∧
    Jittered (10001 / 10) 1 (1 / 8) edges [0, 1, 4, 5, 8] ∧ 2 * (1 / 8) + 20 * double.u * (1100 + 1) < (1 : ℚ) / 2 ∧
    ((19 : ℚ) / 20 * (edges.length - 1) ≤ 8 - 0 ∧ (8 : ℚ) - 0 ≤ 49 / 10 * (edges.length - 1)) ∧
    ((9 : ℕ) - 1 : ℚ) * 1 + 20 * double.u * (1100 + 1) < 100818 / 100 - 10001 / 10 := by
  refine ⟨by decide +kernel, meanF_isMean double 5, by decide +kernel, by decide +kernel, ?_, by decide +kernel, by decide +kernel, by decide +kernel⟩
  unfold Jittered
  refine .cons ?_ (.cons ?_ (.cons ?_ (.cons ?_ (.cons ?_ .nil)))) <;> decide +kernel

end Verif.Props.FloatCdr
