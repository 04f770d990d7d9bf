import Verif.Model.FloatUncertain
import Verif.Props.FloatStats
import Verif.Props.FloatCdr

/-!
C105: uncertain values in rounded arithmetic.  The propagation laws of C16, stated for variances so that no irrational number is needed.
-/

namespace Verif.Props.FloatUncertain

open Verif Verif.Float Verif.Props.Float Verif.Props.FloatStats Verif.Props.FloatCdr
open Verif.Cdr (avg)

/-- `y` is `x` up to `k` roundings, for a nonnegative `x`. -/
def Within (R : Rounding) (k : ℕ) (x y : ℚ) : Prop := (1 - R.u) ^ k * x ≤ y ∧ y ≤ (1 + R.u) ^ k * x

theorem lo_pos (R : Rounding) : 0 < 1 - R.u := by linarith [R.u_small]

theorem hi_pos (R : Rounding) : 0 < 1 + R.u := by linarith [R.u_nonneg]

namespace Within

variable {R : Rounding} {k l : ℕ} {x y z w : ℚ}

theorem nonneg (h : Within R k x y) (hx : 0 ≤ x) : 0 ≤ y :=
  (mul_nonneg (pow_nonneg (lo_pos R).le k) hx).trans h.1

theorem trans (h1 : Within R k x y) (h2 : Within R l y z) : Within R (k + l) x z := by
  constructor
  · rw [pow_add, mul_comm ((1 - R.u) ^ k), mul_assoc]
    exact (mul_le_mul_of_nonneg_left h1.1 (pow_nonneg (lo_pos R).le l)).trans h2.1
  · rw [pow_add, mul_comm ((1 + R.u) ^ k), mul_assoc]
    exact h2.2.trans (mul_le_mul_of_nonneg_left h1.2 (pow_nonneg (hi_pos R).le l))

theorem mono (h : Within R k x y) (hx : 0 ≤ x) (hkl : k ≤ l) : Within R l x y := by
  have h1 : (1 - R.u) ^ l ≤ (1 - R.u) ^ k := pow_le_pow_of_le_one (lo_pos R).le (by linarith [R.u_nonneg]) hkl
  have h2 : (1 + R.u) ^ k ≤ (1 + R.u) ^ l := pow_le_pow_right₀ (by linarith [R.u_nonneg]) hkl
  exact ⟨(mul_le_mul_of_nonneg_right h1 hx).trans h.1, h.2.trans (mul_le_mul_of_nonneg_right h2 hx)⟩

theorem add (h1 : Within R k x y) (h2 : Within R k z w) : Within R k (x + z) (y + w) := by
  constructor
  · rw [mul_add]; exact add_le_add h1.1 h2.1
  · rw [mul_add]; exact add_le_add h1.2 h2.2

theorem mul (h1 : Within R k x y) (h2 : Within R l z w) (hx : 0 ≤ x) (hz : 0 ≤ z) : Within R (k + l) (x * z) (y * w) := by
  have hy := h1.nonneg hx
  constructor
  · rw [pow_add, mul_mul_mul_comm]
    exact mul_le_mul h1.1 h2.1 (mul_nonneg (pow_nonneg (lo_pos R).le l) hz) hy
  · rw [pow_add, mul_mul_mul_comm]
    exact mul_le_mul h1.2 h2.2 (h2.nonneg hz) (mul_nonneg (pow_nonneg (hi_pos R).le k) hx)

theorem div (h : Within R k x y) {n : ℚ} (hn : 0 < n) : Within R k (x / n) (y / n) := by
  constructor
  · rw [← mul_div_assoc]; exact div_le_div_of_nonneg_right h.1 hn.le
  · rw [← mul_div_assoc]; exact div_le_div_of_nonneg_right h.2 hn.le

end Within

theorem within_refl (R : Rounding) (x : ℚ) : Within R 0 x x := by simp [Within]

theorem within_fl (R : Rounding) {x : ℚ} (hx : 0 ≤ x) : Within R 1 x (R.fl x) := by
  have h := abs_le.1 (R.err x)
  rw [abs_of_nonneg hx] at h
  constructor <;> linarith [h.1, h.2]

/-- The square of a rounded number, whatever its sign. -/
theorem within_fl_sq (R : Rounding) (x : ℚ) : Within R 2 (x ^ 2) (R.fl x ^ 2) := by
  obtain ⟨δ, hδ, e⟩ := rel R x
  have hδ' := abs_le.1 hδ
  have hu := R.u_nonneg
  have hs := R.u_small
  rw [e, mul_pow]
  have h1 : (1 - R.u) ^ 2 ≤ (1 + δ) ^ 2 := pow_le_pow_left₀ (lo_pos R).le (by linarith) 2
  have h2 : (1 + δ) ^ 2 ≤ (1 + R.u) ^ 2 := pow_le_pow_left₀ (by linarith) (by linarith) 2
  have hx := sq_nonneg x
  constructor
  · rw [mul_comm]; exact mul_le_mul_of_nonneg_left h1 hx
  · rw [mul_comm ((1 + R.u) ^ 2)]; exact mul_le_mul_of_nonneg_left h2 hx

theorem within_root {R : Rounding} {root : ℚ → ℚ} (hr : IsRoot R root) {k : ℕ} {x y : ℚ} (hx : 0 ≤ x) (h : Within R k x y) :
    0 ≤ root y ∧ Within R (k + 2) x (root y ^ 2) := by
  obtain ⟨h1, h2, h3⟩ := hr y (h.nonneg hx)
  exact ⟨h1, h.trans ⟨h2, h3⟩⟩

theorem within_var (R : Rounding) (s t : ℚ) : Within R 2 (s ^ 2 + t ^ 2) (varF R s t) := by
  have h1 := within_fl R (sq_nonneg s)
  have h2 := within_fl R (sq_nonneg t)
  have h3 := h1.add h2
  exact h3.trans (within_fl R (h3.nonneg (by positivity)))

/-- Relative error of a rounded value. -/
def Rounded (R : Rounding) (x y : ℚ) : Prop := |y - x| ≤ R.u * |x|

/-- **C105.** Sum and difference of uncertain values in rounded arithmetic: the value is the rounded one, the variance is the sum of the variances up to
four roundings, the deviation is not negative.  A plain number leaves the deviation as it is. -/
theorem C105_add_sub (R : Rounding) (root : ℚ → ℚ) (hr : IsRoot R root) (a b : UVF) (c : ℚ) :
    Rounded R (a.value + b.value) (a.add R root b).value ∧ Rounded R (a.value - b.value) (a.sub R root b).value ∧
    0 ≤ (a.add R root b).stddev ∧ 0 ≤ (a.sub R root b).stddev ∧
    Within R 4 (a.stddev ^ 2 + b.stddev ^ 2) ((a.add R root b).stddev ^ 2) ∧
    Within R 4 (a.stddev ^ 2 + b.stddev ^ 2) ((a.sub R root b).stddev ^ 2) ∧
    Rounded R (a.value + c) (a.addC R c).value ∧ Rounded R (a.value - c) (a.subC R c).value ∧
    (a.addC R c).stddev = a.stddev ∧ (a.subC R c).stddev = a.stddev := by
  have h := within_root hr (by positivity) (within_var R a.stddev b.stddev)
  exact ⟨R.err _, R.err _, h.1, h.1, h.2, h.2, R.err _, R.err _, rfl, rfl⟩

theorem within_rel (R : Rounding) (root : ℚ → ℚ) (hr : IsRoot R root) (a b : UVF) :
    0 ≤ relF R root a b ∧ Within R 6 ((a.stddev / a.value) ^ 2 + (b.stddev / b.value) ^ 2) (relF R root a b ^ 2) := by
  have h1 := within_fl_sq R (a.stddev / a.value)
  have h2 := within_fl_sq R (b.stddev / b.value)
  have h3 := (h1.add h2).trans (within_var R _ _)
  exact within_root hr (by positivity) h3

theorem within_product {R : Rounding} {root : ℚ → ℚ} (hr : IsRoot R root) (a b : UVF) (v : ℚ) :
    0 ≤ R.fl (|R.fl v| * relF R root a b) ∧
    Within R 10 (v ^ 2 * ((a.stddev / a.value) ^ 2 + (b.stddev / b.value) ^ 2)) (R.fl (|R.fl v| * relF R root a b) ^ 2) := by
  have h := within_rel R root hr a b
  have h0 : 0 ≤ |R.fl v| * relF R root a b := mul_nonneg (abs_nonneg _) h.1
  refine ⟨(within_fl R h0).nonneg h0, ?_⟩
  have h1 := (within_fl_sq R v).mul h.2 (sq_nonneg v) (by positivity)
  have h2 := within_fl_sq R (|R.fl v| * relF R root a b)
  rw [mul_pow, sq_abs] at h2
  exact h1.trans h2

/-- **C105.** Product and quotient of uncertain values that are not zero, in rounded arithmetic: the value is the rounded one, the variance is the
one of the propagation law, relative variances add, up to ten roundings, and the deviation is not negative. -/
theorem C105_mul_div (R : Rounding) (root : ℚ → ℚ) (hr : IsRoot R root) (a b : UVF) (ha : a.value ≠ 0) (hb : b.value ≠ 0) :
    ∃ p q, a.mul R root b = .ok p ∧ a.div R root b = .ok q ∧
      Rounded R (a.value * b.value) p.value ∧ Rounded R (a.value / b.value) q.value ∧ 0 ≤ p.stddev ∧ 0 ≤ q.stddev ∧
      Within R 10 ((a.value * b.value) ^ 2 * ((a.stddev / a.value) ^ 2 + (b.stddev / b.value) ^ 2)) (p.stddev ^ 2) ∧
      Within R 10 ((a.value / b.value) ^ 2 * ((a.stddev / a.value) ^ 2 + (b.stddev / b.value) ^ 2)) (q.stddev ^ 2) := by
  have h1 := within_product hr a b (a.value * b.value)
  have h2 := within_product hr a b (a.value / b.value)
  refine ⟨_, _, if_neg (by simp [ha, hb]), if_neg (by simp [ha, hb]), R.err _, R.err _, h1.1, h2.1, h1.2, h2.2⟩

/-- **C105.** A value of zero is an error for product and quotient; a plain factor scales value and deviation, each with one rounding; only a plain
divisor of zero is an error. -/
theorem C105_scale (R : Rounding) (root : ℚ → ℚ) (a b : UVF) (c : ℚ) :
    ((a.value = 0 ∨ b.value = 0) → a.mul R root b = .error .zeroDivision ∧ a.div R root b = .error .zeroDivision) ∧
    Rounded R (a.value * c) (a.mulC R c).value ∧ Rounded R (a.stddev * |c|) (a.mulC R c).stddev ∧
    (c = 0 → a.divC R c = .error .zeroDivision) ∧
    (c ≠ 0 → ∃ q, a.divC R c = .ok q ∧ Rounded R (a.value / c) q.value ∧ Rounded R (a.stddev / |c|) q.stddev) := by
  refine ⟨fun h => ⟨if_pos h, if_pos h.symm⟩, R.err _, R.err _, fun h => if_pos h, fun h => ⟨_, if_neg h, R.err _, R.err _⟩⟩

/-! ### Samples -/

theorem sumSq_within {R : Rounding} {d : ℕ} {l : List ℚ} {s : ℚ} (h : SumSq R d l s) :
    0 ≤ (l.map fun x => x ^ 2).sum ∧ Within R (d + 1) (l.map fun x => x ^ 2).sum s := by
  have hnn : ∀ l : List ℚ, 0 ≤ (l.map fun x => x ^ 2).sum := by
    intro l
    apply List.sum_nonneg
    intro y hy
    obtain ⟨x, -, rfl⟩ := List.mem_map.1 hy
    exact sq_nonneg x
  refine ⟨hnn l, ?_⟩
  induction h with
  | one d x =>
    have := within_fl R (mul_self_nonneg x)
    simp only [List.map_cons, List.map_nil, List.sum_cons, List.sum_nil, add_zero]
    rw [sq]
    exact this.mono (mul_self_nonneg x) (by omega)
  | @add d l m k s t _ _ hp i1 i2 =>
    have e : (k.map fun x => x ^ 2).sum = (l.map fun x => x ^ 2).sum + (m.map fun x => x ^ 2).sum := by
      rw [← (hp.map fun x => x ^ 2).sum_eq, List.map_append, List.sum_append]
    rw [e]
    have h := i1.add i2
    exact h.trans (within_fl R (h.nonneg (add_nonneg (hnn l) (hnn m))))
  | @fma d l k s x _ hp i1 =>
    have e : (k.map fun x => x ^ 2).sum = (l.map fun x => x ^ 2).sum + x * x := by
      rw [← (hp.map fun x => x ^ 2).sum_eq, List.map_append, List.sum_append]
      simp [sq]
    rw [e]
    have h := i1.add ((within_refl R (x * x)).mono (mul_self_nonneg x) (by omega : 0 ≤ d + 1))
    exact h.trans (within_fl R (h.nonneg (add_nonneg (hnn l) (mul_self_nonneg x))))

theorem sums_within {R : Rounding} {k : ℕ} {f g : ℚ → ℚ} (l : List ℚ) (h : ∀ x ∈ l, Within R k (f x) (g x)) :
    Within R k (l.map f).sum (l.map g).sum := by
  induction l with
  | nil => simp [Within]
  | cons a l ih =>
    simp only [List.map_cons, List.sum_cons]
    exact (h a (by simp)).add (ih fun x hx => h x (List.mem_cons_of_mem _ hx))

/-- The population variance. -/
def variance (x : List ℚ) : ℚ := avg (x.map fun v => (v - avg x) ^ 2)

theorem sum_shift (x : List ℚ) (m c : ℚ) :
    (x.map fun v => (v - m) ^ 2).sum = (x.map fun v => (v - c) ^ 2).sum + 2 * (c - m) * (x.sum - x.length * c) + x.length * (c - m) ^ 2 := by
  induction x with
  | nil => simp
  | cons a x ih =>
    simp only [List.map_cons, List.sum_cons, List.length_cons, ih]
    push_cast
    ring

/-- The mean square distance to any number is the variance and the square of the distance to the mean. -/
theorem avg_shift {x : List ℚ} (hx : x ≠ []) (m : ℚ) : avg (x.map fun v => (v - m) ^ 2) = variance x + (m - avg x) ^ 2 := by
  have hn : (x.length : ℚ) ≠ 0 := by exact_mod_cast (List.length_pos_iff.2 hx).ne'
  have h := sum_shift x m (avg x)
  have e : x.sum - x.length * avg x = 0 := by unfold avg; field_simp; ring
  rw [e] at h
  unfold variance
  rw [avg, avg, List.length_map, List.length_map, h]
  field_simp
  ring

/-- **C105.** Mean and deviation of samples in rounded arithmetic, the additions made in any order.  The mean is off by roundings of the average
magnitude.  The variance is the population variance up to `d + 6` roundings, above by no more than the square of the error of the mean: there is no
cancellation, however large the mean is compared with the deviation.  No samples give nan. -/
theorem C105_samples (R : Rounding) (mean dot : List ℚ → ℚ) (root : ℚ → ℚ) (d n : ℕ) (hm : IsMean R d n mean) (hd : IsDot R d n dot)
    (hr : IsRoot R root) (hu : (d + 1) * R.u ≤ 1 / 100) (x : List ℚ) (hx : x.length ≤ n) :
    (x = [] ↔ UVF.samples R mean dot root x = none) ∧
    ∀ s, UVF.samples R mean dot root x = some s → ∃ e, 0 ≤ e ∧ e ≤ 100 / 99 * ((d + 1) * R.u) * avg (x.map fun v => |v|) ∧
      |s.value - avg x| = e ∧ 0 ≤ s.stddev ∧
      (1 - R.u) ^ (d + 6) * (variance x + e ^ 2) ≤ s.stddev ^ 2 ∧ s.stddev ^ 2 ≤ (1 + R.u) ^ (d + 6) * (variance x + e ^ 2) := by
  unfold UVF.samples
  constructor
  · constructor
    · rintro rfl; rfl
    · intro h
      by_contra hne
      have := List.length_pos_iff.2 hne
      rw [if_neg (by omega)] at h
      cases h
  · intro s hs
    by_cases hl : x.length < 1
    · rw [if_pos hl] at hs; cases hs
    rw [if_neg hl] at hs
    obtain rfl := Option.some.inj hs
    have hne : x ≠ [] := by rintro rfl; simp at hl
    have hn : (0 : ℚ) < x.length := by exact_mod_cast List.length_pos_iff.2 hne
    refine ⟨|mean x - avg x|, abs_nonneg _, mean_near R d n mean hm hu x hne hx, rfl, ?_⟩
    simp only [sq_abs]
    rw [← avg_shift hne]
    have h1 : Within R 2 (x.map fun v => (v - mean x) ^ 2).sum (x.map fun v => R.fl (v - mean x) ^ 2).sum :=
      sums_within x fun v _ => within_fl_sq R (v - mean x)
    have hc := sumSq_within (hd (x.map fun v => R.fl (v - mean x)) (by simpa using hne) (by simpa using hx))
    have e1 : ((x.map fun v => R.fl (v - mean x)).map fun y => y ^ 2) = x.map fun v => R.fl (v - mean x) ^ 2 := by
      rw [List.map_map]; rfl
    rw [e1] at hc
    have h2 := (h1.trans hc.2).div hn
    have hnn : 0 ≤ (x.map fun v => (v - mean x) ^ 2).sum := by
      apply List.sum_nonneg
      intro y hy
      obtain ⟨v, -, rfl⟩ := List.mem_map.1 hy
      exact sq_nonneg _
    have hnn' : 0 ≤ (x.map fun v => (v - mean x) ^ 2).sum / (x.length : ℚ) := div_nonneg hnn hn.le
    have h3 := h2.trans (within_fl R (h2.nonneg hnn'))
    have h4 := within_root hr hnn' h3
    have e2 : avg (x.map fun v => (v - mean x) ^ 2) = (x.map fun v => (v - mean x) ^ 2).sum / x.length := by
      unfold avg; rw [List.length_map]
    rw [e2]
    have h5 := h4.2.mono hnn' (by omega : 2 + (d + 1) + 1 + 2 ≤ d + 6)
    exact ⟨h4.1, h5.1, h5.2⟩

/-! ### Instances -/

/-- Adding one square after the other is one way to compute the sum of squares. -/
theorem dotF_isDot (R : Rounding) (n : ℕ) : IsDot R (n - 1) n (dotF R) := by
  have key : ∀ (l : List ℚ) (d : ℕ) (p : List ℚ) (s : ℚ), SumSq R d p s → SumSq R (d + l.length) (p ++ l) (l.foldl (fun s x => R.fl (s + x * x)) s) := by
    intro l
    induction l with
    | nil =>
      intro d p s h
      simpa using h
    | cons a l ih =>
      intro d p s h
      have := ih (d + 1) (p ++ [a]) (R.fl (s + a * a)) (.fma a h (List.Perm.refl _))
      rw [List.foldl_cons, List.length_cons]
      rw [List.append_assoc, List.singleton_append] at this
      rw [show d + (l.length + 1) = d + 1 + l.length by omega]
      exact this
  have mono : ∀ (d : ℕ) (l : List ℚ) (s : ℚ), SumSq R d l s → ∀ e, d ≤ e → SumSq R e l s := by
    intro d l s h
    induction h with
    | one d x => exact fun e _ => .one e x
    | add h1 h2 hp i1 i2 =>
      intro e he
      obtain ⟨e', rfl⟩ : ∃ e', e = e' + 1 := ⟨e - 1, by omega⟩
      exact .add (i1 e' (by omega)) (i2 e' (by omega)) hp
    | fma x h1 hp i1 =>
      intro e he
      obtain ⟨e', rfl⟩ : ∃ e', e = e' + 1 := ⟨e - 1, by omega⟩
      exact .fma x (i1 e' (by omega)) hp
  intro l hne hl
  obtain ⟨a, l, rfl⟩ := List.exists_cons_of_ne_nil hne
  refine mono _ _ _ (key l 0 [a] _ (.one 0 a)) (n - 1) ?_
  rw [List.length_cons] at hl
  omega

/-- A square root with 54 correct bits. -/
def rootD (x : ℚ) : ℚ :=
  (Nat.sqrt ⌊x * 4 ^ (54 - Int.log 2 x / 2)⌋₊ : ℚ) / 2 ^ (54 - Int.log 2 x / 2)

theorem rootD_isRoot : IsRoot double rootD := by
  intro x hx
  rcases eq_or_lt_of_le hx with rfl | hx
  · simp [rootD]
  unfold rootD
  set L := Int.log 2 x
  set k := 54 - L / 2 with hk
  set X := x * 4 ^ k with hX
  set r := Nat.sqrt ⌊X⌋₊ with hr
  have hs : (0 : ℚ) < 2 ^ k := two_zpow_pos k
  have h4 : (4 : ℚ) ^ k = (2 ^ k) ^ 2 := by
    rw [← zpow_natCast, ← zpow_mul, show (4 : ℚ) = 2 ^ (2 : ℤ) by norm_num, ← zpow_mul]
    congr 1
    push_cast
    ring
  have hX0 : 0 ≤ X := by rw [hX, h4]; positivity
  have hXbig : (2 : ℚ) ^ (108 : ℤ) ≤ X := by
    have h1 : (2 : ℚ) ^ L ≤ x := Int.zpow_log_le_self (by norm_num) hx
    have h2 : (2 : ℚ) ^ L * 4 ^ k = 2 ^ (L + 2 * k) := by
      rw [show (4 : ℚ) = 2 ^ (2 : ℤ) by norm_num, ← zpow_mul, ← zpow_add₀ (by norm_num)]
    have h3 : (2 : ℚ) ^ (108 : ℤ) ≤ 2 ^ (L + 2 * k) := zpow_le_zpow_right₀ (by norm_num) (by omega)
    rw [← h2] at h3
    exact h3.trans (mul_le_mul_of_nonneg_right h1 (by rw [h4]; positivity))
  have hlo : ((r : ℚ)) ^ 2 ≤ X := by
    have h1 : r * r ≤ ⌊X⌋₊ := Nat.sqrt_le _
    have h2 : ((r * r : ℕ) : ℚ) ≤ (⌊X⌋₊ : ℚ) := by exact_mod_cast h1
    rw [sq]
    push_cast at h2
    exact h2.trans (Nat.floor_le hX0)
  have hhi : X < ((r : ℚ) + 1) ^ 2 := by
    have h1 : ⌊X⌋₊ < (r + 1) * (r + 1) := Nat.lt_succ_sqrt _
    have h2 : (⌊X⌋₊ : ℚ) + 1 ≤ (((r + 1) * (r + 1) : ℕ) : ℚ) := by exact_mod_cast h1
    push_cast at h2
    have h3 := Nat.lt_floor_add_one X
    nlinarith
  have hbig : (2 : ℚ) ^ 53 ≤ (r : ℚ) + 1 := by
    by_contra hc
    push Not at hc
    have h1 : ((r : ℚ) + 1) ^ 2 < (2 ^ 53) ^ 2 := pow_lt_pow_left₀ hc (by positivity) (by norm_num)
    have h2 : ((2 : ℚ) ^ 53) ^ 2 ≤ 2 ^ (108 : ℤ) := by norm_num
    linarith
  have hu : double.u = 1 / 2 ^ 53 := rfl
  have e : ((r : ℚ) / 2 ^ k) ^ 2 = (r : ℚ) ^ 2 / 4 ^ k := by rw [h4, div_pow]
  have h4' : (0 : ℚ) < 4 ^ k := by rw [h4]; positivity
  have ex : x = X / 4 ^ k := by rw [hX]; field_simp
  refine ⟨by positivity, ?_, ?_⟩
  · rw [e, ex, ← mul_div_assoc]
    apply div_le_div_of_nonneg_right _ h4'.le
    have h1 : (1 - double.u) * ((r : ℚ) + 1) ≤ r := by
      rw [hu]
      have : 1 ≤ 1 / 2 ^ 53 * ((r : ℚ) + 1) := by
        rw [one_div, ← div_eq_inv_mul, le_div_iff₀ (by positivity), one_mul]; exact hbig
      linarith
    have h2 : ((1 - double.u) * ((r : ℚ) + 1)) ^ 2 ≤ (r : ℚ) ^ 2 :=
      pow_le_pow_left₀ (mul_nonneg (lo_pos double).le (by positivity)) h1 2
    rw [mul_pow] at h2
    exact (mul_le_mul_of_nonneg_left hhi.le (sq_nonneg _)).trans h2
  · rw [e, ex, ← mul_div_assoc]
    apply div_le_div_of_nonneg_right _ h4'.le
    have : (1 : ℚ) ≤ (1 + double.u) ^ 2 := one_le_pow₀ (by rw [hu]; norm_num)
    nlinarith

/-- The hypotheses are met by doubles; the deviation of three times 0.1 is not zero, since the mean is rounded. -/
example : IsRoot double rootD ∧ IsMean double 2 3 (meanF double) ∧ IsDot double 2 3 (dotF double) ∧ ((2 : ℕ) + 1) * double.u ≤ 1 / 100 ∧
    meanF double (List.replicate 3 (nearest (1 / 10))) ≠ nearest (1 / 10) ∧
    0 < double.fl (dotF double ((List.replicate 3 (nearest (1 / 10))).map fun v =>
      double.fl (v - meanF double (List.replicate 3 (nearest (1 / 10))))) / 3) := by
  refine ⟨rootD_isRoot, meanF_isMean double 3, dotF_isDot double 3, ?_⟩
  decide +kernel

/-- A concrete product and sum: 3 V ± 0.1 V and 2 A ± 0.1 A. -/
example : ∃ p, UVF.mul double rootD ⟨3, nearest (1 / 10)⟩ ⟨2, nearest (1 / 10)⟩ = .ok p ∧ p.value = 6 ∧ 0 ≤ p.stddev := by
  obtain ⟨p, q, h1, -, -, -, h2, -⟩ := C105_mul_div double rootD rootD_isRoot ⟨3, nearest (1 / 10)⟩ ⟨2, nearest (1 / 10)⟩ (by norm_num) (by norm_num)
  refine ⟨p, h1, ?_, h2⟩
  unfold UVF.mul at h1
  simp only at h1
  rw [if_neg (by norm_num)] at h1
  rw [← Except.ok.inj h1]
  decide +kernel

end Verif.Props.FloatUncertain
