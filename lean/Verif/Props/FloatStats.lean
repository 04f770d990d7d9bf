import Verif.Model.FloatStats
import Verif.Props.Stats
import Verif.Props.Float

/-!
C81: `stats.bin_linear` and `stats.downsample` in rounded arithmetic.
-/

namespace Verif.Props.FloatStats

open Verif Verif.Stats Verif.Float Verif.Props.Stats Verif.Props.Float

/-! ### Doubles -/

theorem roundEven_int (n : ℤ) : roundEven n = n := by simp [roundEven]

theorem roundEven_mono {x y : ℚ} (h : x ≤ y) : roundEven x ≤ roundEven y := by
  have hf : ⌊x⌋ ≤ ⌊y⌋ := Int.floor_le_floor h
  have h1 := Int.floor_le x
  have h2 := Int.lt_floor_add_one x
  have h3 := Int.floor_le y
  have h4 := Int.lt_floor_add_one y
  rcases lt_or_eq_of_le hf with hlt | heq
  · have a : roundEven x ≤ ⌊x⌋ + 1 := by unfold roundEven; split_ifs <;> omega
    have b : ⌊y⌋ ≤ roundEven y := by unfold roundEven; split_ifs <;> omega
    omega
  · unfold roundEven
    rw [heq]
    split_ifs <;> first | omega | (exfalso; linarith)

theorem roundEven_neg (x : ℚ) : roundEven (-x) = -roundEven x := by
  by_cases hx : (⌊x⌋ : ℚ) = x
  · rw [← hx, ← Int.cast_neg, roundEven_int, roundEven_int]
  · have h1 := lt_of_le_of_ne (Int.floor_le x) hx
    have h2 := Int.lt_floor_add_one x
    have hf : ⌊-x⌋ = -⌊x⌋ - 1 := by
      rw [Int.floor_eq_iff]
      push_cast
      constructor <;> linarith
    unfold roundEven
    rw [hf]
    push_cast
    split_ifs <;> first | omega | (exfalso; linarith)

theorem nearest_neg (x : ℚ) : nearest (-x) = -nearest x := by
  unfold nearest
  rw [abs_neg, neg_mul, roundEven_neg]
  push_cast
  ring

theorem two_zpow_pos (k : ℤ) : (0:ℚ) < 2 ^ k := zpow_pos (by norm_num) _

/-- Numbers with 53 significant bits are not changed. -/
theorem nearest_rep (m k : ℤ) (hm : |m| ≤ 2 ^ 53) : nearest (m * 2 ^ k) = m * 2 ^ k := by
  by_cases h0 : m = 0
  · subst h0; simp [nearest, roundEven]
  set z : ℚ := m * 2 ^ k with hz
  have hz0 : 0 < |z| := by
    rw [hz]; apply abs_pos.2; exact mul_ne_zero (by exact_mod_cast h0) (two_zpow_pos k).ne'
  have hl : (2:ℚ) ^ Int.log 2 |z| ≤ |z| := Int.zpow_log_le_self (by norm_num) hz0
  unfold nearest
  set e := Int.log 2 |z|
  have hs := two_zpow_pos (52 - e)
  have hint : ∃ n : ℤ, z * 2 ^ (52 - e) = n := by
    have e1 : z * 2 ^ (52 - e) = m * 2 ^ (k + (52 - e)) := by
      rw [hz, mul_assoc, ← zpow_add₀ (by norm_num)]
    by_cases hk : 0 ≤ k + (52 - e)
    · obtain ⟨j, hj⟩ := Int.eq_ofNat_of_zero_le hk
      refine ⟨m * 2 ^ j, ?_⟩
      rw [e1, hj]
      push_cast
      rw [zpow_natCast]
    · push Not at hk
      have hmq : |(m:ℚ)| ≤ 2 ^ (53:ℤ) := by
        have : ((|m| : ℤ) : ℚ) ≤ ((2 ^ 53 : ℤ) : ℚ) := by exact_mod_cast hm
        rw [Int.cast_abs] at this
        norm_num at this ⊢
        exact this
      have hza : |z| = |(m:ℚ)| * 2 ^ k := by rw [hz, abs_mul, abs_of_pos (two_zpow_pos k)]
      have hle : (2:ℚ) ^ e ≤ 2 ^ (53 + k) := by
        rw [zpow_add₀ (by norm_num)]
        calc (2:ℚ) ^ e ≤ |z| := hl
          _ = |(m:ℚ)| * 2 ^ k := hza
          _ ≤ _ := mul_le_mul_of_nonneg_right hmq (two_zpow_pos k).le
      have hek : e ≤ 53 + k := (zpow_le_zpow_iff_right₀ (by norm_num)).1 hle
      have hee : e = 53 + k := by omega
      have hme : |(m:ℚ)| = 2 ^ (53:ℤ) := by
        apply le_antisymm hmq
        rw [hee, hza, zpow_add₀ (by norm_num)] at hl
        exact le_of_mul_le_mul_right hl (two_zpow_pos k)
      have hkk : k + (52 - e) = -1 := by omega
      rw [e1, hkk]
      rcases (abs_eq (two_zpow_pos 53).le).1 hme with h | h
      · exact ⟨2 ^ 52, by rw [h]; norm_num⟩
      · exact ⟨-2 ^ 52, by rw [h]; norm_num⟩
  obtain ⟨n, hn⟩ := hint
  rw [hn, roundEven_int, ← hn]
  field_simp

theorem scaled_bounds {x : ℚ} (hx : 0 < x) :
    (2:ℚ) ^ (52:ℤ) ≤ x * 2 ^ (52 - Int.log 2 |x|) ∧ x * 2 ^ (52 - Int.log 2 |x|) < 2 ^ (53:ℤ) := by
  rw [abs_of_pos hx]
  have h1 : (2:ℚ) ^ Int.log 2 x ≤ x := Int.zpow_log_le_self (by norm_num) hx
  have h2 : x < (2:ℚ) ^ (Int.log 2 x + 1) := Int.lt_zpow_succ_log_self (by norm_num) x
  have hs := two_zpow_pos (52 - Int.log 2 x)
  constructor
  · calc (2:ℚ) ^ (52:ℤ) = 2 ^ Int.log 2 x * 2 ^ (52 - Int.log 2 x) := by
          rw [← zpow_add₀ (by norm_num)]; congr 1; ring
      _ ≤ _ := mul_le_mul_of_nonneg_right h1 hs.le
  · calc x * 2 ^ (52 - Int.log 2 x) < 2 ^ (Int.log 2 x + 1) * 2 ^ (52 - Int.log 2 x) := mul_lt_mul_of_pos_right h2 hs
      _ = 2 ^ (53:ℤ) := by rw [← zpow_add₀ (by norm_num)]; congr 1; ring

theorem rounded_bounds {x : ℚ} (hx : 0 < x) :
    2 ^ 52 ≤ roundEven (x * 2 ^ (52 - Int.log 2 |x|)) ∧ roundEven (x * 2 ^ (52 - Int.log 2 |x|)) ≤ 2 ^ 53 := by
  obtain ⟨h1, h2⟩ := scaled_bounds hx
  constructor
  · have h := roundEven_mono (x := ((2 ^ 52 : ℤ) : ℚ)) (y := x * 2 ^ (52 - Int.log 2 |x|)) (by
      push_cast; norm_num at h1 ⊢; exact h1)
    rwa [roundEven_int] at h
  · have h := roundEven_mono (y := ((2 ^ 53 : ℤ) : ℚ)) (x := x * 2 ^ (52 - Int.log 2 |x|)) (by
      push_cast; norm_num at h2 ⊢; exact h2.le)
    rwa [roundEven_int] at h

theorem nearest_eq (x : ℚ) : nearest x =
    roundEven (x * 2 ^ (52 - Int.log 2 |x|)) * 2 ^ (Int.log 2 |x| - 52) := by
  unfold nearest
  rw [div_eq_mul_inv, ← zpow_neg]
  congr 2
  ring

theorem nearest_idem (x : ℚ) : nearest (nearest x) = nearest x := by
  rcases lt_trichotomy x 0 with hx | hx | hx
  · have h := rounded_bounds (x := -x) (by linarith)
    rw [show x = -(-x) by ring, nearest_neg, nearest_neg, nearest_eq (-x), nearest_rep]
    rw [abs_le]
    constructor <;> [skip; exact h.2]
    have : (0:ℤ) < 2 ^ 52 := by norm_num
    linarith [h.1]
  · subst hx; simp [nearest, roundEven]
  · have h := rounded_bounds hx
    rw [nearest_eq x, nearest_rep]
    rw [abs_le]
    constructor <;> [skip; exact h.2]
    have : (0:ℤ) < 2 ^ 52 := by norm_num
    linarith [h.1]

theorem nearest_pos_mono {x y : ℚ} (hx : 0 < x) (h : x ≤ y) : nearest x ≤ nearest y := by
  have hy := hx.trans_le h
  have hlog : Int.log 2 |x| ≤ Int.log 2 |y| := by
    rw [abs_of_pos hx, abs_of_pos hy]; exact Int.log_mono_right hx h
  rcases lt_or_eq_of_le hlog with hlt | heq
  · rw [nearest_eq x, nearest_eq y]
    obtain ⟨_, h1⟩ := rounded_bounds hx
    obtain ⟨h2, _⟩ := rounded_bounds hy
    have h1' : ((roundEven (x * 2 ^ (52 - Int.log 2 |x|)) : ℤ) : ℚ) ≤ 2 ^ (53:ℤ) := by
      have : ((roundEven (x * 2 ^ (52 - Int.log 2 |x|)) : ℤ) : ℚ) ≤ ((2 ^ 53 : ℤ) : ℚ) := by exact_mod_cast h1
      norm_num at this ⊢; exact this
    have h2' : (2:ℚ) ^ (52:ℤ) ≤ ((roundEven (y * 2 ^ (52 - Int.log 2 |y|)) : ℤ) : ℚ) := by
      have : ((2 ^ 52 : ℤ) : ℚ) ≤ ((roundEven (y * 2 ^ (52 - Int.log 2 |y|)) : ℤ) : ℚ) := by exact_mod_cast h2
      norm_num at this ⊢; exact this
    calc _ ≤ (2:ℚ) ^ (53:ℤ) * 2 ^ (Int.log 2 |x| - 52) := mul_le_mul_of_nonneg_right h1' (two_zpow_pos _).le
      _ = 2 ^ (Int.log 2 |x| + 1) := by rw [← zpow_add₀ (by norm_num)]; congr 1; ring
      _ ≤ 2 ^ (Int.log 2 |y|) := zpow_le_zpow_right₀ (by norm_num) (by omega)
      _ = 2 ^ (52:ℤ) * 2 ^ (Int.log 2 |y| - 52) := by rw [← zpow_add₀ (by norm_num)]; congr 1; ring
      _ ≤ _ := mul_le_mul_of_nonneg_right h2' (two_zpow_pos _).le
  · unfold nearest
    rw [heq]
    have hs := two_zpow_pos (52 - Int.log 2 |y|)
    apply div_le_div_of_nonneg_right _ hs.le
    exact_mod_cast roundEven_mono (mul_le_mul_of_nonneg_right h hs.le)

theorem nearest_nonneg {x : ℚ} (hx : 0 ≤ x) : 0 ≤ nearest x := by
  rcases lt_or_eq_of_le hx with h | h
  · exact ((fl_pos double).2 h).le
  · subst h; simp [nearest, roundEven]

theorem nearest_mono {x y : ℚ} (h : x ≤ y) : nearest x ≤ nearest y := by
  by_cases hx : 0 < x
  · exact nearest_pos_mono hx h
  · push Not at hx
    by_cases hy : 0 ≤ y
    · have h1 := nearest_nonneg (x := -x) (by linarith)
      rw [nearest_neg] at h1
      linarith [nearest_nonneg hy]
    · push Not at hy
      have h1 := nearest_pos_mono (x := -y) (y := -x) (by linarith) (by linarith)
      rw [nearest_neg, nearest_neg] at h1
      linarith

/-- IEEE doubles are a rounding to the nearest element of a set. -/
def doubles : Floats where
  toRounding := double
  mono := fun _ _ h => nearest_mono h
  idem := nearest_idem
  neg := nearest_neg
  one := by decide +kernel

/-! ### Bin edges -/

theorem gridF_zero (F : Floats) {lo hi : ℚ} {n : ℕ} (hn : 0 < n) (hlo : F.fl lo = lo) : gridF F.toRounding lo hi n 0 = lo := by
  unfold gridF
  rw [if_pos hn]
  simp [fl_zero, hlo]

theorem gridF_last {R : Rounding} {lo hi : ℚ} {n : ℕ} (hn : 0 < n) : gridF R lo hi n n = hi := by
  unfold gridF
  rw [if_neg (lt_irrefl _), if_neg (by omega)]

/-- The size of a rounded step. -/
theorem step_bounds (R : Rounding) {lo hi : ℚ} (h : lo ≤ hi) {n : ℕ} (hn : 0 < n) (i : ℕ) :
    0 ≤ R.fl (R.fl (hi - lo) / n) ∧
    |R.fl (i * R.fl (R.fl (hi - lo) / n)) - i * ((hi - lo) / n)| ≤ 31 / 10 * R.u * (i * ((hi - lo) / n)) := by
  obtain ⟨a, ha, ea⟩ := rel R (hi - lo)
  obtain ⟨b, hb, eb⟩ := rel R (R.fl (hi - lo) / n)
  obtain ⟨c, hc, ec⟩ := rel R (i * R.fl (R.fl (hi - lo) / n))
  have hu := R.u_nonneg
  have hs := R.u_small
  have hn' : (0:ℚ) < n := by exact_mod_cast hn
  have hd : 0 ≤ (hi - lo) / n := div_nonneg (by linarith) hn'.le
  have a1 := abs_le.1 (ha.trans hs)
  have b1 := abs_le.1 (hb.trans hs)
  constructor
  · rw [eb, ea]
    have : 0 ≤ (hi - lo) * (1 + a) := mul_nonneg (by linarith) (by linarith)
    exact mul_nonneg (div_nonneg this hn'.le) (by linarith)
  · have s1 : |(1 + a) - 1| ≤ 1 * R.u := by simpa using ha
    have s2 := step hu hs (by norm_num) s1 hb
    have s3 := step hu hs (by norm_num) s2 hc
    have : R.fl (i * R.fl (R.fl (hi - lo) / n)) - i * ((hi - lo) / n) =
        i * ((hi - lo) / n) * ((1 + a) * (1 + b) * (1 + c) - 1) := by
      rw [ec, eb, ea]; field_simp
    have hi0 : (0:ℚ) ≤ i * ((hi - lo) / n) := mul_nonneg (Nat.cast_nonneg _) hd
    rw [this, abs_mul, abs_of_nonneg hi0]
    have : |(1 + a) * (1 + b) * (1 + c) - 1| ≤ 31 / 10 * R.u := by
      refine s3.trans ?_
      nlinarith
    nlinarith

/-- The edges of `np.linspace` are ordered. -/
theorem gridF_mono (F : Floats) {lo hi : ℚ} (h : lo ≤ hi) (hhi : F.fl hi = hi) {n : ℕ} (hn : 0 < n)
    (hu : 4 * n * F.u ≤ 1) (i : ℕ) (hi' : i < n) : gridF F.toRounding lo hi n i ≤ gridF F.toRounding lo hi n (i + 1) := by
  have hn' : (0:ℚ) < n := by exact_mod_cast hn
  unfold gridF
  rw [if_pos hi']
  by_cases h1 : i + 1 < n
  · rw [if_pos h1]
    apply F.mono
    have hst := (step_bounds F.toRounding h hn 0).1
    have : F.fl (i * F.fl (F.fl (hi - lo) / n)) ≤ F.fl ((i + 1 : ℕ) * F.fl (F.fl (hi - lo) / n)) := by
      apply F.mono
      push_cast
      nlinarith
    linarith
  · rw [if_neg h1, if_neg (by omega)]
    conv_rhs => rw [← hhi]
    apply F.mono
    have hb := (abs_le.1 (step_bounds F.toRounding h hn i).2).2
    have hin : (i : ℚ) = n - 1 := by
      have : i + 1 = n := by omega
      have : ((i + 1 : ℕ) : ℚ) = n := by exact_mod_cast this
      push_cast at this
      linarith
    have hd : 0 ≤ (hi - lo) / n := div_nonneg (by linarith) hn'.le
    have hw : (hi - lo) = n * ((hi - lo) / n) := by field_simp
    set w := (hi - lo) / n
    have h2 : 31 / 10 * F.u * ((i : ℚ) * w) ≤ w := by
      have : 31 / 10 * F.u * (i : ℚ) ≤ 1 := by
        rw [hin]
        nlinarith [F.u_nonneg]
      calc 31 / 10 * F.u * ((i : ℚ) * w) = (31 / 10 * F.u * (i : ℚ)) * w := by ring
        _ ≤ 1 * w := mul_le_mul_of_nonneg_right this hd
        _ = w := one_mul w
    have h3 : (i : ℚ) * w = n * w - w := by rw [hin]; ring
    linarith

/-- The edges are equally spaced up to rounding. -/
theorem gridF_near (R : Rounding) {lo hi : ℚ} (h : lo ≤ hi) {n : ℕ} (hn : 0 < n) (i : ℕ) (hi' : i ≤ n) :
    |gridF R lo hi n i - (lo + i * ((hi - lo) / n))| ≤ R.u * (|lo| + 5 * (hi - lo)) := by
  have hn' : (0:ℚ) < n := by exact_mod_cast hn
  have hu := R.u_nonneg
  have hs := R.u_small
  unfold gridF
  by_cases h1 : i < n
  · rw [if_pos h1]
    have hb := (step_bounds R h hn i).2
    set m := R.fl (i * R.fl (R.fl (hi - lo) / n))
    have hd : 0 ≤ (hi - lo) / n := div_nonneg (by linarith) hn'.le
    have hX : (i : ℚ) * ((hi - lo) / n) ≤ hi - lo := by
      have h2 : (i : ℚ) ≤ n := by exact_mod_cast hi'
      calc (i : ℚ) * ((hi - lo) / n) ≤ n * ((hi - lo) / n) := mul_le_mul_of_nonneg_right h2 hd
        _ = hi - lo := by field_simp
    have hX0 : 0 ≤ (i : ℚ) * ((hi - lo) / n) := mul_nonneg (Nat.cast_nonneg _) hd
    set X := (i : ℚ) * ((hi - lo) / n)
    have he := R.err (m + lo)
    have a1 : |m - X| ≤ 31 / 10 * (R.u * (hi - lo)) := by
      refine hb.trans ?_
      nlinarith
    have a2 : |m + lo| ≤ |lo| + 11 / 10 * (hi - lo) := by
      rw [show m + lo = lo + (X + (m - X)) by ring]
      have b1 := abs_add_le lo (X + (m - X))
      have b2 := abs_add_le X (m - X)
      rw [abs_of_nonneg hX0] at b2
      nlinarith
    have a3 : |R.fl (m + lo) - (lo + X)| ≤ |R.fl (m + lo) - (m + lo)| + |m - X| := by
      rw [show R.fl (m + lo) - (lo + X) = (R.fl (m + lo) - (m + lo)) + (m - X) by ring]
      exact abs_add_le _ _
    have a4 : R.u * |m + lo| ≤ R.u * (|lo| + 11 / 10 * (hi - lo)) := mul_le_mul_of_nonneg_left a2 hu
    have a5 : 0 ≤ R.u * (hi - lo) := mul_nonneg hu (by linarith)
    nlinarith
  · rw [if_neg h1, if_neg (by omega)]
    have : i = n := by omega
    subst this
    have : hi - (lo + (i : ℚ) * ((hi - lo) / i)) = 0 := by field_simp; ring
    rw [this, abs_zero]
    have := abs_nonneg lo
    exact mul_nonneg hu (by linarith)

theorem ordered_range (E : ℕ → ℚ) (n : ℕ) (h : ∀ i < n, E i ≤ E (i + 1)) : ordered ((List.range (n + 1)).map E) = true := by
  induction n generalizing E with
  | zero => rfl
  | succ n ih =>
    have e : (List.range (n + 1 + 1)).map E = E 0 :: E 1 :: ((List.range n).map fun i => E (i + 2)) := by
      rw [List.range_succ_eq_map, List.map_cons, List.range_succ_eq_map, List.map_cons, List.map_cons]
      simp only [List.map_map]
      rfl
    have e2 : E 1 :: ((List.range n).map fun i => E (i + 2)) = (List.range (n + 1)).map fun i => E (i + 1) := by
      rw [List.range_succ_eq_map, List.map_cons, List.map_map]
      rfl
    rw [e]
    show (decide (E 0 ≤ E 1) && ordered (E 1 :: _)) = true
    rw [e2, ih (fun i => E (i + 1)) (fun i hi => h (i + 1) (by omega))]
    simp [h 0 (by omega)]

theorem linearRangeF_spec (F : Floats) (y : List ℚ) (hy : y ≠ []) (hrep : ∀ v ∈ y, F.fl v = v) :
    ∃ lo hi, linearRangeF F.toRounding y = .ok (lo, hi) ∧ lo ≤ hi ∧ F.fl lo = lo ∧ F.fl hi = hi ∧ (∀ v ∈ y, lo ≤ v ∧ v ≤ hi) ∧
      ((∃ a ∈ y, ∃ b ∈ y, a ≠ b) → lo ∈ y ∧ hi ∈ y) := by
  obtain ⟨a, ea, ha, hal⟩ := min_spec y hy
  obtain ⟨b, eb, hb, hbl⟩ := max_spec y hy
  unfold linearRangeF
  rw [ea, eb]
  simp only [bind, Except.bind, pure, Except.pure]
  by_cases hab : a = b
  · subst hab
    have hall : ∀ v ∈ y, v = a := fun v hv => le_antisymm (hbl v hv) (hal v hv)
    have hno : (∃ a ∈ y, ∃ b ∈ y, a ≠ b) → False := by
      rintro ⟨u, hu, w, hw, hne⟩
      exact hne (by rw [hall u hu, hall w hw])
    rw [if_pos rfl]
    by_cases h0 : a = 0
    · rw [if_pos h0]
      refine ⟨-1, 1, rfl, by norm_num, by rw [F.neg, F.one], F.one, ?_, fun h => (hno h).elim⟩
      intro v hv
      rw [hall v hv, h0]; norm_num
    · rw [if_neg h0]
      have hp : 0 < |a| := abs_pos.2 h0
      have hd : 0 < F.fl (|a| * F.fl (5 / 100)) := by
        rw [fl_pos]
        exact mul_pos hp ((fl_pos F.toRounding).2 (by norm_num))
      have hl : F.fl (a - F.fl (|a| * F.fl (5 / 100))) ≤ a := by
        conv_rhs => rw [← hrep a ha]
        exact F.mono _ _ (by linarith)
      have hr : a ≤ F.fl (a + F.fl (|a| * F.fl (5 / 100))) := by
        conv_lhs => rw [← hrep a ha]
        exact F.mono _ _ (by linarith)
      refine ⟨_, _, rfl, hl.trans hr, F.idem _, F.idem _, ?_, fun h => (hno h).elim⟩
      intro v hv
      rw [hall v hv]
      exact ⟨hl, hr⟩
  · rw [if_neg hab]
    exact ⟨a, b, rfl, hal b hb, hrep a ha, hrep b hb, fun v hv => ⟨hal v hv, hbl v hv⟩, fun _ => ⟨ha, hb⟩⟩

/-- **C81 (linear bins).** In floats `bin_linear` does not raise, its edges are ordered, cover all samples and start and end at
samples (unless these are all equal), are equally spaced up to rounding, and every sample is counted in the one bin it is in. -/
theorem C81_bin_linear (F : Floats) (y : List ℚ) (hy : y ≠ []) (hrep : ∀ v ∈ y, F.fl v = v) (n : ℕ) (hn : 0 < n)
    (hu : 4 * n * F.u ≤ 1) :
    ∃ E : ℕ → ℚ, binLinearF F.toRounding y n =
        .ok ((List.range n).map (fun i => ((y.countP (fun v => decide (InBin E n i v)) : ℕ) : ℤ)), (List.range (n + 1)).map E) ∧
      (∀ i < n, E i ≤ E (i + 1)) ∧ (∀ v ∈ y, E 0 ≤ v ∧ v ≤ E n) ∧ (∀ v ∈ y, ∃! i, i < n ∧ InBin E n i v) ∧
      ((∃ a ∈ y, ∃ b ∈ y, a ≠ b) → E 0 ∈ y ∧ E n ∈ y) ∧
      (∀ i ≤ n, |E i - (E 0 + i * ((E n - E 0) / n))| ≤ F.u * (|E 0| + 5 * (E n - E 0))) ∧
      ((List.range n).map (fun i => y.countP (fun v => decide (InBin E n i v)))).sum = y.length := by
  obtain ⟨lo, hi, er, hle, hlo, hhi, hall, hatt⟩ := linearRangeF_spec F y hy hrep
  have hE := fun i hi' => gridF_mono F hle hhi hn hu i hi'
  have h0 := gridF_zero F (hi := hi) hn hlo
  have h1 := gridF_last (R := F.toRounding) (lo := lo) (hi := hi) hn
  have hcov : ∀ v ∈ y, gridF F.toRounding lo hi n 0 ≤ v ∧ v ≤ gridF F.toRounding lo hi n n := by rw [h0, h1]; exact hall
  refine ⟨gridF F.toRounding lo hi n, ?_, hE, hcov, ?_, ?_, ?_, counts_sum y _ n hn hE hcov⟩
  · unfold binLinearF
    rw [er]
    simp only [bind, Except.bind, pure, Except.pure]
    unfold linspaceF
    rw [if_pos (ordered_range _ n hE), histogram_spec y _ n hE]
  · intro v hv
    exact inBin_unique _ n hE v hn (hcov v hv).1 (hcov v hv).2
  · rw [h0, h1]; exact hatt
  · rw [h0, h1]
    exact fun i hi' => gridF_near F.toRounding hle hn i hi'

/-! ### Downsampling -/

/-- The rounded number of copies is the exact one or one less. -/
theorem kept_bounds (R : Rounding) (N len c : ℕ) (hl : 0 < len) (hc : c ≤ len) (hu : 4 * R.u * N * len < 1) :
    ⌊R.fl (c * R.fl (N / len))⌋ ≤ ⌊(c : ℚ) * (N / len)⌋ ∧ ⌊(c : ℚ) * (N / len)⌋ - 1 ≤ ⌊R.fl (c * R.fl (N / len))⌋ ∧
      0 ≤ ⌊R.fl (c * R.fl (N / len))⌋ := by
  obtain ⟨a, ha, ea⟩ := rel R (N / len)
  obtain ⟨b, hb, eb⟩ := rel R (c * R.fl (N / len))
  have hu0 := R.u_nonneg
  have hs := R.u_small
  have hl' : (0:ℚ) < len := by exact_mod_cast hl
  have hl1 : (1:ℚ) ≤ len := by exact_mod_cast hl
  have hc' : (c:ℚ) ≤ len := by exact_mod_cast hc
  have hc0 : (0:ℚ) ≤ c := Nat.cast_nonneg _
  have hN0 : (0:ℚ) ≤ N := Nat.cast_nonneg _
  set x := (c : ℚ) * (N / len) with hx
  have hx0 : 0 ≤ x := by positivity
  have hxN : x ≤ N := by
    rw [hx, mul_div_assoc', div_le_iff₀ hl']
    nlinarith
  have s1 : |(1 + a) - 1| ≤ 1 * R.u := by simpa using ha
  have s2 := step hu0 hs (by norm_num) s1 hb
  have he : R.fl (c * R.fl (N / len)) = x * ((1 + a) * (1 + b)) := by
    rw [eb, ea, hx]; ring
  have hd : |R.fl (c * R.fl (N / len)) - x| ≤ 3 * R.u * N := by
    rw [he, show x * ((1 + a) * (1 + b)) - x = x * ((1 + a) * (1 + b) - 1) by ring, abs_mul, abs_of_nonneg hx0]
    have : |(1 + a) * (1 + b) - 1| ≤ 3 * R.u := s2.trans (by nlinarith)
    nlinarith [mul_nonneg hu0 hN0, abs_nonneg ((1 + a) * (1 + b) - 1)]
  have hd' := abs_le.1 hd
  have hpos : 0 ≤ R.fl (c * R.fl (N / len)) := by
    rw [he]
    have := abs_le.1 (ha.trans hs)
    have := abs_le.1 (hb.trans hs)
    exact mul_nonneg hx0 (mul_nonneg (by linarith) (by linarith))
  refine ⟨?_, ?_, Int.floor_nonneg.2 hpos⟩
  · set k := ⌊x⌋ with hk
    apply Int.le_of_lt_add_one
    rw [Int.floor_lt]
    push_cast
    have hlt : x < k + 1 := Int.lt_floor_add_one x
    -- the gap to the next integer is at least 1 / len
    have hgap : x ≤ k + 1 - 1 / len := by
      have h1 : x * len = ((c * N : ℕ) : ℚ) := by rw [hx]; push_cast; field_simp
      have h2 : ((c * N : ℕ) : ℤ) < (k + 1) * len := by
        have : (((c * N : ℕ) : ℤ) : ℚ) < (((k + 1) * len : ℤ) : ℚ) := by
          push_cast at h1 ⊢
          rw [← h1]
          exact mul_lt_mul_of_pos_right hlt hl'
        exact_mod_cast this
      have h3 : ((c * N : ℕ) : ℤ) + 1 ≤ (k + 1) * len := h2
      have h4 : x * len + 1 ≤ (k + 1) * len := by
        rw [h1]
        exact_mod_cast h3
      have h5 : x ≤ ((k + 1) * len - 1) / len := by
        rw [le_div_iff₀ hl']; linarith
      calc x ≤ ((k + 1) * len - 1) / len := h5
        _ = k + 1 - 1 / len := by field_simp
    have hsm : 3 * R.u * N < 1 / len := by
      rw [lt_div_iff₀ hl']
      nlinarith [mul_nonneg (mul_nonneg hu0 hN0) hl'.le]
    linarith
  · rw [Int.le_floor]
    push_cast
    have h1 : (⌊x⌋ : ℚ) ≤ x := Int.floor_le x
    have h2 : 3 * R.u * N ≤ 1 := by
      nlinarith [mul_nonneg (mul_nonneg hu0 hN0) hl'.le, mul_nonneg hu0 hN0]
    linarith

/-- The length of the result for bins with counts that add up to `len`. -/
theorem expandF_length (R : Rounding) (N len : ℕ) (hl : 0 < len) (hu : 4 * R.u * N * len < 1) (cb : List (ℕ × ℚ))
    (hsum : (cb.map Prod.fst).sum ≤ len) :
    (((cb.flatMap fun p => List.replicate ⌊R.fl (p.1 * R.fl (N / len))⌋.toNat p.2).length : ℕ) : ℚ) ≤
      ((cb.map Prod.fst).sum : ℕ) * (N / len) ∧
    ((cb.map Prod.fst).sum : ℕ) * ((N : ℚ) / len) - 2 * cb.length ≤
      (((cb.flatMap fun p => List.replicate ⌊R.fl (p.1 * R.fl (N / len))⌋.toNat p.2).length : ℕ) : ℚ) := by
  induction cb with
  | nil => simp
  | cons p cb ih =>
    rw [List.map_cons, List.sum_cons] at hsum
    obtain ⟨i1, i2⟩ := ih (by omega)
    rw [List.flatMap_cons, List.length_append, List.length_replicate, List.map_cons, List.sum_cons, List.length_cons]
    obtain ⟨k1, k2, k3⟩ := kept_bounds R N len p.1 hl (by omega) hu
    have e : ((⌊R.fl (p.1 * R.fl (N / len))⌋.toNat : ℕ) : ℚ) = ((⌊R.fl (p.1 * R.fl (N / len))⌋ : ℤ) : ℚ) := by
      exact_mod_cast Int.toNat_of_nonneg k3
    rw [Nat.cast_add, Nat.cast_add, Nat.cast_add, Nat.cast_one, e]
    have f1 : ((⌊R.fl (p.1 * R.fl (N / len))⌋ : ℤ) : ℚ) ≤ (p.1 : ℚ) * (N / len) :=
      le_trans (by exact_mod_cast k1) (Int.floor_le _)
    have f2 : (p.1 : ℚ) * (N / len) - 2 ≤ ((⌊R.fl (p.1 * R.fl (N / len))⌋ : ℤ) : ℚ) := by
      have h1 := Int.lt_floor_add_one ((p.1 : ℚ) * (N / len))
      have h2 : ((⌊(p.1 : ℚ) * (N / len)⌋ - 1 : ℤ) : ℚ) ≤ ((⌊R.fl (p.1 * R.fl (N / len))⌋ : ℤ) : ℚ) := by exact_mod_cast k2
      push_cast at h2
      linarith
    rw [add_mul]
    constructor <;> linarith

theorem count_flatMap_replicate (g : ℕ → ℕ) (cb : List (ℕ × ℚ)) (hs : (cb.map Prod.snd).Nodup) (c : ℕ) (b : ℚ) (h : (c, b) ∈ cb) :
    (cb.flatMap fun p => List.replicate (g p.1) p.2).count b = g c := by
  induction cb with
  | nil => simp at h
  | cons p cb ih =>
    rw [List.map_cons, List.nodup_cons] at hs
    rw [List.flatMap_cons, List.count_append, List.count_replicate]
    rcases List.mem_cons.1 h with rfl | h
    · have : (cb.flatMap fun p => List.replicate (g p.1) p.2).count b = 0 := by
        rw [List.count_eq_zero]
        intro hb
        obtain ⟨q, hq, hbq⟩ := List.mem_flatMap.1 hb
        have := List.eq_of_mem_replicate hbq
        exact hs.1 (List.mem_map.2 ⟨q, hq, this.symm⟩)
      rw [this]; simp
    · have hne : p.2 ≠ b := fun e => hs.1 (List.mem_map.2 ⟨_, h, e.symm⟩)
      rw [ih hs.2 h]
      simp [hne]

theorem scale_lt (R : Rounding) (N len : ℕ) (hl : N < len) (hu : 4 * R.u * len < 1) : ¬ 1 ≤ R.fl ((N : ℚ) / len) := by
  obtain ⟨a, ha, ea⟩ := rel R ((N : ℚ) / len)
  have hl' : (0:ℚ) < len := by exact_mod_cast (by omega : 0 < len)
  have h1 : (N : ℚ) + 1 ≤ len := by exact_mod_cast hl
  have ha' := abs_le.1 ha
  have hN0 : (0:ℚ) ≤ N := Nat.cast_nonneg _
  rw [ea, not_le, div_mul_eq_mul_div, div_lt_one hl']
  nlinarith [R.u_nonneg]

/-- **C81 (few samples).** In floats, too, samples that are not more than `nMax` are returned as they are. -/
theorem C81_short (F : Floats) (y : List ℚ) (hy : y ≠ []) (N : ℕ) (bc : Option ℕ) (h : y.length ≤ N) :
    downsampleF F.toRounding y N bc = .ok y := by
  have hl : y.length ≠ 0 := fun h => hy (List.length_eq_zero_iff.1 h)
  have hp : (0 : ℚ) < y.length := by exact_mod_cast Nat.pos_of_ne_zero hl
  unfold downsampleF
  rw [if_neg hl]
  simp only
  rw [if_pos]
  rw [← F.one]
  apply F.mono
  rw [le_div_iff₀ hp, one_mul]
  exact_mod_cast h

/-- **C81 (exact bins).** In floats `downsample` without bins keeps to the cap, only returns values of the samples, and of each value
as many as in exact arithmetic or one less. -/
theorem C81_downsample_exact (F : Floats) (y : List ℚ) (N : ℕ) (h : N < y.length)
    (hu : 4 * F.u * N * y.length < 1) (hu' : 4 * F.u * y.length < 1) :
    ∃ d, downsampleF F.toRounding y N none = .ok d ∧ d.length ≤ N ∧
      (∀ b, (d.count b : ℤ) ≤ ⌊(y.count b : ℚ) * (N / y.length)⌋ ∧ ⌊(y.count b : ℚ) * (N / y.length)⌋ - 1 ≤ d.count b) := by
  have hl : y.length ≠ 0 := by omega
  have hl0 : 0 < y.length := by omega
  obtain ⟨counts, bins, e, hlt, hm, hc, -, hsum⟩ := C13_bin_exact y
  have hnd : bins.Nodup := hlt.imp fun h => ne_of_lt h
  unfold downsampleF
  rw [if_neg hl]
  simp only
  rw [if_neg (scale_lt F.toRounding N y.length h hu'), e]
  simp only [bind, Except.bind, pure, Except.pure]
  set cb : List (ℕ × ℚ) := bins.map fun b => (y.count b, b) with hcb
  have hzip : expandF F.toRounding (F.fl ((N:ℚ) / y.length)) (counts.map Int.ofNat) bins =
      cb.flatMap fun p => List.replicate ⌊F.fl (p.1 * F.fl (N / y.length))⌋.toNat p.2 := by
    unfold expandF
    rw [hc, hcb]
    clear hcb hsum hnd hlt hm e hc cb
    induction bins with
    | nil => rfl
    | cons b bins ih =>
      simp only [List.map_cons, List.zip_cons_cons, List.flatMap_cons]
      rw [ih]
      rfl
  rw [hzip]
  have hfst : (cb.map Prod.fst).sum = y.length := by
    rw [hcb, List.map_map, ← hsum, hc]; rfl
  have hsnd : cb.map Prod.snd = bins := by
    rw [hcb, List.map_map]; simp [Function.comp_def]
  obtain ⟨l1, -⟩ := expandF_length F.toRounding N y.length hl0 hu cb (by omega)
  refine ⟨_, rfl, ?_, ?_⟩
  · rw [hfst] at l1
    have : (y.length : ℚ) * (N / y.length) = N := by
      have : (y.length : ℚ) ≠ 0 := by exact_mod_cast hl
      field_simp
    rw [this] at l1
    exact_mod_cast l1
  · intro b
    by_cases hb : b ∈ bins
    · rw [count_flatMap_replicate (fun c => ⌊F.fl (c * F.fl (N / y.length))⌋.toNat) cb (by rw [hsnd]; exact hnd) (y.count b) b
        (List.mem_map.2 ⟨b, hb, rfl⟩)]
      obtain ⟨k1, k2, k3⟩ := kept_bounds F.toRounding N y.length (y.count b) hl0 List.count_le_length hu
      rw [Int.toNat_of_nonneg k3]
      exact ⟨k1, k2⟩
    · have h0 : y.count b = 0 := List.count_eq_zero.2 (fun hy => hb ((hm b).2 hy))
      have h1 : (cb.flatMap fun p => List.replicate ⌊F.fl (p.1 * F.fl (N / y.length))⌋.toNat p.2).count b = 0 := by
        rw [List.count_eq_zero]
        intro hx
        obtain ⟨q, hq, hbq⟩ := List.mem_flatMap.1 hx
        have := List.eq_of_mem_replicate hbq
        apply hb
        rw [← hsnd, this]
        exact List.mem_map.2 ⟨q, hq, rfl⟩
      rw [h0, h1]
      simp

theorem midpointsF_range (R : Rounding) (n : ℕ) (E : ℕ → ℚ) :
    midpointsF R ((List.range (n + 1)).map E) = (List.range n).map fun i => R.fl (R.fl (E i + E (i + 1)) / 2) := by
  induction n generalizing E with
  | zero => rfl
  | succ n ih =>
    have e : (List.range (n + 1 + 1)).map E = E 0 :: E 1 :: ((List.range n).map fun i => E (i + 2)) := by
      rw [List.range_succ_eq_map, List.map_cons, List.range_succ_eq_map, List.map_cons, List.map_cons]
      simp only [List.map_map]
      rfl
    have e2 : E 1 :: ((List.range n).map fun i => E (i + 2)) = (List.range (n + 1)).map fun i => E (i + 1) := by
      rw [List.range_succ_eq_map, List.map_cons, List.map_map]
      rfl
    rw [e]
    show R.fl (R.fl (E 0 + E 1) / 2) :: midpointsF R (E 1 :: _) = _
    rw [e2, ih, List.range_succ_eq_map, List.map_cons, List.map_map]
    rfl

/-- **C81 (linear bins).** In floats `downsample` with `n` linear bins keeps to the cap, loses at most two samples per bin and only
returns centres of the bins. -/
theorem C81_downsample_linear (F : Floats) (y : List ℚ) (hrep : ∀ v ∈ y, F.fl v = v) (N : ℕ) (h : N < y.length)
    (hu : 4 * F.u * N * y.length < 1) (hu' : 4 * F.u * y.length < 1) (n : ℕ) (hn : 0 < n) (hn' : 4 * n * F.u ≤ 1) :
    ∃ (d : List ℚ) (E : ℕ → ℚ) (c : List ℤ), downsampleF F.toRounding y N (some n) = .ok d ∧
      binLinearF F.toRounding y n = .ok (c, (List.range (n + 1)).map E) ∧ d.length ≤ N ∧ (N : ℚ) - 2 * n ≤ d.length ∧
      (∀ b ∈ d, ∃ i < n, b = F.fl (F.fl (E i + E (i + 1)) / 2)) := by
  have hl : y.length ≠ 0 := by omega
  have hl0 : 0 < y.length := by omega
  have hy : y ≠ [] := fun h => hl (by rw [h]; rfl)
  obtain ⟨E, e, -, -, -, -, -, hsum⟩ := C81_bin_linear F y hy hrep n hn hn'
  unfold downsampleF
  rw [if_neg hl]
  simp only
  rw [if_neg (scale_lt F.toRounding N y.length h hu'), e]
  simp only [bind, Except.bind, pure, Except.pure]
  rw [midpointsF_range]
  set cb : List (ℕ × ℚ) := (List.range n).map fun i =>
    (y.countP (fun v => decide (InBin E n i v)), F.fl (F.fl (E i + E (i + 1)) / 2)) with hcb
  have hzip : expandF F.toRounding (F.fl ((N:ℚ) / y.length)) ((List.range n).map fun i => ((y.countP (fun v => decide (InBin E n i v)) : ℕ) : ℤ))
      ((List.range n).map fun i => F.fl (F.fl (E i + E (i + 1)) / 2)) =
      cb.flatMap fun p => List.replicate ⌊F.fl (p.1 * F.fl (N / y.length))⌋.toNat p.2 := by
    unfold expandF
    rw [hcb, List.zip_map', List.flatMap_map, List.flatMap_map]
    rfl
  rw [hzip]
  have hfst : (cb.map Prod.fst).sum = y.length := by
    rw [← hsum, hcb, List.map_map]; rfl
  obtain ⟨l1, l2⟩ := expandF_length F.toRounding N y.length hl0 hu cb (by omega)
  have hN : (y.length : ℚ) * (N / y.length) = N := by
    have : (y.length : ℚ) ≠ 0 := by exact_mod_cast hl
    field_simp
  rw [hfst, hN] at l1 l2
  refine ⟨_, E, _, rfl, rfl, by exact_mod_cast l1, ?_, ?_⟩
  · have : cb.length = n := by rw [hcb]; simp
    rw [this] at l2
    exact l2
  · intro b hb
    obtain ⟨q, hq, hbq⟩ := List.mem_flatMap.1 hb
    have := List.eq_of_mem_replicate hbq
    rw [hcb, List.mem_map] at hq
    obtain ⟨i, hi, rfl⟩ := hq
    exact ⟨i, List.mem_range.1 hi, this⟩

theorem linspaceF_exact (lo hi : ℚ) (n : ℕ) : linspaceF exact lo hi n = Stats.linspace lo hi n := by
  unfold linspaceF Stats.linspace
  apply List.map_congr_left
  intro i hi'
  rw [List.mem_range] at hi'
  unfold gridF exact
  simp only [id]
  by_cases h : i < n
  · rw [if_pos h]; ring
  · rw [if_neg h]
    have : i = n := by omega
    subst this
    by_cases h0 : i = 0
    · subst h0; simp
    · rw [if_neg h0]
      have : (i : ℚ) ≠ 0 := by exact_mod_cast h0
      field_simp
      ring

/-- Exact arithmetic keeps the order and all numbers. -/
def exactFloats : Floats where
  toRounding := exact
  mono := fun _ _ h => h
  idem := fun _ => rfl
  neg := fun _ => rfl
  one := rfl

/-- **C81 (no rounding).** With exact arithmetic these are the functions of the other properties. -/
theorem C81_exact : (∀ y n, binLinearF exact y n = binLinear y n) ∧ (∀ y N bc, downsampleF exact y N bc = downsample y N bc) := by
  have hb : ∀ y n, binLinearF exact y n = binLinear y n := by
    intro y n
    have hr : linearRangeF exact y = linearRange y := rfl
    unfold binLinearF binLinear
    rw [hr]
    cases y with
    | nil => rfl
    | cons a l =>
      obtain ⟨lo, hi, er, hle, -⟩ := linearRangeF_spec exactFloats (a :: l) (by simp) (fun _ _ => rfl)
      have er' : linearRange (a :: l) = .ok (lo, hi) := er
      rw [er']
      simp only [bind, Except.bind, pure, Except.pure]
      have ho : ordered (linspaceF exact lo hi n) = true := by
        unfold linspaceF
        apply ordered_range
        intro i hi'
        exact gridF_mono exactFloats hle rfl (by omega) (by simp [exactFloats, exact]) i hi'
      rw [if_pos ho, linspaceF_exact]
  have hm : ∀ l, midpointsF exact l = midpoints l := by
    intro l
    induction l with
    | nil => rfl
    | cons a l ih =>
      cases l with
      | nil => rfl
      | cons b l =>
        unfold midpointsF midpoints
        rw [ih]
        rfl
  refine ⟨hb, ?_⟩
  intro y N bc
  unfold downsampleF downsample
  split
  · rfl
  · simp only
    have h1 : exact.fl (N / y.length) = N / y.length := rfl
    rw [h1]
    split
    · rfl
    · cases bc with
      | none => rfl
      | some n =>
        simp only [hb, hm]
        rfl

/-- In doubles one of 49 equal samples is lost: reduced to one sample, nothing is left. -/
theorem C81_lost_fails : downsample (List.replicate 49 1) 1 none = .ok [1] ∧
    downsampleF double (List.replicate 49 1) 1 none = .ok [] ∧ downsampleF double (List.replicate 49 1) 1 (some 500) = .ok [] := by
  refine ⟨by decide +kernel, by decide +kernel, by decide +kernel⟩

/-- The hypotheses of the C81 theorems are met by doubles. -/
example : 4 * (500 : ℕ) * doubles.u ≤ 1 ∧ 4 * doubles.u * (50000 : ℕ) * (1000000 : ℕ) < 1 ∧
    (∀ v ∈ [nearest (1 / 10), nearest (3 / 10), 2], doubles.fl v = v) ∧
    binLinearF double [nearest (1 / 10), nearest (3 / 10), nearest (3 / 10), 2] 2 =
      .ok ([3, 1], [nearest (1 / 10), nearest (21 / 20), 2]) ∧
    downsampleF double [1, 1, 1, 2, 2, 2, 2, 2, 2] 3 none = .ok [1, 2, 2] := by
  refine ⟨by norm_num [doubles, double], by norm_num [doubles, double], by decide +kernel, by decide +kernel, by decide +kernel⟩

end Verif.Props.FloatStats
