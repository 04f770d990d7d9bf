import Verif.Model.FloatEye
import Verif.Props.FloatStats
import Verif.Props.EyeMask

/-!
C82: the symbol windows, the mask test and the pixels of the eye diagram in floats.
-/

namespace Verif.Props.FloatEye

open Verif Verif.Lines Verif.Eye Verif.Float Verif.Props.Float Verif.Props.FloatStats Verif.Props.EyeWindow Verif.Props.EyeMask
  Verif.Props.Intersect

/-! ### Remainders and truncation -/

theorem pyInt_near {x y : ℚ} (h : |x - y| < 1) : |pyInt x - pyInt y| ≤ 1 := by
  obtain ⟨h1, h2⟩ := abs_lt.1 h
  have up : ∀ a : ℚ, pyInt (a + 1) ≤ pyInt a + 1 := by
    intro a
    unfold pyInt
    split <;> split
    · rw [Int.floor_add_one]
    · rename_i p q
      push Not at q
      have e1 : ⌊a + 1⌋ ≤ 0 := by
        have : ⌊a + 1⌋ < 1 := Int.floor_lt.2 (by push_cast; linarith)
        omega
      have e2 : (-1 : ℤ) < ⌈a⌉ ∨ ⌈a⌉ = -1 := by
        rcases lt_or_eq_of_le (Int.le_ceil_iff.2 (by push_cast; linarith) : (-1:ℤ) ≤ ⌈a⌉) with h | h
        · exact .inl h
        · exact .inr h.symm
      omega
    · rename_i p q
      linarith
    · rw [Int.ceil_add_one]
  have a := (pyInt_mono x (y + 1) (by linarith)).trans (up y)
  have b := (pyInt_mono y (x + 1) (by linarith)).trans (up x)
  rw [abs_le]
  constructor <;> omega

theorem pyMod_eq (b d : ℚ) (hd : 0 < d) : b - d * pyInt (b / d) = pyMod b d ∨
    (b - d * pyInt (b / d) < 0 ∧ b - d * pyInt (b / d) + d = pyMod b d) := by
  unfold pyMod pyInt
  split
  · exact .inl rfl
  · rename_i h
    push Not at h
    by_cases hi : ((⌊b / d⌋ : ℤ) : ℚ) = b / d
    · left
      have : ⌈b / d⌉ = ⌊b / d⌋ := by
        rw [← hi, Int.ceil_intCast, Int.floor_intCast]
      rw [this]
    · right
      have hlt : ((⌊b / d⌋ : ℤ) : ℚ) < b / d := lt_of_le_of_ne (Int.floor_le _) hi
      have hc : ⌈b / d⌉ = ⌊b / d⌋ + 1 := by
        rw [Int.ceil_eq_iff]
        push_cast
        exact ⟨by linarith, (Int.lt_floor_add_one _).le⟩
      rw [hc]
      push_cast
      have h2 := Int.lt_floor_add_one (b / d)
      have e : d * (b / d) = b := mul_div_cancel₀ b hd.ne'
      refine ⟨by nlinarith, by ring⟩

/-- The remainder in floats is exact up to one rounding. -/
theorem pyModF_near (R : Rounding) (b d : ℚ) (hd : 0 < d) :
    |pyModF R b d - pyMod b d| ≤ R.u * d ∧ 0 ≤ pyModF R b d ∧ pyModF R b d ≤ (1 + R.u) * d := by
  obtain ⟨h0, h1, -⟩ := pyMod_spec b d hd
  have hu := R.u_nonneg
  have hs := R.u_small
  have hmul : 0 ≤ R.u * d := mul_nonneg hu hd.le
  unfold pyModF
  simp only
  rcases pyMod_eq b d hd with h | ⟨h, h'⟩
  · rw [h, if_neg (not_lt.2 h0), sub_self, abs_zero]
    exact ⟨hmul, h0, by nlinarith⟩
  · rw [if_pos h, h']
    obtain ⟨a, ha, ea⟩ := rel R (pyMod b d)
    have ha' := abs_le.1 ha
    rw [ea]
    refine ⟨?_, mul_nonneg h0 (by linarith), ?_⟩
    · rw [show pyMod b d * (1 + a) - pyMod b d = pyMod b d * a by ring, abs_mul, abs_of_nonneg h0]
      nlinarith [abs_nonneg a]
    · nlinarith

/-- The size of the times that the rounding errors are relative to: the distance from the start and one sample. -/
def reach (δ tZero b : ℚ) : ℚ := |b - tZero| + δ

/-- The rounded index before truncation. -/
theorem index_near (R : Rounding) (δ tZero b : ℚ) (hδ : 0 < δ) :
    |R.fl (R.fl (R.fl (R.fl (b - tZero) - pyModF R b δ) / δ) + 1 / 2) - ((b - tZero - pyModF R b δ) / δ + 1 / 2)| ≤
      5 * R.u * (reach δ tZero b / δ) := by
  obtain ⟨-, m0, m1⟩ := pyModF_near R b δ hδ
  set m := pyModF R b δ
  have hu := R.u_nonneg
  have hs := R.u_small
  have e1 := R.err (b - tZero)
  set A := R.fl (b - tZero)
  have e2 := R.err (A - m)
  set B := R.fl (A - m)
  have e3 := R.err (B / δ)
  set C := R.fl (B / δ)
  have e4 := R.err (C + 1 / 2)
  set D := R.fl (C + 1 / 2)
  set S := reach δ tZero b with hS
  have hb : |b - tZero| = S - δ := by rw [hS]; unfold reach; ring
  have hSδ : δ ≤ S := by rw [hS]; unfold reach; linarith [abs_nonneg (b - tZero)]
  rw [hb] at e1
  have hm : |m| ≤ (1 + R.u) * δ := by rw [abs_of_nonneg m0]; exact m1
  -- bound B
  have hA : |A - m| ≤ 102 / 100 * S := by
    have t1 : |A - m| ≤ |A - (b - tZero)| + |b - tZero| + |m| := by
      have := abs_add_le (A - (b - tZero)) (b - tZero - m)
      have := abs_sub (b - tZero) m
      rw [show A - m = (A - (b - tZero)) + (b - tZero - m) by ring]
      linarith
    rw [hb] at t1
    nlinarith
  have hB : |B - (b - tZero - m)| ≤ 203 / 100 * (R.u * S) := by
    have t1 : |B - (b - tZero - m)| ≤ |B - (A - m)| + |A - (b - tZero)| := by
      rw [show B - (b - tZero - m) = (B - (A - m)) + (A - (b - tZero)) by ring]
      exact abs_add_le _ _
    have t2 : R.u * |A - m| ≤ R.u * (102 / 100 * S) := mul_le_mul_of_nonneg_left hA hu
    have t3 : R.u * (S - δ) ≤ R.u * S := mul_le_mul_of_nonneg_left (by linarith) hu
    nlinarith [mul_nonneg hu (hδ.le.trans hSδ)]
  have hB' : |B| ≤ 104 / 100 * S := by
    have t1 : |B| ≤ |B - (A - m)| + |A - m| := by
      have := abs_add_le (B - (A - m)) (A - m)
      rwa [sub_add_cancel] at this
    nlinarith [abs_nonneg (A - m)]
  -- divide
  set s := S / δ with hs'
  have hs1 : 1 ≤ s := by rw [hs', le_div_iff₀ hδ]; linarith
  have hBd : |B / δ| ≤ 104 / 100 * s := by
    rw [abs_div, abs_of_pos hδ, div_le_iff₀ hδ, hs', mul_assoc, div_mul_cancel₀ _ hδ.ne']
    exact hB'
  have hBd' : |B / δ - (b - tZero - m) / δ| ≤ 203 / 100 * (R.u * s) := by
    rw [← sub_div, abs_div, abs_of_pos hδ, div_le_iff₀ hδ, hs']
    calc _ ≤ 203 / 100 * (R.u * S) := hB
      _ = 203 / 100 * (R.u * (S / δ)) * δ := by field_simp
  have hC : |C - B / δ| ≤ 104 / 100 * (R.u * s) := by nlinarith
  have hC' : |C + 1 / 2| ≤ 156 / 100 * s := by
    have t1 : |C + 1 / 2| ≤ |C - B / δ| + |B / δ| + 1 / 2 := by
      have t2 := abs_add_le (C - B / δ) (B / δ)
      have t3 := abs_add_le C (1 / 2)
      rw [sub_add_cancel] at t2
      rw [abs_of_pos (by norm_num : (0:ℚ) < 1 / 2)] at t3
      linarith
    nlinarith
  have hD : |D - (C + 1 / 2)| ≤ 156 / 100 * (R.u * s) := by nlinarith
  have t1 := abs_add_le (D - (C + 1 / 2)) ((C - B / δ) + (B / δ - (b - tZero - m) / δ))
  have t2 := abs_add_le (C - B / δ) (B / δ - (b - tZero - m) / δ)
  rw [show D - ((b - tZero - m) / δ + 1 / 2) = (D - (C + 1 / 2)) + ((C - B / δ) + (B / δ - (b - tZero - m) / δ)) by ring]
  nlinarith [mul_nonneg hu (by linarith : (0:ℚ) ≤ s)]

theorem iWidthF_ge (R : Rounding) (T δ : ℚ) (hT : 0 < T) (hδ : 0 < δ) : 2 ≤ iWidthF R T δ := by
  unfold iWidthF
  have h : 0 < R.fl (R.fl (T / δ) + 1 / 2) := (fl_pos R).2 (by
    have := (fl_pos R).2 (div_pos hT hδ)
    linarith)
  rw [pyInt_nonneg _ h.le]
  have := Int.floor_nonneg.2 h.le
  omega

/-- A centre whose window in floats is inside a record of `n` samples. -/
def InsideF (R : Rounding) (T δ : ℚ) (n : ℕ) (c : Center) : Prop := 0 ≤ c.i - iWidthF R T δ ∧ c.i + iWidthF R T δ < n

/-- **C82 (windows).** Whatever the rounding, the windows of the sampled symbols are inside the waveform, and their centre is at the clock
edge up to half a sample and the rounding errors. -/
theorem C82_centre (R : Rounding) (T δ tZero : ℚ) (hT : 0 < T) (hδ : 0 < δ) (n : ℕ) (edges : List ℚ) :
    ∀ c ∈ sampleEdgesF R T δ tZero n edges, InsideF R T δ n c ∧ ∃ b ∈ edges, 0 ≤ -c.t ∧ -c.t ≤ (1 + R.u) * δ ∧
      |tZero + c.i * δ - c.t - b| ≤ δ / 2 + 5 * R.u * reach δ tZero b := by
  intro c hc
  obtain ⟨b, hbm, hb⟩ := List.mem_filterMap.1 hc
  unfold sampleEdgeF at hb
  simp only at hb
  split at hb
  · cases hb
  · rename_i h
    push Not at h
    obtain rfl := Option.some.inj hb
    have hw := iWidthF_ge R T δ hT hδ
    obtain ⟨-, m0, m1⟩ := pyModF_near R b δ hδ
    refine ⟨h, b, hbm, by simpa using m0, by simpa using m1, ?_⟩
    have hn := index_near R δ tZero b hδ
    simp only
    have hi : 1 ≤ centerIF R δ tZero b := by omega
    unfold centerIF at hi ⊢
    set D := R.fl (R.fl (R.fl (R.fl (b - tZero) - pyModF R b δ) / δ) + 1 / 2)
    have hD : 0 ≤ D := by
      by_contra hneg
      have := pyInt_neg D (not_le.1 hneg)
      omega
    rw [pyInt_nonneg D hD]
    have f1 := Int.floor_le D
    have f2 := Int.lt_floor_add_one D
    set x := (b - tZero - pyModF R b δ) / δ with hx
    have hxd : x * δ = b - tZero - pyModF R b δ := by rw [hx]; field_simp
    have e : tZero + (⌊D⌋ : ℚ) * δ - -pyModF R b δ - b = (⌊D⌋ - x) * δ := by
      rw [sub_mul, hxd]; ring
    rw [e, abs_mul, abs_of_pos hδ]
    have hle : |(⌊D⌋ : ℚ) - x| ≤ 1 / 2 + 5 * R.u * (reach δ tZero b / δ) := by
      obtain ⟨n1, n2⟩ := abs_le.1 hn
      rw [abs_le]
      constructor <;> linarith
    calc _ ≤ (1 / 2 + 5 * R.u * (reach δ tZero b / δ)) * δ := mul_le_mul_of_nonneg_right hle hδ.le
      _ = δ / 2 + 5 * R.u * reach δ tZero b := by field_simp

/-- **C82 (windows).** The width of the windows is the exact one, unless the number of samples per symbol is half integer up to the rounding
errors. -/
theorem C82_width (R : Rounding) (T δ : ℚ) (hT : 0 < T) (hδ : 0 < δ) (k : ℤ) (hk : |T / δ - k| < 1 / 2 - 3 * R.u * (T / δ + 1)) :
    iWidthF R T δ = k + 2 ∧ iWidth T δ = k + 2 := by
  have hx := div_pos hT hδ
  unfold iWidthF iWidth
  set x := T / δ
  have hu := R.u_nonneg
  have hs := R.u_small
  have e1 := R.err x
  have e2 := R.err (R.fl x + 1 / 2)
  rw [abs_of_pos hx] at e1
  obtain ⟨a1, a2⟩ := abs_le.1 e1
  have hp : 0 < R.fl x := (fl_pos R).2 hx
  rw [abs_of_pos (by linarith : 0 < R.fl x + 1 / 2)] at e2
  obtain ⟨b1, b2⟩ := abs_le.1 e2
  have hq : 0 < R.fl (R.fl x + 1 / 2) := (fl_pos R).2 (by linarith)
  have ux : 0 ≤ R.u * x := mul_nonneg hu hx.le
  have u1 : R.u * (R.fl x + 1 / 2) ≤ R.u * (x + 1) + R.u * (R.u * x) := by nlinarith
  have u2 : R.u * (R.u * x) ≤ R.u * x := by nlinarith
  obtain ⟨k1, k2⟩ := abs_lt.1 hk
  rw [pyInt_nonneg _ hq.le, pyInt_nonneg _ (by linarith)]
  constructor
  · congr 1
    rw [Int.floor_eq_iff]
    constructor <;> nlinarith
  · congr 1
    rw [Int.floor_eq_iff]
    constructor <;> nlinarith

/-- **C82 (windows).** In floats the same sample is the centre of a symbol as in exact arithmetic, unless the start of the waveform is half a
sample off the sampling grid up to the rounding errors. -/
theorem C82_same_centre (R : Rounding) (T δ tZero : ℚ) (hδ : 0 < δ) (n : ℕ) (b : ℚ) (z : ℤ)
    (hz : |tZero - z * δ| < δ / 2 - 6 * R.u * reach δ tZero b) (hw : iWidthF R T δ = iWidth T δ) (hb : z ≤ ⌊b / δ⌋) :
    (sampleEdgeF R T δ tZero n b).map Center.i = (sampleEdge T δ tZero n b).map Center.i ∧
    centerIF R δ tZero b = ⌊b / δ⌋ - z := by
  have hu := R.u_nonneg
  have hs := R.u_small
  have hS : δ ≤ reach δ tZero b := by unfold reach; linarith [abs_nonneg (b - tZero)]
  have hn := index_near R δ tZero b hδ
  obtain ⟨mm, -, -⟩ := pyModF_near R b δ hδ
  have hmod : b - pyMod b δ = δ * ⌊b / δ⌋ := by unfold pyMod; ring
  have hz' : |tZero / δ - z| < 1 / 2 - 6 * R.u * (reach δ tZero b / δ) := by
    have e : tZero / δ - z = (tZero - z * δ) / δ := by field_simp
    rw [e, abs_div, abs_of_pos hδ, div_lt_iff₀ hδ]
    calc _ < δ / 2 - 6 * R.u * reach δ tZero b := hz
      _ = _ := by field_simp
  obtain ⟨z1, z2⟩ := abs_lt.1 hz'
  have hS1 : 1 ≤ reach δ tZero b / δ := by rw [le_div_iff₀ hδ]; linarith
  set s := reach δ tZero b / δ
  have hus : R.u ≤ R.u * s := by nlinarith
  have key : ∀ D : ℚ, |D - ((⌊b / δ⌋ : ℚ) - tZero / δ + 1 / 2)| ≤ 6 * (R.u * s) → pyInt D = ⌊b / δ⌋ - z := by
    intro D hD
    obtain ⟨d1, d2⟩ := abs_le.1 hD
    have hzb : ((z : ℤ) : ℚ) ≤ ⌊b / δ⌋ := by exact_mod_cast hb
    have h0 : 0 < D := by nlinarith
    rw [pyInt_nonneg D h0.le, Int.floor_eq_iff]
    push_cast
    constructor <;> nlinarith
  have hx : (b - tZero - pyModF R b δ) / δ = (⌊b / δ⌋ : ℚ) - tZero / δ - (pyModF R b δ - pyMod b δ) / δ := by
    field_simp
    linarith
  have hd : |(pyModF R b δ - pyMod b δ) / δ| ≤ R.u := by
    rw [abs_div, abs_of_pos hδ, div_le_iff₀ hδ]; exact mm
  have hF : centerIF R δ tZero b = ⌊b / δ⌋ - z := by
    unfold centerIF
    apply key
    rw [hx] at hn
    set D := R.fl (R.fl (R.fl (R.fl (b - tZero) - pyModF R b δ) / δ) + 1 / 2)
    set q := (pyModF R b δ - pyMod b δ) / δ
    obtain ⟨n1, n2⟩ := abs_le.1 hn
    obtain ⟨q1, q2⟩ := abs_le.1 hd
    rw [abs_le]
    constructor <;> nlinarith
  refine ⟨?_, hF⟩
  unfold sampleEdgeF sampleEdge
  simp only
  have hE : pyInt ((b - tZero - pyMod b δ) / δ + 1 / 2) = ⌊b / δ⌋ - z := by
    apply key
    have : (b - tZero - pyMod b δ) / δ = (⌊b / δ⌋ : ℚ) - tZero / δ := by
      field_simp
      linarith
    rw [this, sub_self, abs_zero]
    have := mul_nonneg hu (by linarith : (0:ℚ) ≤ s)
    linarith
  rw [hF, hE, hw]
  split <;> rfl

/-! ### The points of a window -/

theorem tWidthF_near (R : Rounding) (T δ : ℚ) (hT : 0 < T) (hδ : 0 < δ) :
    |tWidthF R T δ - iWidthF R T δ * δ / T| ≤ 21 / 10 * (R.u * (iWidthF R T δ * δ / T)) ∧ 0 < tWidthF R T δ := by
  have hw := iWidthF_ge R T δ hT hδ
  have hw' : (0:ℚ) < iWidthF R T δ := by exact_mod_cast (by omega : 0 < iWidthF R T δ)
  obtain ⟨a, ha, ea⟩ := rel R (iWidthF R T δ * δ)
  obtain ⟨b, hb, eb⟩ := rel R (R.fl (iWidthF R T δ * δ) / T)
  have hu := R.u_nonneg
  have hs := R.u_small
  have s1 : |(1 + a) - 1| ≤ 1 * R.u := by simpa using ha
  have s2 := step hu hs (by norm_num) s1 hb
  have hx : 0 < iWidthF R T δ * δ / T := by positivity
  have e : tWidthF R T δ = iWidthF R T δ * δ / T * ((1 + a) * (1 + b)) := by
    unfold tWidthF
    rw [eb, ea]; ring
  constructor
  · rw [e, show iWidthF R T δ * δ / T * ((1 + a) * (1 + b)) - iWidthF R T δ * δ / T =
      iWidthF R T δ * δ / T * ((1 + a) * (1 + b) - 1) by ring, abs_mul, abs_of_pos hx]
    have : |(1 + a) * (1 + b) - 1| ≤ 21 / 10 * R.u := s2.trans (by nlinarith)
    nlinarith
  · rw [e]
    have := abs_le.1 (ha.trans hs)
    have := abs_le.1 (hb.trans hs)
    exact mul_pos hx (mul_pos (by linarith) (by linarith))

theorem iWidthF_lower (R : Rounding) (T δ : ℚ) (hT : 0 < T) (hδ : 0 < δ) : 98 / 100 * (T / δ) ≤ iWidthF R T δ := by
  have hx := div_pos hT hδ
  unfold iWidthF
  set x := T / δ
  have hu := R.u_nonneg
  have hs := R.u_small
  have e1 := R.err x
  have e2 := R.err (R.fl x + 1 / 2)
  have hp : 0 < R.fl x := (fl_pos R).2 hx
  have hq : 0 < R.fl (R.fl x + 1 / 2) := (fl_pos R).2 (by linarith)
  rw [abs_of_pos hx] at e1
  rw [abs_of_pos (by linarith : 0 < R.fl x + 1 / 2)] at e2
  obtain ⟨a1, a2⟩ := abs_le.1 e1
  obtain ⟨b1, b2⟩ := abs_le.1 e2
  rw [pyInt_nonneg _ hq.le]
  have := Int.lt_floor_add_one (R.fl (R.fl x + 1 / 2))
  push_cast
  nlinarith

theorem windowF_length (R : Rounding) (ys : List ℚ) (T δ : ℚ) (hT : 0 < T) (hδ : 0 < δ) (c : Center) (hc : InsideF R T δ ys.length c) :
    windowF R ys T δ c = (List.range (2 * (iWidthF R T δ).toNat + 1)).map fun k : ℕ =>
      (R.fl (gridF R (R.fl (1 / 2 - tWidthF R T δ)) (R.fl (1 / 2 + tWidthF R T δ)) (2 * (iWidthF R T δ).toNat) k + R.fl (c.t / T)),
        ys.getD (c.i.toNat - (iWidthF R T δ).toNat + k) 0) := by
  obtain ⟨hc1, hc2⟩ := hc
  have hw := iWidthF_ge R T δ hT hδ
  obtain ⟨w, hwe⟩ := Int.eq_ofNat_of_zero_le (by omega : 0 ≤ iWidthF R T δ)
  obtain ⟨i, hie⟩ := Int.eq_ofNat_of_zero_le (by omega : 0 ≤ c.i)
  rw [hwe, hie] at hc1 hc2
  rw [hwe] at hw
  have hs : pySlice ys (c.i - iWidthF R T δ) (c.i + iWidthF R T δ + 1) = (ys.drop (i - w)).take (2 * w + 1) := by
    rw [hwe, hie]
    rw [show (i : ℤ) - w = ((i - w : ℕ) : ℤ) by omega, show (i : ℤ) + w + 1 = ((i - w : ℕ) : ℤ) + ((2 * w + 1 : ℕ) : ℤ) by omega]
    exact pySlice_inside ys (i - w) (2 * w + 1) (by omega)
  unfold windowF
  simp only
  rw [hs]
  have hn : (2 * iWidthF R T δ).toNat = 2 * w := by omega
  apply List.ext_getElem
  · simp only [List.length_zip, List.length_map, List.length_take, List.length_drop, List.length_range, gridTF, linspaceF, hn]
    rw [hwe]
    omega
  · intro k h1 h2
    simp only [List.length_map, List.length_range, hwe] at h2
    have hk : k < 2 * w + 1 := by simpa using h2
    simp only [List.getElem_zip, List.getElem_map, List.getElem_take, List.getElem_drop, List.getElem_range, gridTF, linspaceF, hn]
    have h3 : i - w + k < ys.length := by omega
    have h4 : c.i.toNat = i := by omega
    have h5 : (iWidthF R T δ).toNat = w := by omega
    rw [h4, h5, List.getD_eq_getElem?_getD]
    simp [h3]

/-- The times of a window in floats are those of an exact window of the same width up to rounding. -/
theorem time_near (R : Rounding) (T δ : ℚ) (hT : 0 < T) (hδ : 0 < δ) (ct : ℚ) (hct : 0 ≤ -ct ∧ -ct ≤ (1 + R.u) * δ)
    (k : ℕ) (hk : k ≤ 2 * (iWidthF R T δ).toNat) :
    |R.fl (gridF R (R.fl (1 / 2 - tWidthF R T δ)) (R.fl (1 / 2 + tWidthF R T δ)) (2 * (iWidthF R T δ).toNat) k + R.fl (ct / T)) -
      (1 / 2 + ((k : ℚ) - iWidthF R T δ) * δ / T + ct / T)| ≤ 20 * (R.u * (1 + iWidthF R T δ * δ / T)) := by
  have hw := iWidthF_ge R T δ hT hδ
  obtain ⟨w, hwe⟩ := Int.eq_ofNat_of_zero_le (by omega : 0 ≤ iWidthF R T δ)
  obtain ⟨tw1, tw2⟩ := tWidthF_near R T δ hT hδ
  have hu := R.u_nonneg
  have hs := R.u_small
  rw [hwe] at tw1 hw hk ⊢
  have hwn : ((w : ℤ)).toNat = w := by omega
  rw [hwn] at hk ⊢
  have hw2 : 2 ≤ w := by exact_mod_cast hw
  have hwq : (2:ℚ) ≤ w := by exact_mod_cast hw2
  have hwi : ((w : ℤ) : ℚ) = (w : ℚ) := by push_cast; rfl
  rw [hwi] at tw1 ⊢
  set tw' := tWidthF R T δ
  set τ := (w : ℚ) * δ / T with hτ
  have hd : 0 < δ / T := div_pos hδ hT
  have hτd : δ / T * 2 ≤ τ := by rw [hτ, mul_div_assoc]; nlinarith
  have hτ0 : 0 < τ := by linarith
  have uτ : 0 ≤ R.u * τ := mul_nonneg hu hτ0.le
  have hτ1 : 98 / 100 ≤ τ := by
    have := iWidthF_lower R T δ hT hδ
    rw [hwe, hwi] at this
    rw [hτ, mul_div_assoc]
    have e : T / δ * (δ / T) = 1 := by field_simp
    nlinarith
  obtain ⟨tw3, tw4⟩ := abs_le.1 tw1
  have htw : tw' ≤ 103 / 100 * τ := by nlinarith
  -- bounds of the grid
  have el := R.err (1 / 2 - tw')
  have eh := R.err (1 / 2 + tw')
  rw [abs_of_pos (by linarith : 0 < 1 / 2 + tw')] at eh
  have al : |1 / 2 - tw'| ≤ 1 / 2 + tw' := by rw [abs_le]; constructor <;> linarith
  have el' : R.u * |1 / 2 - tw'| ≤ R.u * (1 / 2 + tw') := mul_le_mul_of_nonneg_left al hu
  have ut : R.u * tw' ≤ 103 / 100 * (R.u * τ) := by nlinarith
  obtain ⟨l1, l2⟩ := abs_le.1 (el.trans el')
  obtain ⟨h1, h2⟩ := abs_le.1 eh
  set lo := R.fl (1 / 2 - tw')
  set hi := R.fl (1 / 2 + tw')
  have uτs : R.u * τ ≤ 1 / 100 * τ := mul_le_mul_of_nonneg_right hs hτ0.le
  rw [show R.u * (1 / 2 + tw') = 1 / 2 * R.u + R.u * tw' by ring] at l1 l2 h1 h2
  have hbig : lo ≤ hi := by linarith
  have hgrid := gridF_near R hbig (by omega : 0 < 2 * w) k hk
  set g := gridF R lo hi (2 * w) k
  have hspan : hi - lo ≤ 21 / 10 * τ + 1 / 50 := by linarith
  have hlo : |lo| ≤ 1 / 2 + 1 / 100 + 105 / 100 * τ := by
    rw [abs_le]
    constructor <;> linarith
  -- the exact point of a grid between the rounded ends
  set x : ℚ := (k : ℚ) / (2 * w) with hx
  have hx0 : 0 ≤ x := by positivity
  have hx1 : x ≤ 1 := by
    rw [hx, div_le_one (by positivity)]
    exact_mod_cast hk
  have e1 : (k : ℚ) * ((hi - lo) / ((2 * w : ℕ) : ℚ)) = x * (hi - lo) := by
    rw [hx]; push_cast; ring
  rw [e1] at hgrid
  have e2 : ((k : ℚ) - w) * δ / T = (2 * x - 1) * τ := by
    rw [hx, hτ]; field_simp
  rw [e2]
  have g1 : |g - (lo + x * (hi - lo))| ≤ 2 * R.u + 12 * (R.u * τ) := by
    have : R.u * (|lo| + 5 * (hi - lo)) ≤ R.u * (2 + 12 * τ) := mul_le_mul_of_nonneg_left (by linarith) hu
    linarith
  have d1 : |lo - (1 / 2 - τ)| ≤ 1 / 2 * R.u + 32 / 10 * (R.u * τ) := by
    rw [abs_le]; constructor <;> linarith
  have d2 : |hi - (1 / 2 + τ)| ≤ 1 / 2 * R.u + 32 / 10 * (R.u * τ) := by
    rw [abs_le]; constructor <;> linarith
  have g2 : |lo + x * (hi - lo) - (1 / 2 + (2 * x - 1) * τ)| ≤ 1 / 2 * R.u + 32 / 10 * (R.u * τ) := by
    have e : lo + x * (hi - lo) - (1 / 2 + (2 * x - 1) * τ) = (1 - x) * (lo - (1 / 2 - τ)) + x * (hi - (1 / 2 + τ)) := by ring
    rw [e]
    refine (abs_add_le _ _).trans ?_
    rw [abs_mul, abs_mul, abs_of_nonneg hx0, abs_of_nonneg (by linarith : 0 ≤ 1 - x)]
    have t1 := mul_le_mul_of_nonneg_left d1 (by linarith : 0 ≤ 1 - x)
    have t2 := mul_le_mul_of_nonneg_left d2 hx0
    linarith
  -- the offset
  have hc1 : |ct / T| ≤ 52 / 100 * τ := by
    rw [abs_div, abs_of_pos hT, abs_of_nonpos (by linarith [hct.1]), div_le_iff₀ hT]
    have c1 : δ / T * T = δ := by field_simp
    have c2 := mul_le_mul_of_nonneg_right hτd hT.le
    have c3 : (1 + R.u) * δ ≤ 101 / 100 * δ := mul_le_mul_of_nonneg_right (by linarith) hδ.le
    have c4 := hct.2
    rw [show δ / T * 2 * T = 2 * (δ / T * T) by ring, c1] at c2
    have c5 := mul_pos hτ0 hT
    linarith
  have ec := R.err (ct / T)
  have hc2 : |R.fl (ct / T) - ct / T| ≤ 52 / 100 * (R.u * τ) := by
    have := mul_le_mul_of_nonneg_left hc1 hu
    linarith
  have ef := R.err (g + R.fl (ct / T))
  set q := R.fl (ct / T)
  have hg : |g + q| ≤ 1 + 2 * τ := by
    have b1 : |g| ≤ |g - (lo + x * (hi - lo))| + |lo + x * (hi - lo) - (1 / 2 + (2 * x - 1) * τ)| + (1 / 2 + τ) := by
      have t0 : |1 / 2 + (2 * x - 1) * τ| ≤ 1 / 2 + τ := by
        have p1 := mul_nonneg hx0 hτ0.le
        have p2 := mul_le_mul_of_nonneg_right hx1 hτ0.le
        rw [show 1 / 2 + (2 * x - 1) * τ = 1 / 2 + 2 * (x * τ) - τ by ring, abs_le]
        constructor <;> linarith
      have t1 := abs_add_le (g - (lo + x * (hi - lo))) (lo + x * (hi - lo) - (1 / 2 + (2 * x - 1) * τ) + (1 / 2 + (2 * x - 1) * τ))
      have t2 := abs_add_le (lo + x * (hi - lo) - (1 / 2 + (2 * x - 1) * τ)) (1 / 2 + (2 * x - 1) * τ)
      rw [show g = (g - (lo + x * (hi - lo))) + (lo + x * (hi - lo) - (1 / 2 + (2 * x - 1) * τ) + (1 / 2 + (2 * x - 1) * τ)) by ring]
      rw [show (g - (lo + x * (hi - lo))) + (lo + x * (hi - lo) - (1 / 2 + (2 * x - 1) * τ) + (1 / 2 + (2 * x - 1) * τ)) -
        (lo + x * (hi - lo)) = g - (lo + x * (hi - lo)) by ring]
      linarith
    have b2 : |q| ≤ |q - ct / T| + |ct / T| := by
      have := abs_add_le (q - ct / T) (ct / T)
      rwa [sub_add_cancel] at this
    have b3 := abs_add_le g q
    linarith
  have hf : |R.fl (g + q) - (g + q)| ≤ R.u + 2 * (R.u * τ) := by
    have := mul_le_mul_of_nonneg_left hg hu
    linarith
  have t1 := abs_add_le (R.fl (g + q) - (g + q)) ((g - (lo + x * (hi - lo))) + ((lo + x * (hi - lo) - (1 / 2 + (2 * x - 1) * τ)) + (q - ct / T)))
  have t2 := abs_add_le (g - (lo + x * (hi - lo))) ((lo + x * (hi - lo) - (1 / 2 + (2 * x - 1) * τ)) + (q - ct / T))
  have t3 := abs_add_le (lo + x * (hi - lo) - (1 / 2 + (2 * x - 1) * τ)) (q - ct / T)
  rw [show R.fl (g + q) - (1 / 2 + (2 * x - 1) * τ + ct / T) = (R.fl (g + q) - (g + q)) +
    ((g - (lo + x * (hi - lo))) + ((lo + x * (hi - lo) - (1 / 2 + (2 * x - 1) * τ)) + (q - ct / T))) by ring]
  linarith

/-- **C82 (windows).** Every point of a window in floats has the value of a sample, and is at its time relative to the clock edge up to half
a sample and the rounding errors. -/
theorem C82_window (R : Rounding) (T δ tZero : ℚ) (hT : 0 < T) (hδ : 0 < δ) (ys : List ℚ) (edges : List ℚ) :
    ∀ c ∈ sampleEdgesF R T δ tZero ys.length edges, ∃ w : ℕ, iWidthF R T δ = w ∧ (windowF R ys T δ c).length = 2 * w + 1 ∧
      ∃ b ∈ edges, ∀ k (h : k < (windowF R ys T δ c).length), ∃ j : ℕ, (j : ℤ) = c.i - w + k ∧
        ys[j]? = some ((windowF R ys T δ c)[k]).2 ∧
        |((windowF R ys T δ c)[k]).1 - (1 / 2 + (tZero + j * δ - b) / T)| ≤
          δ / T / 2 + 5 * R.u * (reach δ tZero b / T) + 20 * (R.u * (1 + w * δ / T)) := by
  intro c hc
  obtain ⟨hin, b, hb, c0, c1, hcen⟩ := C82_centre R T δ tZero hT hδ ys.length edges c hc
  have hw := iWidthF_ge R T δ hT hδ
  have he := windowF_length R ys T δ hT hδ c hin
  obtain ⟨w, hwe⟩ := Int.eq_ofNat_of_zero_le (by omega : 0 ≤ iWidthF R T δ)
  have hlen : (windowF R ys T δ c).length = 2 * w + 1 := by rw [he, hwe]; simp
  refine ⟨w, hwe, hlen, b, hb, ?_⟩
  intro k hk
  have hk' : k < 2 * w + 1 := by rwa [hlen] at hk
  obtain ⟨i1, i2⟩ := hin
  rw [hwe] at i1 i2
  have hj : c.i.toNat - w + k < ys.length := by omega
  refine ⟨c.i.toNat - w + k, by omega, ?_, ?_⟩
  · simp only [he, List.getElem_map, List.getElem_range, hwe, Int.toNat_natCast]
    rw [List.getD_eq_getElem?_getD, List.getElem?_eq_getElem hj, Option.getD_some]
  · have ht := time_near R T δ hT hδ c.t ⟨c0, c1⟩ k (by rw [hwe]; omega)
    simp only [he, List.getElem_map, List.getElem_range]
    rw [hwe] at ht ⊢
    set x := R.fl (gridF R (R.fl (1 / 2 - tWidthF R T δ)) (R.fl (1 / 2 + tWidthF R T δ)) (2 * ((w : ℤ)).toNat) k + R.fl (c.t / T))
    have hjq : ((c.i.toNat - w + k : ℕ) : ℚ) = c.i - w + k := by
      have : ((c.i.toNat - w + k : ℕ) : ℤ) = c.i - w + k := by omega
      exact_mod_cast this
    rw [hjq]
    have e : (1 / 2 + (tZero + ((c.i : ℚ) - w + k) * δ - b) / T) =
        (1 / 2 + ((k : ℚ) - ((w : ℤ) : ℚ)) * δ / T + c.t / T) + (tZero + c.i * δ - c.t - b) / T := by
      push_cast
      field_simp
      ring
    rw [e]
    have hq : |(tZero + c.i * δ - c.t - b) / T| ≤ δ / T / 2 + 5 * R.u * (reach δ tZero b / T) := by
      rw [abs_div, abs_of_pos hT, div_le_iff₀ hT]
      calc _ ≤ δ / 2 + 5 * R.u * reach δ tZero b := hcen
        _ = _ := by field_simp
    have t1 := abs_sub (x - (1 / 2 + ((k : ℚ) - ((w : ℤ) : ℚ)) * δ / T + c.t / T)) ((tZero + c.i * δ - c.t - b) / T)
    rw [show x - ((1 / 2 + ((k : ℚ) - ((w : ℤ) : ℚ)) * δ / T + c.t / T) + (tZero + c.i * δ - c.t - b) / T) =
      x - (1 / 2 + ((k : ℚ) - ((w : ℤ) : ℚ)) * δ / T + c.t / T) - (tZero + c.i * δ - c.t - b) / T by ring]
    have hwq : (((w : ℤ) : ℚ)) = (w : ℚ) := by push_cast; rfl
    rw [hwq] at ht t1 ⊢
    linarith

/-- **C82 (values).** The values in units of the amplitude are off by no more than three roundings. -/
theorem C82_normalise (R : Rounding) (y : List ℚ) (y0 ua : ℚ) : (normaliseF R y y0 ua).length = (normalise y y0 ua).length ∧
    ∀ i, |(normaliseF R y y0 ua).getD i 0 - (normalise y y0 ua).getD i 0| ≤ 3 * R.u * |(normalise y y0 ua).getD i 0| := by
  refine ⟨by simp [normaliseF, normalise], fun i => ?_⟩
  unfold normaliseF normalise
  rw [List.getD_eq_getElem?_getD, List.getD_eq_getElem?_getD, List.getElem?_map, List.getElem?_map]
  cases y[i]? with
  | none => simp
  | some v =>
    simp only [Option.map_some, Option.getD_some]
    obtain ⟨a, ha, ea⟩ := rel R (v - y0)
    obtain ⟨b, hb, eb⟩ := rel R (R.fl (v - y0) / ua)
    have hu := R.u_nonneg
    have hs := R.u_small
    have s1 : |(1 + a) - 1| ≤ 1 * R.u := by simpa using ha
    have s2 := step hu hs (by norm_num) s1 hb
    rw [eb, ea, show (v - y0) * (1 + a) / ua * (1 + b) - (v - y0) / ua = (v - y0) / ua * ((1 + a) * (1 + b) - 1) by ring, abs_mul, mul_comm]
    exact mul_le_mul_of_nonneg_right (s2.trans (by nlinarith)) (abs_nonneg _)

/-- The times of a window in floats do not decrease. -/
theorem windowF_mono (F : Floats) (ys : List ℚ) (T δ : ℚ) (hT : 0 < T) (hδ : 0 < δ) (c : Center)
    (hc : InsideF F.toRounding T δ ys.length c) (hu : 8 * iWidthF F.toRounding T δ * F.u ≤ 1) :
    NonDecreasing (windowF F.toRounding ys T δ c) := by
  intro a ha
  obtain ⟨k, hk, rfl⟩ := pairs_get _ a ha
  have hlen := hk
  have he := windowF_length F.toRounding ys T δ hT hδ c hc
  simp only [he, List.getElem_map, List.getElem_range]
  rw [he, List.length_map, List.length_range] at hlen
  have hw := iWidthF_ge F.toRounding T δ hT hδ
  obtain ⟨-, tw⟩ := tWidthF_near F.toRounding T δ hT hδ
  have hw0 : 0 < 2 * (iWidthF F.toRounding T δ).toNat := by omega
  have hwq : ((2 * (iWidthF F.toRounding T δ).toNat : ℕ) : ℚ) = 2 * iWidthF F.toRounding T δ := by
    have : ((2 * (iWidthF F.toRounding T δ).toNat : ℕ) : ℤ) = 2 * iWidthF F.toRounding T δ := by omega
    exact_mod_cast this
  apply F.mono
  have := gridF_mono F (F.mono _ _ (by linarith : 1 / 2 - tWidthF F.toRounding T δ ≤ 1 / 2 + tWidthF F.toRounding T δ)) (F.idem _) hw0
    (by rw [hwq]; linarith) k (by omega)
  linarith

/-! ### Pixels -/

/-- **C82 (pixels).** In floats every sample is drawn at the pixel of exact arithmetic or next to it. -/
theorem C82_pixels (R : Rounding) (y : List ℚ) (T δ minY maxY : ℚ) (hT : 0 < T) (hδ : 0 < δ) (res : ℕ) (c : Center)
    (hc : Inside T δ y.length c) (hct : 0 ≤ -c.t ∧ -c.t ≤ (1 + R.u) * δ) (hw : iWidthF R T δ = iWidth T δ)
    (hu : 14 * R.u * (1 + iWidth T δ * δ / T) * res < 1) (hv : ∀ v ∈ y, 5 * R.u * |(v - minY) / (maxY - minY)| * res < 1) :
    List.Forall₂ (fun p q : ℤ × ℤ => |p.1 - q.1| ≤ 1 ∧ |p.2 - q.2| ≤ 1) (pixelsF R y δ T minY maxY res c) (pixels y δ T minY maxY res c) := by
  have hcF : InsideF R T δ y.length c := by unfold InsideF; rw [hw]; exact hc
  have huu := R.u_nonneg
  have hs := R.u_small
  unfold pixelsF pixels
  rw [windowF_length R _ T δ hT hδ c (by simpa using hcF), window_eq _ T δ hT hδ c (by simpa using hc), hw, List.map_map, List.map_map]
  rw [List.forall₂_map_left_iff, List.forall₂_map_right_iff, List.forall₂_same]
  intro k hk
  rw [List.mem_range] at hk
  simp only [Function.comp_apply]
  constructor
  · apply pyInt_near
    have ht := time_near R T δ hT hδ c.t hct k (by rw [hw]; omega)
    rw [hw] at ht
    set t' := R.fl (gridF R (R.fl (1 / 2 - tWidthF R T δ)) (R.fl (1 / 2 + tWidthF R T δ)) (2 * (iWidth T δ).toNat) k + R.fl (c.t / T))
    set t := 1 / 2 + ((k : ℚ) - iWidth T δ) * δ / T + c.t / T with htdef
    set τ := (iWidth T δ : ℚ) * δ / T with hτ
    obtain ⟨w1, -, w2⟩ := iWidth_ge T δ hT hδ
    have hwq : (2:ℚ) ≤ iWidth T δ := by exact_mod_cast w2
    have hd : 0 < δ / T := div_pos hδ hT
    have hτd : δ / T * 2 ≤ τ := by rw [hτ, mul_div_assoc]; nlinarith
    have hτ0 : 0 < τ := by linarith
    -- size of the time
    have hk' : (k : ℚ) ≤ 2 * iWidth T δ := by
      have : (k : ℤ) ≤ 2 * iWidth T δ := by omega
      exact_mod_cast this
    have hkk : |((k : ℚ) - iWidth T δ) * δ / T| ≤ τ := by
      rw [hτ, mul_div_assoc, mul_div_assoc, abs_mul, abs_of_pos hd]
      apply mul_le_mul_of_nonneg_right _ hd.le
      rw [abs_le]
      have : (0:ℚ) ≤ k := Nat.cast_nonneg _
      constructor <;> linarith
    have hcT : |c.t / T| ≤ 101 / 200 * τ := by
      rw [abs_div, abs_of_pos hT, abs_of_nonpos (by linarith [hct.1])]
      have c3 : (1 + R.u) * δ ≤ 101 / 100 * δ := mul_le_mul_of_nonneg_right (by linarith) hδ.le
      have : -c.t / T ≤ 101 / 100 * (δ / T) := by
        rw [div_le_iff₀ hT]
        have : δ / T * T = δ := by field_simp
        linarith [hct.2]
      linarith
    have htt : |t + 1 / 2| ≤ 1 + 3 / 2 * τ + 1 / 100 * τ := by
      rw [htdef]
      obtain ⟨p1, p2⟩ := abs_le.1 hkk
      obtain ⟨p3, p4⟩ := abs_le.1 hcT
      rw [abs_le]
      constructor <;> linarith
    have uT : R.u * (1 + τ) ≤ 1 / 100 * (1 + τ) := mul_le_mul_of_nonneg_right hs (by linarith)
    obtain ⟨q1, q2⟩ := abs_le.1 ht
    have htt' : |t' + 1 / 2| ≤ 2 * (1 + τ) := by
      obtain ⟨p1, p2⟩ := abs_le.1 htt
      rw [abs_le]
      constructor <;> linarith
    obtain ⟨a, ha, ea⟩ := rel R (t' + 1 / 2)
    obtain ⟨b, hb, eb⟩ := rel R (R.fl (t' + 1 / 2) / 2)
    obtain ⟨d, hd', ed⟩ := rel R (R.fl (R.fl (t' + 1 / 2) / 2) * res)
    have s1 : |(1 + a) - 1| ≤ 1 * R.u := by simpa using ha
    have s2 := step huu hs (by norm_num) s1 hb
    have s3 := step huu hs (by norm_num) s2 hd'
    have hr : (0:ℚ) ≤ res := Nat.cast_nonneg _
    rw [ed, eb, ea]
    have e : (t' + 1 / 2) * (1 + a) / 2 * (1 + b) * res * (1 + d) - (t + 1 / 2) / 2 * res =
        ((t' + 1 / 2) * ((1 + a) * (1 + b) * (1 + d) - 1) / 2 + (t' - t) / 2) * res := by ring
    rw [e, abs_mul, abs_of_nonneg hr]
    have b1 : |(t' + 1 / 2) * ((1 + a) * (1 + b) * (1 + d) - 1) / 2| ≤ 31 / 10 * (R.u * (1 + τ)) := by
      rw [abs_div, abs_mul, abs_of_pos (by norm_num : (0:ℚ) < 2), div_le_iff₀ (by norm_num)]
      have : |(1 + a) * (1 + b) * (1 + d) - 1| ≤ 31 / 10 * R.u := s3.trans (by nlinarith)
      calc _ ≤ 2 * (1 + τ) * (31 / 10 * R.u) := mul_le_mul htt' this (abs_nonneg _) (by linarith)
        _ = _ := by ring
    have b2 : |(t' - t) / 2| ≤ 10 * (R.u * (1 + τ)) := by
      rw [abs_div, abs_of_pos (by norm_num : (0:ℚ) < 2), div_le_iff₀ (by norm_num)]
      linarith
    have b3 := abs_add_le ((t' + 1 / 2) * ((1 + a) * (1 + b) * (1 + d) - 1) / 2) ((t' - t) / 2)
    have b4 : 0 ≤ R.u * (1 + τ) := mul_nonneg huu (by linarith)
    calc _ ≤ (14 * (R.u * (1 + τ))) * res := mul_le_mul_of_nonneg_right (by linarith) hr
      _ = 14 * R.u * (1 + τ) * res := by ring
      _ < 1 := hu
  · apply pyInt_near
    rw [List.getD_eq_getElem?_getD, List.getD_eq_getElem?_getD, List.getElem?_map, List.getElem?_map]
    cases hv' : y[c.i.toNat - (iWidth T δ).toNat + k]? with
    | none => simp [fl_zero]
    | some v =>
      simp only [Option.map_some, Option.getD_some]
      obtain ⟨a, ha, ea⟩ := rel R (v - minY)
      obtain ⟨a', ha', ea'⟩ := rel R (maxY - minY)
      obtain ⟨b, hb, eb⟩ := rel R (R.fl (v - minY) / R.fl (maxY - minY))
      obtain ⟨d, hd', ed⟩ := rel R (R.fl (R.fl (v - minY) / R.fl (maxY - minY)) * res)
      have s1 : |(1 + a) - 1| ≤ 1 * R.u := by simpa using ha
      have s2 := step_div huu hs (by norm_num) s1 ha'
      have s3 := step huu hs (by norm_num) s2 hb
      have s4 := step huu hs (by norm_num) s3 hd'
      have hr : (0:ℚ) ≤ res := Nat.cast_nonneg _
      rw [ed, eb, ea, ea']
      have e : (v - minY) * (1 + a) / ((maxY - minY) * (1 + a')) * (1 + b) * res * (1 + d) - (v - minY) / (maxY - minY) * res =
          (v - minY) / (maxY - minY) * res * ((1 + a) / (1 + a') * (1 + b) * (1 + d) - 1) := by
        rw [mul_div_mul_comm]; ring
      rw [e, abs_mul, abs_mul, abs_of_nonneg hr]
      have : |(1 + a) / (1 + a') * (1 + b) * (1 + d) - 1| ≤ 5 * R.u := s4.trans (by nlinarith)
      calc _ ≤ |(v - minY) / (maxY - minY)| * res * (5 * R.u) := mul_le_mul_of_nonneg_left this (mul_nonneg (abs_nonneg _) hr)
        _ = 5 * R.u * |(v - minY) / (maxY - minY)| * res := by ring
        _ < 1 := hv v (List.mem_of_getElem? hv')

/-! ### Mask -/

/-- A segment of the waveform crosses a segment of a path by more than the rounding errors. -/
def Through (u : ℚ) (w : List Pt) (paths : List (List Pt)) : Prop :=
  ∃ path ∈ paths, ∃ a ∈ pairs w, ∃ e ∈ pairs path, ¬ Parallel a.2 a.1 e.2 e.1 ∧ CrossBy 5 u a.2 a.1 e.2 e.1

/-- The waveform stays clear of the paths by more than the rounding errors. -/
def Clear (u : ℚ) (w : List Pt) (paths : List (List Pt)) : Prop :=
  ∀ path ∈ paths, ∀ a ∈ pairs w, ∀ e ∈ pairs path, ¬ CrossBy (-5) u a.2 a.1 e.2 e.1

theorem advanceF_spec (R : Rounding) (w : List Pt) (l : List (List (List Pt))) (hl : ∀ p ∈ l, ∀ q ∈ p, q ≠ []) (k : ℕ) :
    ∃ m, advanceF R w l k = .ok (k + m) ∧ m ≤ l.length ∧ (∀ j (h : j < l.length), j < m → isHittingF R w l[j] = .ok true) ∧
      (∀ h : m < l.length, isHittingF R w l[m] = .ok false) := by
  induction l generalizing k with
  | nil => exact ⟨0, rfl, by simp, by simp, by simp⟩
  | cons p l ih =>
    obtain ⟨h, -, e⟩ := C80_is_hitting R w p (hl p (by simp))
    unfold advanceF
    rw [e]
    simp only [bind, Except.bind, pure, Except.pure]
    by_cases hh : h ≠ []
    · obtain ⟨m, e1, e2, e3, e4⟩ := ih (fun p hp => hl p (List.mem_cons_of_mem _ hp)) (k + 1)
      refine ⟨m + 1, ?_, by simpa using e2, ?_, ?_⟩
      · simp only [hh, ne_eq, not_false_eq_true, decide_true, if_true]
        rw [e1]
        congr 1
        omega
      · intro j hj hjm
        cases j with
        | zero => simp only [List.getElem_cons_zero]; rw [e]; simp [hh]
        | succ j => simp only [List.getElem_cons_succ]; exact e3 j (by simpa using hj) (by omega)
      · intro h'
        simp only [List.getElem_cons_succ]
        exact e4 (by simpa using h')
    · refine ⟨0, ?_, by simp, by simp, ?_⟩
      · simp [hh]
      · intro _
        simp only [List.getElem_cons_zero]; rw [e]; simp [hh]

/-- What the loop over the symbols finds. -/
structure Found (R : Rounding) (paths : List (List (List Pt))) (zero : List (List Pt)) (iZero : ℕ) (l : List (ℕ × List Pt))
    (s s' : MaskState) : Prop where
  le : s.iMargin ≤ s'.iMargin
  bound : s'.iMargin ≤ paths.length
  upper : ∀ K (h : K < paths.length), s.iMargin ≤ K → (∀ iw ∈ l, isHittingF R iw.2 paths[K] = .ok false) → s'.iMargin ≤ K
  lower : ∀ iw ∈ l, ∀ K ≤ paths.length, (∀ j (h : j < paths.length), j < K → isHittingF R iw.2 paths[j] = .ok true) → K ≤ s'.iMargin
  new : ∃ o : List (ℕ × List Pt), o.Sublist l ∧ s'.offenders = s.offenders ++ o.map Prod.fst ∧
    (∀ iw ∈ o, isHittingF R iw.2 zero = .ok true) ∧
    (∀ iw ∈ l, (∀ j (h : j < paths.length), j < iZero → isHittingF R iw.2 paths[j] = .ok true) → isHittingF R iw.2 zero = .ok true → iw ∈ o) ∧
    ∃ hs : List (List Pt), o.mapM (fun iw => hitsF R iw.2 zero) = .ok hs ∧ s'.hits = s.hits ++ hs.flatten

theorem foldF_spec (R : Rounding) (paths : List (List (List Pt))) (zero : List (List Pt)) (iZero : ℕ) (hz : iZero < paths.length)
    (hz' : paths[iZero] = zero) (hp : ∀ p ∈ paths, ∀ q ∈ p, q ≠ []) (l : List (ℕ × List Pt)) :
    ∀ s : MaskState, s.iMargin ≤ paths.length → ∃ s', l.foldlM (maskStepF R paths zero iZero) s = .ok s' ∧ Found R paths zero iZero l s s' := by
  induction l with
  | nil =>
    intro s hs
    exact ⟨s, rfl, le_rfl, hs, fun K _ h _ => h, by simp, [], by simp, by simp, by simp, by simp, [], rfl, by simp⟩
  | cons iw l ih =>
    intro s hs
    obtain ⟨m, e1, e2, e3, e4⟩ := advanceF_spec R iw.2 (paths.drop s.iMargin) (fun p h => hp p (List.mem_of_mem_drop h)) s.iMargin
    rw [List.length_drop] at e2
    obtain ⟨h, eh, eh'⟩ := C80_is_hitting R iw.2 zero (by rw [← hz']; exact hp _ (List.getElem_mem _))
    -- the symbol's own contribution
    have hstep : ∃ s1, maskStepF R paths zero iZero s iw = .ok s1 ∧ s1.iMargin = s.iMargin + m ∧
        ∃ o : List (ℕ × List Pt), (o = [] ∨ o = [iw]) ∧ s1.offenders = s.offenders ++ o.map Prod.fst ∧
          (o = [iw] ↔ (iZero ≤ s.iMargin + m ∧ h ≠ [])) ∧
          s1.hits = s.hits ++ (if o = [iw] then h else []) := by
      unfold maskStepF
      rw [e1]
      simp only [bind, Except.bind, pure, Except.pure]
      by_cases hlt : s.iMargin + m < iZero
      · rw [if_pos hlt]
        refine ⟨_, rfl, rfl, [], .inl rfl, by simp, ?_, by simp⟩
        constructor
        · intro h; simp at h
        · intro h; omega
      · rw [if_neg hlt, eh]
        simp only
        by_cases hh : h = []
        · rw [if_pos hh]
          refine ⟨_, rfl, rfl, [], .inl rfl, by simp, ?_, by simp⟩
          constructor
          · intro h; simp at h
          · intro h; exact absurd hh h.2
        · rw [if_neg hh]
          refine ⟨_, rfl, rfl, [iw], .inr rfl, by simp, ?_, by simp⟩
          simp only [true_iff]
          exact ⟨by omega, hh⟩
    obtain ⟨s1, es, em, o1, ho1, hoff, hiff, hhits⟩ := hstep
    obtain ⟨s', e', F⟩ := ih s1 (by omega)
    refine ⟨s', ?_, ?_⟩
    · rw [List.foldlM_cons, es]
      exact e'
    · obtain ⟨o, sub, off, ohit, oall, hs2, em2, hits2⟩ := F.new
      have hcase : o1 = [iw] → isHittingF R iw.2 zero = .ok true := by
        intro h1
        rw [eh']
        simp [(hiff.1 h1).2]
      refine ⟨by have := F.le; omega, F.bound, ?_, ?_, o1 ++ o, ?_, ?_, ?_, ?_, ?_⟩
      · intro K hK hKs hall
        apply F.upper K hK
        · rw [em]
          by_contra hc
          push Not at hc
          have hd : K - s.iMargin < (paths.drop s.iMargin).length := by rw [List.length_drop]; omega
          have := e3 (K - s.iMargin) hd (by omega)
          rw [List.getElem_drop] at this
          have e0 : s.iMargin + (K - s.iMargin) = K := by omega
          simp only [e0] at this
          rw [hall iw (by simp)] at this
          cases this
        · exact fun iw' h => hall iw' (List.mem_cons_of_mem _ h)
      · intro iw' hiw K hK hall
        rcases List.mem_cons.1 hiw with rfl | hiw
        · refine le_trans ?_ F.le
          rw [em]
          by_contra hc
          push Not at hc
          have hd : m < (paths.drop s.iMargin).length := by rw [List.length_drop]; omega
          have := e4 hd
          rw [List.getElem_drop, hall (s.iMargin + m) (by omega) hc] at this
          cases this
        · exact F.lower iw' hiw K hK hall
      · rcases ho1 with rfl | rfl
        · exact sub.cons _
        · exact sub.cons_cons _
      · rw [off, hoff]; simp
      · intro iw' hiw
        rcases List.mem_append.1 hiw with h1 | h1
        · rcases ho1 with rfl | rfl
          · simp at h1
          · rw [List.mem_singleton] at h1
            subst h1
            exact hcase rfl
        · exact ohit iw' h1
      · intro iw' hiw hall hzero
        rcases List.mem_cons.1 hiw with rfl | hiw
        · have : o1 = [iw'] := by
            rw [hiff]
            constructor
            · by_contra hc
              push Not at hc
              have hd : m < (paths.drop s.iMargin).length := by rw [List.length_drop]; omega
              have := e4 hd
              rw [List.getElem_drop, hall (s.iMargin + m) (by omega) hc] at this
              cases this
            · rw [eh'] at hzero
              simpa using hzero
          rw [this]; simp
        · exact List.mem_append_right _ (oall iw' hiw hall hzero)
      · rcases ho1 with rfl | rfl
        · refine ⟨hs2, by simpa using em2, ?_⟩
          rw [hits2, hhits]; simp
        · refine ⟨h :: hs2, ?_, ?_⟩
          · rw [List.singleton_append, List.mapM_cons, eh, em2]; rfl
          · rw [hits2, hhits]; simp

theorem getLast?_eq (ms : List ℚ) (h : ms ≠ []) : marginAt ms (ms.length - 1) = .ok (ms.getLast h) := by
  cases ms with
  | nil => exact absurd rfl h
  | cons a l =>
    unfold marginAt pyGet
    simp only [List.length_cons, Nat.add_sub_cancel, min_self]
    rw [List.getElem?_eq_getElem (by simp), List.getLast_eq_getElem]
    rfl

/-- **C82 (mask).** `sample_mask` in floats, for margins `ms` in decreasing order and paths `P f` for margin `f`, with symbols that are
found up to the rounding errors: the margin is below every margin for which a symbol goes through the mask and through all larger
ones, and not below a margin whose mask all symbols stay clear of; a symbol that goes through the mask and all larger ones is reported as
an offender, one that stays clear is not; the reported hits are those of the offenders. -/
theorem C82_mask (F : Floats) (y : List ℚ) (cs : List Center) (δ T yZero yUa : ℚ) (hT : 0 < T) (hδ : 0 < δ)
    (hcs : ∀ c ∈ cs, InsideF F.toRounding T δ y.length c) (hu : 8 * iWidthF F.toRounding T δ * F.u ≤ 1)
    (P : ℚ → List (List Pt)) (ms : List ℚ) (hms : ms.Pairwise (· > ·)) (zero : ℚ)
    (hzero : ms[ms.length / 2]? = some zero) (hP : ∀ f ∈ ms, ∀ q ∈ P f, q ≠ []) :
    ∃ out, sampleMaskF F.toRounding y cs δ T yZero yUa (ms.map P) ms = .ok out ∧ out.margin ∈ ms ∧
      (∀ c ∈ cs, ∀ f ∈ ms, (∀ g ∈ ms, f ≤ g → Through F.u (windowF F.toRounding (normaliseF F.toRounding y yZero yUa) T δ c) (P g)) →
        out.margin < f ∨ ms.getLast? = some f) ∧
      (∀ f ∈ ms, (∀ c ∈ cs, Clear F.u (windowF F.toRounding (normaliseF F.toRounding y yZero yUa) T δ c) (P f)) → f ≤ out.margin) ∧
      (out.offenders.Sublist (List.range cs.length)) ∧
      (∀ i (h : i < cs.length),
        (∀ g ∈ ms, zero ≤ g → Through F.u (windowF F.toRounding (normaliseF F.toRounding y yZero yUa) T δ cs[i]) (P g)) → i ∈ out.offenders) ∧
      (∀ i (h : i < cs.length), Clear F.u (windowF F.toRounding (normaliseF F.toRounding y yZero yUa) T δ cs[i]) (P zero) → i ∉ out.offenders) ∧
      (∃ hs : List (List Pt), out.hits = hs.flatten ∧ List.Forall₂ (fun i h => ∃ c, cs[i]? = some c ∧ h ≠ [] ∧
        hitsF F.toRounding (windowF F.toRounding (normaliseF F.toRounding y yZero yUa) T δ c) (P zero) = .ok h) out.offenders hs) := by
  set W := fun c => windowF F.toRounding (normaliseF F.toRounding y yZero yUa) T δ c with hW
  have hmono : ∀ c ∈ cs, NonDecreasing (W c) := fun c hc =>
    windowF_mono F _ T δ hT hδ c (by simpa [normaliseF] using hcs c hc) hu
  have hthrough : ∀ c ∈ cs, ∀ f ∈ ms, Through F.u (W c) (P f) → isHittingF F.toRounding (W c) (P f) = .ok true := by
    rintro c hc f hf ⟨path, hp, a, ha, e, he, hn, hx⟩
    exact C80_hits_found F.toRounding (W c) (P f) (hmono c hc) (hP f hf) path hp a e ha he hn hx
  have hclear : ∀ c ∈ cs, ∀ f ∈ ms, Clear F.u (W c) (P f) → isHittingF F.toRounding (W c) (P f) = .ok false := by
    intro c hc f hf h
    exact (C80_clear F.toRounding (W c) (P f) (hP f hf) h).1
  have hz : ms.length / 2 < ms.length := by
    by_contra hc
    rw [List.getElem?_eq_none (by omega)] at hzero
    cases hzero
  have hzm : zero = ms[ms.length / 2] := by
    rw [List.getElem?_eq_getElem hz] at hzero
    exact (Option.some.inj hzero).symm
  have hne : ms ≠ [] := by rintro rfl; simp at hz
  set ws := cs.map W
  have hpz : (ms.map P).getD (ms.length / 2) [] = P zero := by
    rw [List.getD_eq_getElem?_getD, List.getElem?_map, hzero]; rfl
  obtain ⟨s', es, Fd⟩ := foldF_spec F.toRounding (ms.map P) (P zero) (ms.length / 2) (by simpa using hz) (by simp [hzm])
    (by
      intro p hp
      obtain ⟨f, hf, rfl⟩ := List.mem_map.1 hp
      exact hP f hf) ((List.range ws.length).zip ws) ⟨0, [], []⟩ (by simp)
  have hmem : ∀ i (h : i < cs.length), (i, W cs[i]) ∈ (List.range ws.length).zip ws := by
    intro i h
    have hl : i < ((List.range ws.length).zip ws).length := by simpa [ws] using h
    have := List.getElem_mem hl
    simpa [ws] using this
  have hmem' : ∀ iw ∈ (List.range ws.length).zip ws, ∃ h : iw.1 < cs.length, iw.2 = W cs[iw.1] := by
    intro iw hiw
    obtain ⟨i, hi, rfl⟩ := List.mem_iff_getElem.1 hiw
    have hl : i < cs.length := by simpa [ws] using hi
    exact ⟨by simpa using hl, by simp [ws]⟩
  -- the margin
  have hmar : ∃ x, marginAt ms s'.iMargin = .ok x ∧ ∃ h : min (ms.length - 1) s'.iMargin < ms.length, x = ms[min (ms.length - 1) s'.iMargin] := by
    have h : min (ms.length - 1) s'.iMargin < ms.length := by omega
    refine ⟨ms[min (ms.length - 1) s'.iMargin], ?_, h, rfl⟩
    unfold marginAt pyGet
    cases ms with
    | nil => exact absurd rfl hne
    | cons a l =>
      simp only
      rw [List.getElem?_eq_getElem h]
  obtain ⟨x, ex, hx, rfl⟩ := hmar
  have hanti : ∀ i j (hi : i < ms.length) (hj : j < ms.length), i < j → ms[j] < ms[i] := by
    intro i j hi hj hij
    exact List.pairwise_iff_getElem.1 hms i j hi hj hij
  obtain ⟨o, osub, ooff, ohit, oall, hs, ehs, ehits⟩ := Fd.new
  simp only [List.nil_append] at ooff ehits
  have hlenp : (ms.map P).length = ms.length := List.length_map _
  refine ⟨⟨s'.offenders, s'.hits, ms[min (ms.length - 1) s'.iMargin]⟩, ?_, List.getElem_mem _, ?_, ?_, ?_, ?_, ?_, ?_⟩
  · unfold sampleMaskF
    simp only
    rw [hpz, es]
    simp only [bind, Except.bind, pure, Except.pure]
    rw [ex]
  · intro c hc f hf hall
    obtain ⟨i, hi, rfl⟩ := List.mem_iff_getElem.1 hc
    obtain ⟨k, hk, rfl⟩ := List.mem_iff_getElem.1 hf
    have hlow := Fd.lower _ (hmem i hi) (k + 1) (by rw [hlenp]; omega) (by
      intro j hj hjk
      rw [List.getElem_map]
      apply hthrough _ (List.getElem_mem _) _ (List.getElem_mem _)
      apply hall _ (List.getElem_mem _)
      rcases Nat.lt_or_ge j k with h | h
      · exact (hanti j k (by omega) hk h).le
      · have : j = k := by omega
        subst this; exact le_rfl)
    by_cases hl : k = ms.length - 1
    · right
      rw [List.getLast?_eq_some_getLast hne, List.getLast_eq_getElem]
      simp [hl]
    · left
      exact hanti k _ hk hx (by omega)
  · intro f hf hall
    obtain ⟨k, hk, rfl⟩ := List.mem_iff_getElem.1 hf
    have hup := Fd.upper k (by rw [hlenp]; exact hk) (Nat.zero_le _) (by
      intro iw hiw
      obtain ⟨h, e⟩ := hmem' iw hiw
      rw [e, List.getElem_map]
      exact hclear _ (List.getElem_mem _) _ (List.getElem_mem _) (hall _ (List.getElem_mem _)))
    rcases Nat.lt_or_ge (min (ms.length - 1) s'.iMargin) k with h | h
    · exact (hanti _ k hx hk h).le
    · have : k = min (ms.length - 1) s'.iMargin := by omega
      simp only [← this]; exact le_rfl
  · show s'.offenders.Sublist _
    rw [ooff]
    have := osub.map Prod.fst
    rwa [List.map_fst_zip (by simp), show ws.length = cs.length by simp [ws]] at this
  · intro i hi hall
    show i ∈ s'.offenders
    rw [ooff]
    refine List.mem_map.2 ⟨_, oall _ (hmem i hi) ?_ ?_, rfl⟩
    · intro j hj hjk
      rw [List.getElem_map]
      have hj' : j < ms.length := by simpa using hj
      apply hthrough _ (List.getElem_mem _) _ (List.getElem_mem _)
      apply hall _ (List.getElem_mem _)
      rw [hzm]
      exact (hanti j _ hj' hz hjk).le
    · have hm : zero ∈ ms := by rw [hzm]; exact List.getElem_mem _
      exact hthrough _ (List.getElem_mem _) _ hm (hall _ hm le_rfl)
  · intro i hi hc hin
    change i ∈ s'.offenders at hin
    rw [ooff] at hin
    obtain ⟨iw, hiw, rfl⟩ := List.mem_map.1 hin
    obtain ⟨h, e⟩ := hmem' iw (osub.subset hiw)
    have := ohit iw hiw
    rw [e, hclear _ (List.getElem_mem _) zero (by rw [hzm]; exact List.getElem_mem _) hc] at this
    cases this
  · refine ⟨hs, ehits, ?_⟩
    show List.Forall₂ _ s'.offenders hs
    rw [ooff, List.forall₂_map_left_iff]
    have hsub : ∀ iw ∈ o, iw ∈ (List.range ws.length).zip ws := fun iw h => osub.subset h
    clear ooff osub oall ehits
    induction o generalizing hs with
    | nil =>
      rw [List.mapM_nil] at ehs
      cases ehs
      exact .nil
    | cons iw o ih =>
      rw [List.mapM_cons] at ehs
      simp only [bind, Except.bind, pure, Except.pure] at ehs
      cases h1 : hitsF F.toRounding iw.2 (P zero) with
      | error e => rw [h1] at ehs; cases ehs
      | ok h =>
        rw [h1] at ehs
        simp only at ehs
        cases h2 : List.mapM (fun iw => hitsF F.toRounding iw.2 (P zero)) o with
        | error e => rw [h2] at ehs; cases ehs
        | ok hs' =>
          rw [h2] at ehs
          cases ehs
          refine .cons ?_ (ih (fun iw' h' => ohit iw' (List.mem_cons_of_mem _ h')) hs' h2 (fun iw' h' => hsub iw' (List.mem_cons_of_mem _ h')))
          obtain ⟨hl, e⟩ := hmem' iw (hsub iw (by simp))
          refine ⟨cs[iw.1], List.getElem?_eq_getElem hl, ?_, by rw [← h1, e]⟩
          have := ohit iw (by simp)
          obtain ⟨h', e1, e2⟩ := C80_is_hitting F.toRounding iw.2 (P zero) (hP zero (by rw [hzm]; exact List.getElem_mem _))
          rw [h1] at e1
          cases e1
          rw [this] at e2
          simpa using e2

/-! ### Exact arithmetic and doubles -/

/-- **C82 (no rounding).** With exact arithmetic these are the functions of the other properties. -/
theorem C82_exact (T δ : ℚ) (hδ : 0 < δ) :
    (∀ tZero n edges, sampleEdgesF exact T δ tZero n edges = sampleEdges T δ tZero n edges) ∧
    (∀ ys c, windowF exact ys T δ c = window ys T δ c) ∧
    (∀ y cs y0 ua paths ms, sampleMaskF exact y cs δ T y0 ua paths ms = sampleMask y cs δ T y0 ua paths ms) ∧
    (∀ y minY maxY res c, pixelsF exact y δ T minY maxY res c = pixels y δ T minY maxY res c) := by
  have hw : iWidthF exact T δ = iWidth T δ := rfl
  have hm : ∀ b, pyModF exact b δ = pyMod b δ := by
    intro b
    have := (pyModF_near exact b δ hδ).1
    have h0 : exact.u = 0 := rfl
    rw [h0, zero_mul] at this
    exact sub_eq_zero.1 (abs_eq_zero.1 (le_antisymm this (abs_nonneg _)))
  have hg : gridTF exact T δ = gridT T δ := by
    unfold gridTF gridT
    rw [linspaceF_exact]
    rfl
  have hwin : ∀ ys c, windowF exact ys T δ c = window ys T δ c := by
    intro ys c
    unfold windowF window
    rw [hg, hw]
    rfl
  have hadv : ∀ w l k, advanceF exact w l k = advance w l k := by
    intro w l
    induction l with
    | nil => intro k; rfl
    | cons p l ih =>
      intro k
      unfold advanceF advance
      rw [C80_exact.2.2.2, ih]
  refine ⟨?_, hwin, ?_, ?_⟩
  · intro tZero n edges
    unfold sampleEdgesF sampleEdges
    congr 1
    funext b
    unfold sampleEdgeF sampleEdge centerIF
    rw [hm, hw]
    rfl
  · intro y cs y0 ua paths ms
    have hstep : ∀ z k, maskStepF exact paths z k = maskStep paths z k := by
      intro z k
      funext s iw
      unfold maskStepF maskStep
      rw [hadv, C80_exact.2.2.1]
    unfold sampleMaskF sampleMask
    have e : normaliseF exact y y0 ua = normalise y y0 ua := rfl
    rw [e, show windowF exact (normalise y y0 ua) T δ = window (normalise y y0 ua) T δ from funext (hwin _)]
    simp only [hstep]
  · intro y minY maxY res c
    unfold pixelsF pixels
    rw [hwin]
    rfl

instance (k u : ℚ) (p q r s : Pt) : Decidable (CrossBy k u p q r s) :=
  decidable_of_iff ((k * u * size (sub p r) (sub r s) ≤ -(1:ℚ) * area r s p ∧
    k * u * (size (sub p r) (sub r s) + size (sub p q) (sub r s)) ≤ (1:ℚ) * area r s q ∧
    k * u * size (sub p r) (sub p q) ≤ (1:ℚ) * area p q r ∧
    k * u * (size (sub p r) (sub p q) + size (sub p q) (sub r s)) ≤ -(1:ℚ) * area p q s) ∨
    (k * u * size (sub p r) (sub r s) ≤ -(-1:ℚ) * area r s p ∧
    k * u * (size (sub p r) (sub r s) + size (sub p q) (sub r s)) ≤ (-1:ℚ) * area r s q ∧
    k * u * size (sub p r) (sub p q) ≤ (-1:ℚ) * area p q r ∧
    k * u * (size (sub p r) (sub p q) + size (sub p q) (sub r s)) ≤ -(-1:ℚ) * area p q s)) (by
      unfold CrossBy
      constructor
      · rintro (h | h)
        · exact ⟨1, .inl rfl, h⟩
        · exact ⟨-1, .inr rfl, h⟩
      · rintro ⟨σ, rfl | rfl, h⟩
        · exact .inl h
        · exact .inr h)

instance (p q r s : Pt) : Decidable (Parallel p q r s) := by unfold Parallel; infer_instance

instance (u : ℚ) (w : List Pt) (paths : List (List Pt)) : Decidable (Through u w paths) := by unfold Through; infer_instance

instance (u : ℚ) (w : List Pt) (paths : List (List Pt)) : Decidable (Clear u w paths) := by unfold Clear; infer_instance

/-- A waveform with a peak of 1.6 between zeros. -/
def exY : List ℚ := [0, 0, 0, 0, 0, 0, 0, 0, nearest (8 / 5), 0, 0, 0, 0, 0, 0, 0, 0, 0]

/-- Lines at 3/4, 1/2 and 1/4 for the margins 1, 0 and -1. -/
def exP (f : ℚ) : List (List Pt) := [[(1 / 4, 1 / 2 + f / 4), (3 / 4, 1 / 2 + f / 4)]]

/-- The hypotheses of the C82 theorems are met by doubles: a start 0.1 off the grid, an edge at 9.35, another one that does not fit. -/
example : sampleEdgesF double 4 1 (nearest (1 / 10)) 18 [nearest (187 / 20), 17] = [⟨9, 9 - nearest (187 / 20)⟩] ∧
    |nearest (1 / 10) - (0 : ℤ) * 1| < 1 / 2 - 6 * double.u * reach 1 (nearest (1 / 10)) (nearest (187 / 20)) ∧
    |(4 : ℚ) / 1 - (4 : ℤ)| < 1 / 2 - 3 * double.u * (4 / 1 + 1) ∧
    8 * iWidthF double 4 1 * double.u ≤ 1 ∧
    InsideF double 4 1 18 ⟨9, 9 - nearest (187 / 20)⟩ ∧
    (∀ f ∈ [(1 : ℚ), 0, -1], Through double.u (windowF double (normaliseF double exY 0 1) 4 1 ⟨9, 9 - nearest (187 / 20)⟩) (exP f)) ∧
    Clear double.u (windowF double (normaliseF double (List.replicate 18 0) 0 1) 4 1 ⟨9, 9 - nearest (187 / 20)⟩) (exP 0) ∧
    ((sampleMaskF double exY [⟨9, 9 - nearest (187 / 20)⟩] 1 4 0 1 ([1, 0, -1].map exP) [1, 0, -1]).map fun o => (o.offenders, o.margin)) =
      .ok ([0], -1) := by
  unfold InsideF
  decide +kernel

/-- The hypotheses of `C82_pixels` are met by doubles. -/
example : Inside 4 1 exY.length ⟨9, -1 / 4⟩ ∧ iWidthF double 4 1 = iWidth 4 1 ∧ 14 * double.u * (1 + iWidth 4 1 * 1 / 4) * (2000 : ℕ) < 1 ∧
    (∀ v ∈ exY, 5 * double.u * |(v - -1 / 2) / (3 / 2 - -1 / 2)| * (2000 : ℕ) < 1) := by
  unfold Inside
  decide +kernel

end Verif.Props.FloatEye
