import Verif.Model.FloatFormat
import Verif.Props.Strformat
import Verif.Props.FloatStats

/-!
C104: number and time formatting in doubles.
-/

namespace Verif.Props.FloatFormat

open Verif Verif.Strformat Verif.Float Verif.Equip Verif.Props.Strformat Verif.Props.Float Verif.Props.FloatStats

/-! ### Metric prefixes -/

theorem findPrefixF_some {R : Rounding} {v t : ℚ} {l : List (String × ℚ)} {p : String × ℚ} (h : findPrefixF R v t l = some p) :
    ∃ a b, l = a ++ p :: b ∧ R.fl (t * p.2) ≤ |v| ∧ ∀ q ∈ a, |v| < R.fl (t * q.2) := by
  induction l with
  | nil => simp [findPrefixF] at h
  | cons q l ih =>
    obtain ⟨s, f⟩ := q
    unfold findPrefixF at h
    split_ifs at h with hq
    · obtain rfl := Option.some.inj h
      exact ⟨[], l, rfl, hq, by simp⟩
    · obtain ⟨a, b, rfl, h1, h2⟩ := ih h
      refine ⟨(s, f) :: a, b, rfl, h1, ?_⟩
      intro q hq'
      rcases List.mem_cons.1 hq' with rfl | hq'
      · exact not_le.1 hq
      · exact h2 q hq'

theorem findPrefixF_none {R : Rounding} {v t : ℚ} {l : List (String × ℚ)} (h : findPrefixF R v t l = none) :
    ∀ q ∈ l, |v| < R.fl (t * q.2) := by
  induction l with
  | nil => simp
  | cons q l ih =>
    obtain ⟨s, f⟩ := q
    unfold findPrefixF at h
    split_ifs at h with hq
    intro q hq'
    rcases List.mem_cons.1 hq' with rfl | hq'
    · exact not_le.1 hq
    · exact ih h q hq'

/-- A magnitude of the default table that comes after another one is smaller. -/
theorem default_sorted : defaultPrefixes.Pairwise fun p q => q.2 < p.2 := by decide +kernel

theorem default_pos : ∀ p ∈ defaultPrefixes, 0 < p.2 := by decide +kernel

theorem near_quotient (R : Rounding) (v : ℚ) {f : ℚ} (hf : 0 < f) :
    |R.fl (v / R.fl f) * f - v| ≤ 3 * R.u * |v| := by
  obtain ⟨a, ha, ea⟩ := rel R f
  obtain ⟨b, hb, eb⟩ := rel R (v / R.fl f)
  have hu := R.u_nonneg
  have hs := R.u_small
  have a1 := abs_le.1 ha
  have b1 := abs_le.1 hb
  have h1 : 0 < 1 + a := by linarith [a1.1]
  have e : R.fl (v / R.fl f) * f - v = v * ((b - a) / (1 + a)) := by
    rw [eb, ea]; field_simp; ring
  rw [e, abs_mul, mul_comm]
  refine mul_le_mul_of_nonneg_right ?_ (abs_nonneg v)
  rw [abs_div, abs_of_pos h1, div_le_iff₀ h1]
  have h2 : |b - a| ≤ 2 * R.u := by rw [abs_le]; constructor <;> linarith
  nlinarith

theorem near_product (R : Rounding) {t f : ℚ} (ht : 0 < t) (hf : 0 < f) :
    R.fl (t * R.fl f) ≤ t * f * (1 + 3 * R.u) ∧ t * f ≤ R.fl (t * R.fl f) * (1 + 3 * R.u) := by
  obtain ⟨a, ha, ea⟩ := rel R f
  obtain ⟨b, hb, eb⟩ := rel R (t * R.fl f)
  have hu := R.u_nonneg
  have hs := R.u_small
  have a1 := abs_le.1 ha
  have b1 := abs_le.1 hb
  have htf := mul_pos ht hf
  have e : R.fl (t * R.fl f) = t * f * ((1 + a) * (1 + b)) := by rw [eb, ea]; ring
  rw [e]
  have h1 : (1 + a) * (1 + b) ≤ 1 + 3 * R.u := by nlinarith
  have h2 : 1 ≤ (1 + a) * (1 + b) * (1 + 3 * R.u) := by
    have h3 : (1 - R.u) * (1 - R.u) ≤ (1 + a) * (1 + b) := by
      apply mul_le_mul <;> linarith
    have h4 : 1 ≤ (1 - R.u) * (1 - R.u) * (1 + 3 * R.u) := by nlinarith
    have h5 := mul_le_mul_of_nonneg_right h3 (by linarith : (0 : ℚ) ≤ 1 + 3 * R.u)
    linarith
  constructor
  · exact mul_le_mul_of_nonneg_left h1 htf.le
  · have := mul_le_mul_of_nonneg_left h2 htf.le
    linarith

/-- **C104.** With the default table in rounded arithmetic, the number printed times the magnitude of the prefix is the value up to three
roundings, zero and the sign included.  The value reaches the threshold of the prefix and stays below the threshold of every larger one, up to
three roundings; if no prefix is reached it is printed with the smallest one and the small specifier. -/
theorem C104_prefix (R : Rounding) (v t : ℚ) (ht : 0 < t) (unit : String) (sp sm : Spec) :
    ∃ (x : ℚ) (p : String) (f : ℚ), (p, f) ∈ defaultPrefixes ∧ |x * f - v| ≤ 3 * R.u * |v| ∧
      ((metricPrefixF R (.fin v) unit sp sm t none = .ok (sp.fmt (.fin x) ++ " " ++ p ++ unit) ∧ t * f ≤ |v| * (1 + 3 * R.u) ∧
          ∀ q ∈ defaultPrefixes, f < q.2 → |v| < t * q.2 * (1 + 3 * R.u)) ∨
       (metricPrefixF R (.fin v) unit sp sm t none = .ok (sm.fmt (.fin x) ++ " " ++ p ++ unit) ∧ p = "p" ∧
          ∀ q ∈ defaultPrefixes, |v| < t * q.2 * (1 + 3 * R.u))) := by
  have hu := R.u_nonneg
  unfold metricPrefixF
  simp only [Option.getD_none]
  cases hfp : findPrefixF R v t (defaultPrefixesF R) with
  | some pf =>
    obtain ⟨a, b, hab, h1, h2⟩ := findPrefixF_some hfp
    unfold defaultPrefixesF at hab
    obtain ⟨a', c', hd, ha', hc'⟩ := List.map_eq_append_iff.1 hab
    obtain ⟨⟨p, f⟩, b', rfl, hpf, -⟩ := List.map_eq_cons_iff.1 hc'
    subst hpf
    have hmem : (p, f) ∈ defaultPrefixes := by rw [hd]; simp
    have hf : 0 < f := default_pos _ hmem
    have hf' : R.fl f ≠ 0 := ((fl_pos R).2 hf).ne'
    refine ⟨R.fl (v / R.fl f), p, f, hmem, near_quotient R v hf, Or.inl ⟨?_, ?_, ?_⟩⟩
    · simp only [pyDivF, if_neg hf']; rfl
    · have := (near_product R ht hf).2
      have h3 := mul_le_mul_of_nonneg_right h1 (by linarith : (0 : ℚ) ≤ 1 + 3 * R.u)
      exact this.trans h3
    · intro q hq hlt
      have hq' : q ∈ a' := by
        have hs := default_sorted
        rw [hd] at hq hs
        rcases List.mem_append.1 hq with h | h
        · exact h
        · exfalso
          have hs' := (List.pairwise_append.1 hs).2.1
          rcases List.mem_cons.1 h with rfl | h
          · exact lt_irrefl _ hlt
          · have : q.2 < f := (List.pairwise_cons.1 hs').1 q h
            exact lt_asymm this hlt
      have := h2 (q.1, R.fl q.2) (by rw [← ha']; exact List.mem_map.2 ⟨q, hq', rfl⟩)
      exact this.trans_le (near_product R ht (default_pos q hq)).1
  | none =>
    have hall := findPrefixF_none hfp
    have hlast : (defaultPrefixesF R).getLast? = some ("p", R.fl (1 / 1000000000000)) := by
      simp [defaultPrefixesF, defaultPrefixes]
    have hf' : R.fl (1 / 1000000000000) ≠ 0 := ((fl_pos R).2 (by norm_num)).ne'
    refine ⟨R.fl (v / R.fl (1 / 1000000000000)), "p", 1 / 1000000000000, by simp [defaultPrefixes], near_quotient R v (by norm_num),
      Or.inr ⟨?_, rfl, ?_⟩⟩
    · simp only [hlast, pyDivF, if_neg hf']; rfl
    · intro q hq
      have := hall (q.1, R.fl q.2) (List.mem_map.2 ⟨q, hq, rfl⟩)
      exact this.trans_le (near_product R ht (default_pos q hq)).1

theorem nearest_two_mul (x : ℚ) : nearest (2 * nearest x) = 2 * nearest x := by
  rcases lt_trichotomy x 0 with hx | hx | hx
  · have h := rounded_bounds (x := -x) (by linarith)
    have e : 2 * nearest (-x) = roundEven (-x * 2 ^ (52 - Int.log 2 |(-x)|)) * 2 ^ (Int.log 2 |(-x)| - 52 + 1) := by
      rw [nearest_eq, zpow_add_one₀ (by norm_num)]; ring
    have h2 : nearest (2 * nearest (-x)) = 2 * nearest (-x) := by
      rw [e, nearest_rep]
      rw [abs_le]
      have : (0:ℤ) < 2 ^ 52 := by norm_num
      exact ⟨by linarith [h.1], h.2⟩
    rw [nearest_neg, show 2 * -nearest x = -(2 * nearest x) by ring, nearest_neg] at h2
    linarith
  · subst hx; simp [nearest, roundEven]
  · have h := rounded_bounds hx
    have e : 2 * nearest x = roundEven (x * 2 ^ (52 - Int.log 2 |x|)) * 2 ^ (Int.log 2 |x| - 52 + 1) := by
      rw [nearest_eq, zpow_add_one₀ (by norm_num)]; ring
    rw [e, nearest_rep]
    rw [abs_le]
    have : (0:ℤ) < 2 ^ 52 := by norm_num
    exact ⟨by linarith [h.1], h.2⟩

/-- **C104.** In doubles with the default table and the default threshold of two, a value from 2e-12 on up to 2e15 is printed by the normal
specifier as a number from 2 (never a rounding less) to 2000. -/
theorem C104_range (v : ℚ) (unit : String) (sp sm : Spec) (hlo : 2 * nearest (1 / 1000000000000) ≤ |v|) (hhi : |v| < 2000000000000000) :
    ∃ (x : ℚ) (p : String) (f : ℚ), (p, f) ∈ defaultPrefixes ∧ |x * f - v| ≤ 3 / 2 ^ 53 * |v| ∧
      metricPrefixF double (.fin v) unit sp sm 2 none = .ok (sp.fmt (.fin x) ++ " " ++ p ++ unit) ∧
      2 ≤ |x| ∧ |x| ≤ 2000 * (1 + 7 / 2 ^ 53) := by
  unfold metricPrefixF
  simp only [Option.getD_none]
  cases hfp : findPrefixF double v 2 (defaultPrefixesF double) with
  | some pf =>
    obtain ⟨a, b, hab, h1, h2⟩ := findPrefixF_some hfp
    unfold defaultPrefixesF at hab
    obtain ⟨a', c', hd, ha', hc'⟩ := List.map_eq_append_iff.1 hab
    obtain ⟨⟨p, f⟩, b', rfl, hpf, -⟩ := List.map_eq_cons_iff.1 hc'
    subst hpf
    have hmem : (p, f) ∈ defaultPrefixes := by rw [hd]; simp
    have hf : 0 < f := default_pos _ hmem
    have hff : 0 < nearest f := (fl_pos double).2 hf
    have hf' : double.fl f ≠ 0 := hff.ne'
    have hx := near_quotient double v hf
    have hu : double.u = 1 / 2 ^ 53 := rfl
    refine ⟨nearest (v / nearest f), p, f, hmem, ?_, ?_, ?_, ?_⟩
    · rw [hu] at hx
      refine hx.trans (le_of_eq ?_)
      ring
    · simp only [pyDivF, if_neg hf']; rfl
    · have h3 : 2 * nearest f ≤ |v| := by rw [← nearest_two_mul]; exact h1
      have h4 : 2 ≤ |v / nearest f| := by rw [abs_div, abs_of_pos hff, le_div_iff₀ hff]; exact h3
      have h5 := nearest_mono h4
      have e2 : nearest 2 = 2 := by decide +kernel
      rw [e2] at h5
      rcases abs_cases (v / nearest f) with ⟨e, -⟩ | ⟨e, -⟩
      · rw [e] at h5; exact h5.trans (le_abs_self _)
      · rw [e, nearest_neg] at h5; exact h5.trans (neg_le_abs _)
    · have hbig : |v| ≤ 2000 * f * (1 + 3 / 2 ^ 53) := by
        by_cases hT : f = 1000000000000
        · rw [hT]; refine hhi.le.trans ?_; norm_num
        · have key : ∀ q ∈ defaultPrefixes, q.2 ≠ 1000000000000 → ∃ r ∈ defaultPrefixes, r.2 = 1000 * q.2 := by decide +kernel
          obtain ⟨r, hr, er⟩ := key _ hmem hT
          have hr' : r ∈ a' := by
            have hs := default_sorted
            rw [hd] at hr hs
            rcases List.mem_append.1 hr with h | h
            · exact h
            · exfalso
              have hs' := (List.pairwise_append.1 hs).2.1
              change r.2 = 1000 * f at er
              rcases List.mem_cons.1 h with rfl | h
              · change f = 1000 * f at er; linarith
              · have : r.2 < f := (List.pairwise_cons.1 hs').1 r h
                linarith
          have h3 := h2 (r.1, double.fl r.2) (by rw [← ha']; exact List.mem_map.2 ⟨r, hr', rfl⟩)
          have h4 := (near_product double (by norm_num : (0 : ℚ) < 2) (default_pos r hr)).1
          change r.2 = 1000 * f at er
          have h5 : 2 * r.2 * (1 + 3 * double.u) = 2000 * f * (1 + 3 / 2 ^ 53) := by rw [er, hu]; ring
          rw [← h5]
          exact (h3.trans_le h4).le
      rw [hu] at hx
      have h6 : |nearest (v / nearest f)| * f ≤ |v| * (1 + 3 / 2 ^ 53) := by
        have h7 := abs_sub_abs_le_abs_sub (nearest (v / nearest f) * f) v
        rw [abs_mul, abs_of_pos hf] at h7
        have h8 : |nearest (v / nearest f) * f - v| ≤ 3 * (1 / 2 ^ 53) * |v| := hx
        linarith
      have h9 : |nearest (v / nearest f)| * f ≤ 2000 * (1 + 7 / 2 ^ 53) * f := by
        have h10 := mul_le_mul_of_nonneg_right hbig (by norm_num : (0 : ℚ) ≤ 1 + 3 / 2 ^ 53)
        refine h6.trans (h10.trans ?_)
        have : (1 + 3 / 2 ^ 53) * (1 + 3 / 2 ^ 53) ≤ (1 + 7 / 2 ^ 53 : ℚ) := by norm_num
        have h11 := mul_le_mul_of_nonneg_left this (by linarith : 0 ≤ 2000 * f)
        linarith
      exact le_of_mul_le_mul_right h9 hf
  | none =>
    exfalso
    have hall := findPrefixF_none hfp ("p", double.fl (1 / 1000000000000)) (by simp [defaultPrefixesF, defaultPrefixes])
    have : nearest (2 * nearest (1 / 1000000000000)) ≤ |v| := by rw [nearest_two_mul]; exact hlo
    exact absurd this (not_le.2 hall)

/-- Three roundings matter: the double next below 2e-3 is in doubles below the threshold for `m` (2 mV), and the quotient by the next smaller
magnitude is rounded to more than 2000. -/
example : metricPrefixF double (.fin (nearest (1 / 500))) "V" ⟨fun _ => "n"⟩ ⟨fun _ => "s"⟩ 2 none = .ok "n mV" ∧
    metricPrefixF double (.fin (nearest (1 / 500) - 1 / 2 ^ 61)) "V" ⟨fun _ => "n"⟩ ⟨fun _ => "s"⟩ 2 none = .ok "n µV" ∧
    metricPrefixF double (.fin (-nearest (1 / 1000000000000))) "V" ⟨fun _ => "n"⟩ ⟨fun _ => "s"⟩ 2 none = .ok "s pV" ∧
    2 * nearest (1 / 1000000000000) ≤ |nearest (1 / 500)| ∧ |nearest (1 / 500)| < 2000000000000000 := by decide +kernel

/-! ### Times -/

theorem nearest_int (n : ℤ) (h : |n| ≤ 2 ^ 53) : nearest n = n := by
  have := nearest_rep n 0 h
  simpa using this

/-- The seconds within the minute. -/
def within (d : ℚ) : ℚ := d - ⌊d / 60⌋ * 60

theorem within_bounds (d : ℚ) : 0 ≤ within d ∧ within d < 60 := by
  have h1 := Int.floor_le (d / 60)
  have h2 := Int.lt_floor_add_one (d / 60)
  unfold within
  constructor <;> linarith

theorem divmodF_spec (d : ℚ) (hd : |d| < 2 ^ 53) :
    (divmodF double d 60).1 = ⌊d / 60⌋ ∧ (divmodF double d 60).2 = if 0 ≤ d ∨ within d = 0 then within d else nearest (within d) := by
  have hd' := abs_lt.1 hd
  have hn : ∀ n : ℤ, |(n : ℚ)| ≤ 2 ^ 53 → double.fl n = n := by
    intro n h
    apply nearest_int
    have : ((|n| : ℤ) : ℚ) ≤ ((2 ^ 53 : ℤ) : ℚ) := by push_cast; exact h
    exact_mod_cast this
  have hz : ¬ double.fl 0 > 1 / 2 := by rw [fl_zero]; norm_num
  unfold divmodF fmod
  by_cases h0 : 0 ≤ d
  · have h1 := Int.floor_le (d / 60)
    have h2 := Int.lt_floor_add_one (d / 60)
    have hT : (0 : ℤ) ≤ ⌊d / 60⌋ := Int.floor_nonneg.2 (by linarith)
    have hT' : (0 : ℚ) ≤ ⌊d / 60⌋ := by exact_mod_cast hT
    have et : pyTrunc (d / 60) = ⌊d / 60⌋ := by unfold pyTrunc; rw [if_pos (by linarith)]
    have e1 : double.fl (d - (d - (⌊d / 60⌋ : ℚ) * 60)) = ⌊d / 60⌋ * 60 := by
      rw [sub_sub_cancel]
      have := hn (⌊d / 60⌋ * 60) (by push_cast; rw [abs_of_nonneg (by linarith)]; linarith)
      push_cast at this; exact this
    have e2 : double.fl ((⌊d / 60⌋ : ℚ) * 60 / 60) = ⌊d / 60⌋ := by
      rw [mul_div_cancel_right₀ _ (by norm_num)]
      exact hn _ (by rw [abs_of_nonneg hT']; linarith)
    have hc : ¬ (d - (⌊d / 60⌋ : ℚ) * 60 ≠ 0 ∧ ((60 : ℚ) < 0 ↔ ¬ d - (⌊d / 60⌋ : ℚ) * 60 < 0)) := by
      rintro ⟨-, h⟩
      have := h.2 (by linarith)
      norm_num at this
    simp only [et, e1, e2, if_neg hc, Int.floor_intCast, sub_self, if_neg hz, within, true_or, if_true, h0, and_self]
  · push Not at h0
    have h1 := Int.le_ceil (d / 60)
    have h2 := Int.ceil_lt_add_one (d / 60)
    have hT : ⌈d / 60⌉ ≤ (0 : ℤ) := Int.ceil_le.2 (by push_cast; linarith)
    have hT' : (⌈d / 60⌉ : ℚ) ≤ 0 := by exact_mod_cast hT
    have et : pyTrunc (d / 60) = ⌈d / 60⌉ := by unfold pyTrunc; rw [if_neg (by linarith)]
    have e1 : double.fl (d - (d - (⌈d / 60⌉ : ℚ) * 60)) = ⌈d / 60⌉ * 60 := by
      rw [sub_sub_cancel]
      have := hn (⌈d / 60⌉ * 60) (by push_cast; rw [abs_of_nonpos (by linarith)]; linarith)
      push_cast at this; exact this
    have e2 : double.fl ((⌈d / 60⌉ : ℚ) * 60 / 60) = ⌈d / 60⌉ := by
      rw [mul_div_cancel_right₀ _ (by norm_num)]
      exact hn _ (by rw [abs_of_nonpos hT']; linarith)
    by_cases hm : d - (⌈d / 60⌉ : ℚ) * 60 = 0
    · have hc : ¬ (d - (⌈d / 60⌉ : ℚ) * 60 ≠ 0 ∧ ((60 : ℚ) < 0 ↔ ¬ d - (⌈d / 60⌉ : ℚ) * 60 < 0)) := fun h => h.1 hm
      have ef : ⌊d / 60⌋ = ⌈d / 60⌉ := by
        rw [show d / 60 = (⌈d / 60⌉ : ℚ) by linarith]; simp
      have ew : within d = 0 := by unfold within; rw [ef]; exact hm
      simp only [et, e1, e2, if_neg hc, Int.floor_intCast, sub_self, if_neg hz]
      simp only [ew, or_true, if_true, hm, ef, and_self]
    · have hc : (d - (⌈d / 60⌉ : ℚ) * 60 ≠ 0 ∧ ((60 : ℚ) < 0 ↔ ¬ d - (⌈d / 60⌉ : ℚ) * 60 < 0)) := by
        refine ⟨hm, ?_⟩
        constructor
        · intro h; norm_num at h
        · intro h
          exact absurd (lt_of_le_of_ne (by linarith) hm) h
      have hlt : d - (⌈d / 60⌉ : ℚ) * 60 < 0 := lt_of_le_of_ne (by linarith) hm
      have ef : ⌊d / 60⌋ = ⌈d / 60⌉ - 1 := by
        rw [Int.floor_eq_iff]; push_cast; constructor <;> linarith
      have ew : d - (⌈d / 60⌉ : ℚ) * 60 + 60 = within d := by unfold within; rw [ef]; push_cast; ring
      have hw : ¬ (0 ≤ d ∨ within d = 0) := by
        rintro (h | h)
        · linarith
        · rw [← ew] at h; linarith
      have e3 : double.fl ((⌈d / 60⌉ : ℚ) - 1) = ((⌈d / 60⌉ - 1 : ℤ) : ℚ) := by
        have := hn (⌈d / 60⌉ - 1) (by
          push_cast; rw [abs_of_nonpos (by linarith)]
          have : (-9007199254740992 : ℚ) < d := by have := hd'.1; norm_num at this; exact this
          norm_num
          linarith)
        push_cast at this ⊢; exact this
      simp only [et, e1, e2, if_pos hc, e3, Int.floor_intCast, sub_self, if_neg hz, ew, ef, if_neg hw, true_and]
      rfl

theorem seconds_near (d : ℚ) (hd : |d| < 2 ^ 53) :
    |(divmodF double d 60).2 - within d| ≤ 60 / 2 ^ 53 ∧ 0 ≤ (divmodF double d 60).2 ∧ (divmodF double d 60).2 ≤ 60 := by
  rw [(divmodF_spec d hd).2]
  have hw := within_bounds d
  split_ifs
  · refine ⟨?_, hw.1, hw.2.le⟩
    rw [sub_self, abs_zero]; positivity
  · refine ⟨?_, nearest_nonneg hw.1, ?_⟩
    · refine (nearest_near (within d)).trans ?_
      rw [abs_of_nonneg hw.1]
      have : 1 / 2 ^ 53 * within d ≤ 1 / 2 ^ 53 * 60 := mul_le_mul_of_nonneg_left hw.2.le (by positivity)
      refine this.trans (le_of_eq (by ring))
    · have e : nearest 60 = 60 := by decide +kernel
      rw [← e]; exact nearest_mono hw.2.le

theorem pyTrunc_int (n : ℤ) : pyTrunc n = n := by unfold pyTrunc; simp

theorem minutes_abs {d : ℚ} (hd : |d| < 2 ^ 53) : |((⌊d / 60⌋ : ℤ) : ℚ)| < 2 ^ 53 := by
  have h1 := Int.floor_le (d / 60)
  have h2 := Int.lt_floor_add_one (d / 60)
  have hd' := abs_lt.1 hd
  norm_num at hd' ⊢
  rw [abs_lt]
  constructor <;> linarith [hd'.1, hd'.2]

theorem within_int (n : ℤ) : within n = ((n % 60 : ℤ) : ℚ) ∧ ⌊(n : ℚ) / 60⌋ = n / 60 := by
  have e : ⌊(n : ℚ) / 60⌋ = n / 60 := by
    have := Rat.floor_intCast_div_natCast n 60
    simpa using this
  refine ⟨?_, e⟩
  unfold within
  rw [e]
  have := Int.mul_ediv_add_emod n 60
  have h : (60 : ℚ) * ((n / 60 : ℤ) : ℚ) + ((n % 60 : ℤ) : ℚ) = n := by exact_mod_cast this
  linarith

/-- The second `divmod` of `time_str`, on a whole number of minutes, is exact. -/
theorem divmodF_minutes (d : ℚ) (hd : |d| < 2 ^ 53) :
    pyTrunc (divmodF double (divmodF double d 60).1 60).1 = ⌊d / 60⌋ / 60 ∧
    pyTrunc (divmodF double (divmodF double d 60).1 60).2 = ⌊d / 60⌋ % 60 := by
  rw [(divmodF_spec d hd).1]
  have h := divmodF_spec ⌊d / 60⌋ (minutes_abs hd)
  rw [h.1, h.2, (within_int _).2, (within_int _).1]
  have hb := Int.emod_nonneg ⌊d / 60⌋ (by norm_num : (60 : ℤ) ≠ 0)
  have hb2 := Int.emod_lt_of_pos ⌊d / 60⌋ (by norm_num : (0 : ℤ) < 60)
  refine ⟨pyTrunc_int _, ?_⟩
  split_ifs
  · exact pyTrunc_int _
  · rw [nearest_int _ (by rw [abs_of_nonneg hb]; norm_num; omega)]
    exact pyTrunc_int _

theorem divmod_minutes (d : ℚ) : (divmod ((divmod d 60).1 : ℚ) 60).1 = ⌊d / 60⌋ / 60 ∧
    ⌊(divmod ((divmod d 60).1 : ℚ) 60).2⌋ = ⌊d / 60⌋ % 60 := by
  have h := within_int ⌊d / 60⌋
  have e : (divmod ((divmod d 60).1 : ℚ) 60).2 = within ⌊d / 60⌋ := rfl
  refine ⟨h.2, ?_⟩
  rw [e, h.1, Int.floor_intCast]

/-- **C104.** A duration from zero up to 2^53 seconds is printed in doubles as in exact arithmetic, so all of C18 holds for it. -/
theorem C104_time (d : ℚ) (h0 : 0 ≤ d) (hd : d < 2 ^ 53) (sub hours : Bool) :
    timeFieldsF double d sub hours = timeFields d sub hours ∧ timeStrF double d sub hours = timeStr d sub hours := by
  have hd' : |d| < 2 ^ 53 := by rw [abs_of_nonneg h0]; exact hd
  have h := divmodF_spec d hd'
  have hm := divmodF_minutes d hd'
  have hm2 := divmod_minutes d
  have hw := within_bounds d
  have e2 : (divmodF double d 60).2 = (divmod d 60).2 := by rw [h.2, if_pos (Or.inl h0)]; rfl
  have e3 : pyTrunc (divmod d 60).2 = ⌊(divmod d 60).2⌋ := by
    unfold pyTrunc; rw [if_pos]; exact hw.1
  have e4 : pyTrunc (divmodF double d 60).1 = (divmod d 60).1 := by rw [h.1, pyTrunc_int]; rfl
  have hf : timeFieldsF double d sub hours = timeFields d sub hours := by
    unfold timeFieldsF timeFields
    cases hours <;> cases sub <;> simp only [hm.1, hm.2, hm2.1, hm2.2, e2, e3, e4, if_true, Bool.false_eq_true, if_false]
  refine ⟨hf, ?_⟩
  unfold timeStrF timeStr
  rw [hf]
  generalize timeFields d sub hours = w
  obtain ⟨h, m, s, c⟩ := w
  cases h <;> cases c <;> rfl

/-- **C104.** A duration of either sign below 2^53 seconds: the fields printed in doubles are the time within half a hundredth and a rounding of
60 seconds, minutes below 60 and hundredths below 100. -/
theorem C104_hundredths (d : ℚ) (hd : |d| < 2 ^ 53) :
    ∃ h m s c : ℤ, timeStrF double d true true = pad2 h ++ ":" ++ pad2 m ++ ":" ++ pad2 s ++ ("." ++ pad2 c) ∧
      |(3600 * h + 60 * m + s + c / 100 : ℚ) - d| ≤ 1 / 200 + 60 / 2 ^ 53 ∧ 0 ≤ m ∧ m < 60 ∧ 0 ≤ s ∧ s ≤ 60 ∧ 0 ≤ c ∧ c < 100 := by
  have hm := divmodF_minutes d hd
  have hs := seconds_near d hd
  set x := (divmodF double d 60).2 with hx
  have hc0 : 0 ≤ hundredths x := le_hundredths (by push_cast; linarith [hs.2.1])
  have hc1 : hundredths x ≤ 6000 := hundredths_le (by push_cast; linarith [hs.2.2])
  have hnear := abs_le.1 (hundredths_near x)
  have hsx := abs_le.1 hs.1
  refine ⟨⌊d / 60⌋ / 60, ⌊d / 60⌋ % 60, hundredths x / 100, hundredths x % 100, ?_, ?_, ?_, ?_, ?_, ?_, ?_, ?_⟩
  · unfold timeStrF timeFieldsF
    simp only [hm.1, hm.2, if_true, ← hx]
  · have h1 : (60 : ℚ) * ((⌊d / 60⌋ / 60 : ℤ) : ℚ) + ((⌊d / 60⌋ % 60 : ℤ) : ℚ) = ⌊d / 60⌋ := by
      exact_mod_cast Int.mul_ediv_add_emod ⌊d / 60⌋ 60
    have h2 : (100 : ℚ) * ((hundredths x / 100 : ℤ) : ℚ) + ((hundredths x % 100 : ℤ) : ℚ) = hundredths x := by
      exact_mod_cast Int.mul_ediv_add_emod (hundredths x) 100
    have h3 : within d = d - ⌊d / 60⌋ * 60 := rfl
    rw [abs_le]
    constructor <;> linarith [hnear.1, hnear.2, hsx.1, hsx.2]
  all_goals omega

/-- **C104 (partial).** Whole seconds of a negative duration: the time printed is the duration rounded down or one second more, the latter only if the
duration is within a rounding of the next second.  Missing: the duration rounded down itself, seconds below 60 (`C104_negative_fails`). -/
theorem C104_negative_partial (d : ℚ) (hd : |d| < 2 ^ 53) :
    ∃ h m s : ℤ, timeStrF double d false true = pad2 h ++ ":" ++ pad2 m ++ ":" ++ pad2 s ++ "" ∧ 0 ≤ m ∧ m < 60 ∧ 0 ≤ s ∧ s ≤ 60 ∧
      (3600 * h + 60 * m + s = ⌊d⌋ ∨ 3600 * h + 60 * m + s = ⌊d⌋ + 1 ∧ d < 0 ∧ (⌊d⌋ : ℚ) + 1 - d ≤ 60 / 2 ^ 53) := by
  have hm := divmodF_minutes d hd
  have hs := seconds_near d hd
  have hspec := (divmodF_spec d hd).2
  set x := (divmodF double d 60).2 with hx
  have ht : pyTrunc x = ⌊x⌋ := by unfold pyTrunc; rw [if_pos hs.2.1]
  have hw := within_bounds d
  have h3 : d = ((⌊d / 60⌋ * 60 : ℤ) : ℚ) + within d := by unfold within; push_cast; ring
  have hfl : ⌊d⌋ = ⌊d / 60⌋ * 60 + ⌊within d⌋ := by conv_lhs => rw [h3, Int.floor_intCast_add]
  have h0 : 0 ≤ ⌊x⌋ := Int.floor_nonneg.2 hs.2.1
  have h60 : ⌊x⌋ ≤ 60 := by
    have := (Int.floor_le x).trans hs.2.2
    exact_mod_cast this
  refine ⟨⌊d / 60⌋ / 60, ⌊d / 60⌋ % 60, ⌊x⌋, ?_, ?_, ?_, h0, h60, ?_⟩
  · unfold timeStrF timeFieldsF
    simp only [hm.1, hm.2, if_true, ← hx, ht, Bool.false_eq_true, if_false]
  · omega
  · omega
  · by_cases hc : 0 ≤ d ∨ within d = 0
    · rw [if_pos hc] at hspec
      left
      rw [hspec]; omega
    · rw [if_neg hc] at hspec
      push Not at hc
      have hlo : ⌊within d⌋ ≤ ⌊x⌋ := by
        rw [hspec]
        apply Int.le_floor.2
        have hf0 : 0 ≤ ⌊within d⌋ := Int.floor_nonneg.2 hw.1
        have hf1 : ⌊within d⌋ < 60 := by have := (Int.floor_le (within d)).trans_lt hw.2; exact_mod_cast this
        have e : nearest ((⌊within d⌋ : ℤ) : ℚ) = ⌊within d⌋ := nearest_int _ (by rw [abs_of_nonneg hf0]; norm_num; omega)
        rw [← e]; exact nearest_mono (Int.floor_le _)
      have hhi : ⌊x⌋ ≤ ⌊within d⌋ + 1 := by
        have h1 := Int.lt_floor_add_one (within d)
        have h2 := abs_le.1 hs.1
        have h4 := Int.floor_le x
        have : (⌊x⌋ : ℚ) < ⌊within d⌋ + 2 := by
          have : (60 : ℚ) / 2 ^ 53 < 1 := by norm_num
          linarith [h2.2]
        have : ⌊x⌋ < ⌊within d⌋ + 2 := by exact_mod_cast this
        omega
      rcases eq_or_lt_of_le hlo with h | h
      · left; omega
      · right
        have e : ⌊x⌋ = ⌊within d⌋ + 1 := by omega
        refine ⟨by omega, hc.1, ?_⟩
        have h2 := abs_le.1 hs.1
        have h4 := Int.floor_le x
        rw [e] at h4
        push_cast at h4
        have h5 : (⌊d⌋ : ℚ) = ⌊d / 60⌋ * 60 + ⌊within d⌋ := by rw [hfl]; push_cast; ring
        have h6 : d = ⌊d / 60⌋ * 60 + within d := by unfold within; ring
        linarith [h2.2]

/-- **C104 fails** for negative durations close to zero: -1e-17 s prints as `-1:59:60`, a time of 60 seconds, where the exact result is `-1:59:59`. -/
theorem C104_negative_fails : timeStrF double (nearest (-1 / 100000000000000000)) false true = "-1:59:60" ∧
    timeStr (nearest (-1 / 100000000000000000)) false true = "-1:59:59" := by decide +kernel

/-- **C104.** The time between two floats, up to 2^52 seconds apart: within half a hundredth, a rounding of the difference and a rounding of 60 seconds. -/
theorem C104_elapsed (t stop n1 n2 : ℚ) (hd : |stop - t| ≤ 2 ^ 52) :
    ∃ h m s c : ℤ, elapsedStrF double (.float t) (some stop) n1 n2 true true =
        .ok (pad2 h ++ ":" ++ pad2 m ++ ":" ++ pad2 s ++ ("." ++ pad2 c)) ∧
      |(3600 * h + 60 * m + s + c / 100 : ℚ) - (stop - t)| ≤ 1 / 200 + (60 + |stop - t|) / 2 ^ 53 ∧ 0 ≤ m ∧ m < 60 ∧ 0 ≤ s ∧ s ≤ 60 ∧
      0 ≤ c ∧ c < 100 := by
  have h1 := nearest_near (stop - t)
  have h2 : |nearest (stop - t)| < 2 ^ 53 := by
    have h3 := abs_sub_abs_le_abs_sub (nearest (stop - t)) (stop - t)
    have h4 : (1 : ℚ) / 2 ^ 53 * |stop - t| ≤ 1 / 2 ^ 53 * 2 ^ 52 := mul_le_mul_of_nonneg_left hd (by positivity)
    have h5 : (1 : ℚ) / 2 ^ 53 * 2 ^ 52 + 2 ^ 52 < 2 ^ 53 := by norm_num
    linarith
  obtain ⟨h, m, s, c, e, hn, hrest⟩ := C104_hundredths (nearest (stop - t)) h2
  refine ⟨h, m, s, c, ?_, ?_, hrest⟩
  · unfold elapsedStrF
    simp only [Option.getD_some]
    exact congrArg Except.ok e
  · have := abs_le.1 hn
    have h6 := abs_le.1 h1
    have h7 : (60 + |stop - t|) / 2 ^ 53 = 60 / 2 ^ 53 + 1 / 2 ^ 53 * |stop - t| := by ring
    rw [h7, abs_le]
    constructor <;> linarith [this.1, this.2, h6.1, h6.2]

/-- **C104.** Without an end the time is that up to now on the clock that fits the start; anything but a datetime or a float is a TypeError. -/
theorem C104_clock (R : Rounding) (t nowDate nowPerf n1 n2 : ℚ) (stop : Option ℚ) (sub hours : Bool) :
    elapsedStrF R (.float t) none nowDate nowPerf sub hours = elapsedStrF R (.float t) (some nowPerf) n1 n2 sub hours ∧
    elapsedStrF R (.datetime t) none nowDate nowPerf sub hours = elapsedStrF R (.datetime t) (some nowDate) n1 n2 sub hours ∧
    elapsedStrF R .other stop nowDate nowPerf sub hours = .error .typeError := ⟨rfl, rfl, rfl⟩

/-- **C104.** The time between two datetimes, given in microseconds, up to 2^33 s (272 years) apart: the whole seconds printed are exactly the
difference rounded down. -/
theorem C104_dates (a b : ℤ) (n1 n2 : ℚ) (hab : a ≤ b) (hd : b - a < 2 ^ 33 * 1000000) :
    ∃ h m s : ℤ, elapsedStrF double (.datetime (a / 1000000)) (some (b / 1000000)) n1 n2 false true =
        .ok (pad2 h ++ ":" ++ pad2 m ++ ":" ++ pad2 s ++ "") ∧
      3600 * h + 60 * m + s = (b - a) / 1000000 ∧ 0 ≤ m ∧ m < 60 ∧ 0 ≤ s ∧ s < 60 := by
  set q : ℚ := ((b - a : ℤ) : ℚ) / 1000000 with hq
  have e0 : (b / 1000000 - a / 1000000 : ℚ) = q := by rw [hq]; push_cast; ring
  have hab' : (0 : ℚ) ≤ ((b - a : ℤ) : ℚ) := by exact_mod_cast (by omega : 0 ≤ b - a)
  have hd' : ((b - a : ℤ) : ℚ) < 2 ^ 33 * 1000000 := by exact_mod_cast hd
  have q0 : 0 ≤ q := by rw [hq]; positivity
  have q1 : q < 2 ^ 33 := by rw [hq, div_lt_iff₀ (by norm_num)]; exact hd'
  have ef : ⌊q⌋ = (b - a) / 1000000 := by
    have := Rat.floor_intCast_div_natCast (b - a) 1000000
    rw [hq]; simpa using this
  have hn := abs_le.1 (nearest_near q)
  rw [abs_of_nonneg q0] at hn
  have hu : (1 : ℚ) / 2 ^ 53 * q < 1 / 1000000 := by
    have : (1 : ℚ) / 2 ^ 53 * q ≤ 1 / 2 ^ 53 * 2 ^ 33 := mul_le_mul_of_nonneg_left q1.le (by positivity)
    refine this.trans_lt (by norm_num)
  have hup : q ≤ ⌊q⌋ + 1 - 1 / 1000000 := by
    have h1 := Int.emod_lt_of_pos (b - a) (by norm_num : (0 : ℤ) < 1000000)
    have h2 := Int.mul_ediv_add_emod (b - a) 1000000
    have h3 : b - a ≤ 1000000 * ((b - a) / 1000000) + 999999 := by omega
    have h4 : ((b - a : ℤ) : ℚ) ≤ 1000000 * (((b - a) / 1000000 : ℤ) : ℚ) + 999999 := by exact_mod_cast h3
    rw [ef, hq, div_le_iff₀ (by norm_num)]
    linarith
  have hff : ⌊nearest q⌋ = ⌊q⌋ := by
    rw [Int.floor_eq_iff]
    constructor
    · have f0 : 0 ≤ ⌊q⌋ := Int.floor_nonneg.2 q0
      have f1 : ⌊q⌋ ≤ 2 ^ 53 := by
        have : (⌊q⌋ : ℚ) ≤ ((2 ^ 53 : ℤ) : ℚ) := by
          push_cast
          exact (Int.floor_le q).trans (q1.le.trans (by norm_num))
        exact_mod_cast this
      have e : nearest ((⌊q⌋ : ℤ) : ℚ) = ⌊q⌋ := nearest_int _ (by rw [abs_of_nonneg f0]; exact f1)
      rw [← e]; exact nearest_mono (Int.floor_le _)
    · linarith [hn.2]
  have hlt : nearest q < 2 ^ 53 := by
    have : (2 : ℚ) ^ 33 + 1 / 1000000 < 2 ^ 53 := by norm_num
    linarith [hn.2]
  obtain ⟨h, m, s, e1, e2, hrest⟩ := C18_whole_seconds (nearest q)
  refine ⟨h, m, s, ?_, by rw [e2, hff, ef], hrest⟩
  unfold elapsedStrF
  simp only [Option.getD_some]
  rw [e0]
  have := (C104_time (nearest q) (nearest_nonneg q0) hlt false true).2
  rw [show timeStrF double (double.fl q) false true = timeStr (nearest q) false true from this]
  rw [(C18_layout (nearest q) h m s 0).2.1 e1]

/-- The hypotheses are met: an hour, two minutes and three seconds to the microsecond, just before the next second. -/
example : elapsedStrF double (.datetime (0 / 1000000)) (some (3723999999 / 1000000)) 0 0 false true = .ok "01:02:03" ∧
    (0 : ℤ) ≤ 3723999999 ∧ (3723999999 : ℤ) - 0 < 2 ^ 33 * 1000000 ∧
    elapsedStrF double (.float (nearest (1 / 10))) (some (nearest (36001 / 10))) 0 0 true true = .ok "01:00:00.00" ∧
    |nearest (36001 / 10) - nearest (1 / 10)| ≤ 2 ^ 52 ∧ timeStrF double (-90) false false = "-2:30" := by decide +kernel

end Verif.Props.FloatFormat
