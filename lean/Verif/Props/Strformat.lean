import Verif.Model.Strformat
import Mathlib.Tactic.Linarith
import Mathlib.Tactic.FieldSimp
import Mathlib.Tactic.Positivity

/-!
C17, C18: number and time formatting.
-/

namespace Verif.Props.Strformat

open Verif Verif.Strformat

/-! ### C17 -/

/-- The prefix table is sorted from large to small, all magnitudes positive. -/
def Sorted (l : List (String × ℚ)) : Prop := (l.map Prod.snd).Pairwise (· > ·) ∧ ∀ p ∈ l, 0 < p.2

theorem findPrefix_some {v t : ℚ} {l : List (String × ℚ)} {p : String × ℚ} (h : findPrefix v t l = some p) :
    ∃ a b, l = a ++ p :: b ∧ t * p.2 ≤ |v| ∧ ∀ q ∈ a, |v| < t * q.2 := by
  induction l with
  | nil => simp [findPrefix] at h
  | cons q l ih =>
    obtain ⟨s, f⟩ := q
    unfold findPrefix at h
    split_ifs at h with hq
    · obtain rfl := Option.some.inj h
      exact ⟨[], l, rfl, hq, by simp⟩
    · obtain ⟨a, b, rfl, h1, h2⟩ := ih h
      refine ⟨(s, f) :: a, b, rfl, h1, ?_⟩
      intro q hq'
      rcases List.mem_cons.1 hq' with rfl | hq'
      · exact not_le.1 hq
      · exact h2 q hq'

theorem findPrefix_none {v t : ℚ} {l : List (String × ℚ)} : findPrefix v t l = none ↔ ∀ q ∈ l, |v| < t * q.2 := by
  induction l with
  | nil => simp [findPrefix]
  | cons q l ih =>
    obtain ⟨s, f⟩ := q
    unfold findPrefix
    split_ifs with hq
    · simp only [List.mem_cons, false_iff]
      intro h
      exact absurd (h (s, f) (Or.inl rfl)) (not_lt.2 hq)
    · rw [ih]
      simp only [List.mem_cons]
      constructor
      · rintro h q (rfl | hq')
        · exact not_le.1 hq
        · exact h q hq'
      · intro h q hq'; exact h q (Or.inr hq')

/-- **C17.** A finite value with a table of positive magnitudes is printed either with a prefix that it reaches and
with none before it reached, or, if it reaches none, with the last prefix and the small specifier.  The number handed
to the formatter times the magnitude of the prefix is the value. -/
theorem C17_metric_prefix (v threshold : ℚ) (unit : String) (sp sm : Spec) (l : List (String × ℚ)) (hl : l ≠ [])
    (hpos : ∀ p ∈ l, 0 < p.2) :
    ∃ (x : ℚ) (p : String) (f : ℚ), x * f = v ∧ (p, f) ∈ l ∧
      ((metricPrefix (.fin v) unit sp sm threshold (some l) = .ok (sp.fmt (.fin x) ++ " " ++ p ++ unit) ∧
          threshold ≤ |x| ∧ ∃ a b, l = a ++ (p, f) :: b ∧ ∀ q ∈ a, |v| < threshold * q.2) ∨
       (metricPrefix (.fin v) unit sp sm threshold (some l) = .ok (sm.fmt (.fin x) ++ " " ++ p ++ unit) ∧
          |x| < threshold ∧ l.getLast? = some (p, f) ∧ ∀ q ∈ l, |v| < threshold * q.2)) := by
  unfold metricPrefix
  simp only [Option.getD_some]
  cases hfp : findPrefix v threshold l with
  | some pf =>
    obtain ⟨p, f⟩ := pf
    obtain ⟨a, b, hab, h1, h2⟩ := findPrefix_some hfp
    have hmem : (p, f) ∈ l := by rw [hab]; simp
    have hf : 0 < f := hpos _ hmem
    refine ⟨v / f, p, f, div_mul_cancel₀ _ hf.ne', hmem, Or.inl ⟨?_, ?_, a, b, hab, h2⟩⟩
    · simp only [pyDiv, if_neg hf.ne']; rfl
    · rw [abs_div, abs_of_pos hf, le_div_iff₀ hf]; exact h1
  | none =>
    have hall := findPrefix_none.1 hfp
    obtain ⟨⟨p, f⟩, hlast⟩ : ∃ q, l.getLast? = some q := ⟨l.getLast hl, List.getLast?_eq_getLast_of_ne_nil hl⟩
    have hmem : (p, f) ∈ l := List.mem_of_getLast? hlast
    have hf : 0 < f := hpos _ hmem
    refine ⟨v / f, p, f, div_mul_cancel₀ _ hf.ne', hmem, Or.inr ⟨?_, ?_, hlast, hall⟩⟩
    · simp only [hlast, pyDiv, if_neg hf.ne']; rfl
    · rw [abs_div, abs_of_pos hf, div_lt_iff₀ hf]; exact hall _ hmem

/-- **C17.** With the default table and a positive threshold: the number shown is at least `threshold` and below
`1000 * threshold` in magnitude whenever `threshold * 1e-12 ≤ |v| < threshold * 1e15`. -/
theorem C17_default_range (v threshold : ℚ) (unit : String) (sp sm : Spec)
    (hlo : threshold * (1 / 1000000000000) ≤ |v|) (hhi : |v| < threshold * 1000000000000000) :
    ∃ (x : ℚ) (p : String) (f : ℚ), x * f = v ∧ (p, f) ∈ defaultPrefixes ∧
      metricPrefix (.fin v) unit sp sm threshold none = .ok (sp.fmt (.fin x) ++ " " ++ p ++ unit) ∧
      threshold ≤ |x| ∧ |x| < 1000 * threshold := by
  have hdef : metricPrefix (.fin v) unit sp sm threshold none =
      metricPrefix (.fin v) unit sp sm threshold (some defaultPrefixes) := rfl
  rw [hdef]
  have hpos : ∀ p ∈ defaultPrefixes, 0 < p.2 := by decide +kernel
  obtain ⟨x, p, f, hx, hmem, h | h⟩ := C17_metric_prefix v threshold unit sp sm defaultPrefixes (by decide) hpos
  · refine ⟨x, p, f, hx, hmem, h.1, h.2.1, ?_⟩
    obtain ⟨a, b, hab, ha⟩ := h.2.2
    have hf : 0 < f := hpos _ hmem
    -- the magnitude is a thousandth of the previous one, or the largest
    have key : ∀ a : List (String × ℚ), ∀ b, defaultPrefixes = a ++ (p, f) :: b →
        (a = [] ∧ f = 1000000000000) ∨ ∃ q ∈ a, q.2 = 1000 * f := by
      intro a b hab
      have hd : defaultPrefixes.Pairwise fun q r => 0 ≤ q.2 - r.2 := by decide +kernel
      unfold defaultPrefixes at hab
      rcases a with _ | ⟨a0, _ | ⟨a1, _ | ⟨a2, _ | ⟨a3, _ | ⟨a4, _ | ⟨a5, _ | ⟨a6, _ | ⟨a7, _ | ⟨a8, a⟩⟩⟩⟩⟩⟩⟩⟩⟩
      · left; simp at hab; exact ⟨rfl, hab.1.2.symm⟩
      all_goals right
      · simp only [List.cons_append, List.nil_append, List.cons.injEq, Prod.mk.injEq] at hab
        refine ⟨a0, by simp, ?_⟩; rw [← hab.1, ← hab.2.1.2]; norm_num
      · simp only [List.cons_append, List.nil_append, List.cons.injEq, Prod.mk.injEq] at hab
        refine ⟨a1, by simp, ?_⟩; rw [← hab.2.1, ← hab.2.2.1.2]; norm_num
      · simp only [List.cons_append, List.nil_append, List.cons.injEq, Prod.mk.injEq] at hab
        refine ⟨a2, by simp, ?_⟩; rw [← hab.2.2.1, ← hab.2.2.2.1.2]; norm_num
      · simp only [List.cons_append, List.nil_append, List.cons.injEq, Prod.mk.injEq] at hab
        refine ⟨a3, by simp, ?_⟩; rw [← hab.2.2.2.1, ← hab.2.2.2.2.1.2]; norm_num
      · simp only [List.cons_append, List.nil_append, List.cons.injEq, Prod.mk.injEq] at hab
        refine ⟨a4, by simp, ?_⟩; rw [← hab.2.2.2.2.1, ← hab.2.2.2.2.2.1.2]; norm_num
      · simp only [List.cons_append, List.nil_append, List.cons.injEq, Prod.mk.injEq] at hab
        refine ⟨a5, by simp, ?_⟩; rw [← hab.2.2.2.2.2.1, ← hab.2.2.2.2.2.2.1.2]; norm_num
      · simp only [List.cons_append, List.nil_append, List.cons.injEq, Prod.mk.injEq] at hab
        refine ⟨a6, by simp, ?_⟩; rw [← hab.2.2.2.2.2.2.1, ← hab.2.2.2.2.2.2.2.1.2]; norm_num
      · simp only [List.cons_append, List.nil_append, List.cons.injEq, Prod.mk.injEq] at hab
        refine ⟨a7, by simp, ?_⟩; rw [← hab.2.2.2.2.2.2.2.1, ← hab.2.2.2.2.2.2.2.2.1.2]; norm_num
      · have := congrArg List.length hab
        simp at this
    have hv : |v| = |x| * f := by rw [← hx, abs_mul, abs_of_pos hf]
    rcases key a b hab with ⟨_, h0⟩ | ⟨q, hq, h0⟩
    · rw [hv, h0] at hhi
      by_contra hc
      push Not at hc
      nlinarith
    · have := ha q hq
      rw [hv, h0] at this
      by_contra hc
      push Not at hc
      nlinarith
  · have := h.2.2.2 ("p", 1 / 1000000000000) (by unfold defaultPrefixes; simp)
    exact absurd hlo (not_le.2 this)

/-- **C17.** inf and nan never get a prefix. -/
theorem C17_special (v : Num) (hv : ∀ q, v ≠ .fin q) (unit : String) (sp sm : Spec) (t : ℚ)
    (l : Option (List (String × ℚ))) : metricPrefix v unit sp sm t l = .ok (sp.fmt v ++ "  " ++ unit) := by
  cases v with
  | fin q => exact absurd rfl (hv q)
  | inf n => rfl
  | nan => rfl

/-- **C17.** An empty table is an error. -/
theorem C17_empty (v t : ℚ) (unit : String) (sp sm : Spec) :
    metricPrefix (.fin v) unit sp sm t (some []) = .error .indexError := rfl

example : findPrefix 1999 2 defaultPrefixes = some (" ", 1) ∧ findPrefix (-2000) 2 defaultPrefixes = some ("k", 1000) ∧
    findPrefix (1 / 1000000000000) 2 defaultPrefixes = none := by decide +kernel

/-! ### C18 -/

theorem hundredths_near (x : ℚ) : |(hundredths x : ℚ) - x * 100| ≤ 1 / 2 := by
  unfold hundredths
  simp only
  have h1 := Int.floor_le (x * 100)
  have h2 := Int.lt_floor_add_one (x * 100)
  split_ifs with a b c <;> rw [abs_le] <;> push_cast <;> constructor <;> linarith

/-- a rounding to the nearest integer never crosses an integer -/
theorem hundredths_tie (x : ℚ) (h : |(hundredths x : ℚ) - x * 100| = 1 / 2) : hundredths x % 2 = 0 := by
  unfold hundredths at h ⊢
  have h1 := Int.floor_le (x * 100)
  have h2 := Int.lt_floor_add_one (x * 100)
  simp only at h ⊢
  split_ifs at h ⊢ with a b c
  · rw [abs_of_nonpos (by linarith)] at h; linarith
  · push_cast at h; rw [abs_of_nonneg (by linarith)] at h; linarith
  · exact c
  · omega

theorem hundredths_le {x : ℚ} {k : ℤ} (h : x * 100 < k + 1 / 2) : hundredths x ≤ k := by
  have := hundredths_near x
  rw [abs_le] at this
  have : (hundredths x : ℚ) < k + 1 := by linarith [this.2]
  have : hundredths x < k + 1 := by exact_mod_cast this
  omega

theorem le_hundredths {x : ℚ} {k : ℤ} (h : (k : ℚ) - 1 / 2 < x * 100) : k ≤ hundredths x := by
  have := hundredths_near x
  rw [abs_le] at this
  have : (k : ℚ) - 1 < hundredths x := by linarith [this.1]
  have : k - 1 < hundredths x := by exact_mod_cast this
  omega

theorem divmod_spec (a b : ℚ) (hb : 0 < b) :
    (divmod a b).1 * b + (divmod a b).2 = a ∧ 0 ≤ (divmod a b).2 ∧ (divmod a b).2 < b := by
  unfold divmod
  simp only
  have h1 := Int.floor_le (a / b)
  have h2 := Int.lt_floor_add_one (a / b)
  rw [le_div_iff₀ hb] at h1
  rw [div_lt_iff₀ hb] at h2
  refine ⟨by ring, by linarith, by linarith⟩

/-- **C18.** The string is the two-digit fields joined by colons. -/
theorem C18_layout (d : ℚ) (h m s c : ℤ) :
    (timeFields d true true = (some h, m, s, some c) →
      timeStr d true true = pad2 h ++ ":" ++ pad2 m ++ ":" ++ pad2 s ++ ("." ++ pad2 c)) ∧
    (timeFields d false true = (some h, m, s, none) →
      timeStr d false true = pad2 h ++ ":" ++ pad2 m ++ ":" ++ pad2 s ++ "") ∧
    (timeFields d false false = (none, m, s, none) → timeStr d false false = "" ++ pad2 m ++ ":" ++ pad2 s ++ "") ∧
    (timeFields d true false = (none, m, s, some c) →
      timeStr d true false = "" ++ pad2 m ++ ":" ++ pad2 s ++ ("." ++ pad2 c)) := by
  refine ⟨?_, ?_, ?_, ?_⟩ <;> intro hf <;> unfold timeStr <;> rw [hf]

/-- The decimal digit character. -/
def digit (n : ℤ) : Char := Char.ofNat (48 + n.toNat)

/-- **C18.** The text of a field: from 0 to 99 exactly two decimal digits, anything else in plain decimal. -/
theorem C18_field (n : ℤ) :
    (0 ≤ n → n < 100 → pad2 n = String.ofList [digit (n / 10), digit (n % 10)]) ∧
    (n < 0 ∨ 100 ≤ n → pad2 n = toString n) := by
  constructor
  · intro h1 h2
    have h : ∀ k : Fin 100, pad2 (k.val : ℤ) = String.ofList [digit ((k.val : ℤ) / 10), digit ((k.val : ℤ) % 10)] := by
      decide +kernel
    have := h ⟨n.toNat, by omega⟩
    simpa [Int.toNat_of_nonneg h1] using this
  · intro h
    unfold pad2
    rw [if_neg (by omega)]

/-- **C18.** Whole seconds: the printed fields are hours, minutes below 60 and seconds below 60 of the duration
rounded down. -/
theorem C18_whole_seconds (d : ℚ) :
    ∃ h m s : ℤ, timeFields d false true = (some h, m, s, none) ∧ 3600 * h + 60 * m + s = ⌊d⌋ ∧ 0 ≤ m ∧ m < 60 ∧
      0 ≤ s ∧ s < 60 := by
  obtain ⟨e1, l1, u1⟩ := divmod_spec d 60 (by norm_num)
  obtain ⟨e2, l2, u2⟩ := divmod_spec (divmod d 60).1 60 (by norm_num)
  have hm : ((⌊(divmod ((divmod d 60).1 : ℚ) 60).2⌋ : ℤ) : ℚ) = (divmod ((divmod d 60).1 : ℚ) 60).2 := by
    have : (divmod ((divmod d 60).1 : ℚ) 60).2 = (((divmod d 60).1 - (divmod ((divmod d 60).1 : ℚ) 60).1 * 60 : ℤ) : ℚ) := by
      push_cast; linarith
    rw [this, Int.floor_intCast]
  refine ⟨(divmod (divmod d 60).1 60).1, ⌊(divmod ((divmod d 60).1 : ℚ) 60).2⌋, ⌊(divmod d 60).2⌋, ?_, ?_, ?_, ?_, ?_, ?_⟩
  · unfold timeFields; simp
  · have : d = ((3600 * (divmod (divmod d 60).1 60).1 + 60 * ⌊(divmod ((divmod d 60).1 : ℚ) 60).2⌋ : ℤ) : ℚ) +
        (divmod d 60).2 := by
      push_cast; rw [hm]; linarith
    conv_rhs => rw [this, Int.floor_intCast_add]
  · exact Int.floor_nonneg.2 l2
  · have := (Int.floor_le (divmod ((divmod d 60).1 : ℚ) 60).2).trans_lt u2; exact_mod_cast this
  · exact Int.floor_nonneg.2 l1
  · have := (Int.floor_le (divmod d 60).2).trans_lt u1; exact_mod_cast this

/-- **C18.** Without hours the minutes are not limited. -/
theorem C18_minutes_only (d : ℚ) :
    ∃ m s : ℤ, timeFields d false false = (none, m, s, none) ∧ 60 * m + s = ⌊d⌋ ∧ 0 ≤ s ∧ s < 60 := by
  obtain ⟨e1, l1, u1⟩ := divmod_spec d 60 (by norm_num)
  refine ⟨(divmod d 60).1, ⌊(divmod d 60).2⌋, ?_, ?_, ?_, ?_⟩
  · unfold timeFields; simp
  · have : d = ((60 * (divmod d 60).1 : ℤ) : ℚ) + (divmod d 60).2 := by push_cast; linarith
    conv_rhs => rw [this, Int.floor_intCast_add]
  · exact Int.floor_nonneg.2 l1
  · have := (Int.floor_le (divmod d 60).2).trans_lt u1; exact_mod_cast this

/-- **C18 (partial).** With hundredths: the printed time is within half a hundredth of the duration, minutes are below
60, hundredths below 100, an exact tie goes to the even hundredth, and the seconds field is below 60 exactly if the seconds within the minute are below 59.995.
Missing: from 59.995 on the seconds field prints as 60 (`C18_seconds_fails`). -/
theorem C18_hundredths_partial (d : ℚ) :
    ∃ h m s c : ℤ, timeFields d true true = (some h, m, s, some c) ∧
      |(3600 * h + 60 * m + s + c / 100 : ℚ) - d| ≤ 1 / 200 ∧ 0 ≤ m ∧ m < 60 ∧ 0 ≤ s ∧ s ≤ 60 ∧ 0 ≤ c ∧ c < 100 ∧
      (s = 60 ↔ 59.995 ≤ d - 60 * ⌊d / 60⌋) ∧
      (|(3600 * h + 60 * m + s + c / 100 : ℚ) - d| = 1 / 200 → c % 2 = 0) := by
  obtain ⟨e1, l1, u1⟩ := divmod_spec d 60 (by norm_num)
  obtain ⟨e2, l2, u2⟩ := divmod_spec (divmod d 60).1 60 (by norm_num)
  have hm : ((⌊(divmod ((divmod d 60).1 : ℚ) 60).2⌋ : ℤ) : ℚ) = (divmod ((divmod d 60).1 : ℚ) 60).2 := by
    have : (divmod ((divmod d 60).1 : ℚ) 60).2 = (((divmod d 60).1 - (divmod ((divmod d 60).1 : ℚ) 60).1 * 60 : ℤ) : ℚ) := by
      push_cast; linarith
    rw [this, Int.floor_intCast]
  have hs2 : (divmod d 60).2 = d - 60 * ⌊d / 60⌋ := by unfold divmod; ring
  set x := (divmod d 60).2 with hx
  set c := hundredths x with hc
  have hc0 : 0 ≤ c := le_hundredths (by push_cast; linarith)
  have hc1 : c ≤ 6000 := hundredths_le (by push_cast; linarith)
  have hnear := hundredths_near x
  have hdm : (c : ℚ) = 100 * ((c / 100 : ℤ) : ℚ) + ((c % 100 : ℤ) : ℚ) := by
    have := Int.mul_ediv_add_emod c 100
    exact_mod_cast this.symm
  refine ⟨(divmod (divmod d 60).1 60).1, ⌊(divmod ((divmod d 60).1 : ℚ) 60).2⌋, c / 100, c % 100, ?_, ?_, ?_, ?_, ?_, ?_,
    ?_, ?_, ?_, ?_⟩
  · unfold timeFields; simp [hc, hx]
  · rw [hm]
    rw [← hc, abs_le] at hnear
    rw [abs_le]
    constructor <;> linarith [hnear.1, hnear.2]
  · exact Int.floor_nonneg.2 l2
  · have := (Int.floor_le (divmod ((divmod d 60).1 : ℚ) 60).2).trans_lt u2; exact_mod_cast this
  · omega
  · omega
  · omega
  · omega
  · constructor
    · intro h
      by_contra hlt
      push Not at hlt
      have : c ≤ 5999 := hundredths_le (by rw [← hs2] at hlt; push_cast; norm_num at hlt; linarith)
      omega
    · intro h
      have : 6000 ≤ c := by
        rcases h.lt_or_eq with h | h
        · exact le_hundredths (by rw [← hs2] at h; push_cast; norm_num at h; linarith)
        · rw [← hs2] at h
          rw [hc, ← h]
          decide +kernel
      omega
  · intro h
    rw [hm] at h
    have hev := hundredths_tie x (by
      rw [← hc]
      rcases (abs_eq (by norm_num : (0 : ℚ) ≤ 1 / 200)).1 h with h | h
      · exact (abs_eq (by norm_num)).2 (Or.inl (by linarith))
      · exact (abs_eq (by norm_num)).2 (Or.inr (by linarith)))
    rw [← hc] at hev
    omega

/-- **C18 fails** close to a full minute: 59.996 s prints as `00:00:60.00`. -/
theorem C18_seconds_fails : timeStr (59996 / 1000) true true = "00:00:60.00" := by decide +kernel

example : timeStr (3723 + 45 / 100) true true = "01:02:03.45" ∧ timeStr 59 false false = "00:59" := by decide +kernel

/-- **C18.** Elapsed time is the formatted difference; a start that is neither datetime nor float is a TypeError. -/
theorem C18_elapsed (t stop n1 n2 : ℚ) (sub hours : Bool) :
    elapsedStr (.datetime t) (some stop) n1 n2 sub hours = .ok (timeStr (stop - t) sub hours) ∧
    elapsedStr (.float t) (some stop) n1 n2 sub hours = .ok (timeStr (stop - t) sub hours) ∧
    elapsedStr (.datetime t) none n1 n2 sub hours = .ok (timeStr (n1 - t) sub hours) ∧
    elapsedStr (.float t) none n1 n2 sub hours = .ok (timeStr (n2 - t) sub hours) ∧
    ∀ s, elapsedStr .other s n1 n2 sub hours = .error .typeError :=
  ⟨rfl, rfl, rfl, rfl, fun _ => rfl⟩

end Verif.Props.Strformat
