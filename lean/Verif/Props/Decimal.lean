import Verif.Model.Decimal
import Mathlib.Tactic.Linarith
import Mathlib.Tactic.Ring
import Mathlib.Tactic.FieldSimp
import Mathlib.Tactic.Positivity
import Mathlib.Tactic.NormNum
import Mathlib.Tactic.LinearCombination
import Mathlib.Data.Nat.Digits.Lemmas

/-!
C32: numeric settings keep seven significant digits.
-/

namespace Verif.Props.Decimal

open Verif Verif.Scpi Verif.Decimal

/-! ### Digits -/

theorem isDig_digitChar {d : ℕ} (h : d < 10) : isDig (digitChar d) = true := by
  have : ∀ k : Fin 10, isDig (digitChar k.val) = true := by decide
  exact this ⟨d, h⟩

theorem val_digitChar {d : ℕ} (h : d < 10) : (digitChar d).toNat - '0'.toNat = d := by
  have : ∀ k : Fin 10, (digitChar k.val).toNat - '0'.toNat = k.val := by decide
  exact this ⟨d, h⟩

theorem digitsVal_snoc (s : Str) (c : Char) : digitsVal (s ++ [c]) = 10 * digitsVal s + (c.toNat - '0'.toNat) := by
  unfold digitsVal; rw [List.foldl_append]; rfl

theorem digitsVal_zeros (k : ℕ) (s : Str) : digitsVal (List.replicate k '0' ++ s) = digitsVal s := by
  induction k with
  | zero => rfl
  | succ k ih => rw [List.replicate_succ, List.cons_append]; exact ih

theorem digitsVal_digits (l : List ℕ) (h : ∀ d ∈ l, d < 10) :
    digitsVal (l.reverse.map digitChar) = Nat.ofDigits 10 l := by
  induction l with
  | nil => rfl
  | cons d l ih =>
    rw [List.reverse_cons, List.map_append, List.map_singleton, digitsVal_snoc, ih (fun x hx => h x (by simp [hx])),
      val_digitChar (h d (by simp)), Nat.ofDigits_cons]
    ring

theorem digitsText_val (w n : ℕ) : digitsVal (digitsText w n) = n := by
  unfold digitsText
  simp only
  rw [digitsVal_zeros, digitsVal_digits _ (fun d hd => Nat.digits_lt_base (by norm_num) hd), Nat.ofDigits_digits]

theorem digitsText_dig (w n : ℕ) : ∀ c ∈ digitsText w n, isDig c = true := by
  intro c hc
  unfold digitsText at hc
  simp only [List.mem_append, List.mem_replicate, List.mem_map, List.mem_reverse] at hc
  rcases hc with ⟨-, rfl⟩ | ⟨d, hd, rfl⟩
  · decide
  · exact isDig_digitChar (Nat.digits_lt_base (by norm_num) hd)

theorem digitsText_length (w n : ℕ) (h : n < 10 ^ w) : (digitsText w n).length = w := by
  unfold digitsText
  simp only [List.length_append, List.length_replicate, List.length_map, List.length_reverse]
  have : (Nat.digits 10 n).length ≤ w := (Nat.digits_length_le_iff (by norm_num) n).2 h
  omega

theorem digitsText_ne_nil (w n : ℕ) (hw : 0 < w) : digitsText w n ≠ [] := by
  intro h
  have := congrArg List.length h
  unfold digitsText at this
  simp only [List.length_append, List.length_replicate, List.length_map, List.length_reverse, List.length_nil] at this
  omega

/-! ### Rounding -/

theorem roundEven_near (x : ℚ) : |(roundEven x : ℚ) - x| ≤ 1 / 2 := by
  unfold roundEven
  have h1 := Int.floor_le x
  have h2 := Int.lt_floor_add_one x
  simp only
  split_ifs <;> rw [abs_le] <;> push_cast <;> constructor <;> linarith

theorem roundEven_int (n : ℤ) : roundEven (n : ℚ) = n := by
  unfold roundEven
  simp

theorem roundEven_mono_int (x : ℚ) (n : ℤ) : ((n : ℚ) ≤ x → n ≤ roundEven x) ∧ (x ≤ n → roundEven x ≤ n) := by
  have h := abs_le.1 (roundEven_near x)
  constructor
  · intro hx
    have : (n : ℚ) < roundEven x + 1 := by linarith [h.1]
    have : n < roundEven x + 1 := by exact_mod_cast this
    omega
  · intro hx
    have : (roundEven x : ℚ) < n + 1 := by linarith [h.2]
    have : roundEven x < n + 1 := by exact_mod_cast this
    omega

theorem mantExp_spec (a : ℚ) (ha : 0 < a) :
    10 ^ 6 ≤ (mantExp a).1 ∧ (mantExp a).1 < 10 ^ 7 ∧
      |((mantExp a).1 : ℚ) * 10 ^ ((mantExp a).2 - 6) - a| ≤ 5 / 10 ^ 7 * a := by
  set e := Int.log 10 a with he
  have l1 : (10 : ℚ) ^ e ≤ a := by
    have := Int.zpow_log_le_self (b := 10) (r := a) (by norm_num) ha
    exact_mod_cast this
  have l2 : a < (10 : ℚ) ^ (e + 1) := by
    have := Int.lt_zpow_succ_log_self (b := 10) (by norm_num) a
    exact_mod_cast this
  set x := a * (10 : ℚ) ^ (6 - e) with hx
  have p0 : (0 : ℚ) < 10 ^ (6 - e) := zpow_pos (by norm_num) _
  have x1 : (((10 ^ 6 : ℤ)) : ℚ) ≤ x := by
    have : (10 : ℚ) ^ e * 10 ^ (6 - e) ≤ x := mul_le_mul_of_nonneg_right l1 p0.le
    rw [← zpow_add₀ (by norm_num)] at this
    have e6 : e + (6 - e) = ((6 : ℕ) : ℤ) := by push_cast; ring
    rw [e6, zpow_natCast] at this
    exact_mod_cast this
  have x2 : x < (((10 ^ 7 : ℤ)) : ℚ) := by
    have : x < (10 : ℚ) ^ (e + 1) * 10 ^ (6 - e) := mul_lt_mul_of_pos_right l2 p0
    rw [← zpow_add₀ (by norm_num)] at this
    have e7 : e + 1 + (6 - e) = ((7 : ℕ) : ℤ) := by push_cast; ring
    rw [e7, zpow_natCast] at this
    exact_mod_cast this
  have r1 := (roundEven_mono_int x (10 ^ 6)).1 x1
  have r2 := (roundEven_mono_int x (10 ^ 7)).2 x2.le
  have hcast : (((roundEven x).toNat : ℕ) : ℚ) = (roundEven x : ℚ) := by
    have : (((roundEven x).toNat : ℕ) : ℤ) = roundEven x := Int.toNat_of_nonneg (by omega)
    exact_mod_cast congrArg (Int.cast (R := ℚ)) this
  have hnear := roundEven_near x
  have hback : a = x * (10 : ℚ) ^ (e - 6) := by
    rw [hx, mul_assoc, ← zpow_add₀ (by norm_num)]
    have : (6 - e + (e - 6)) = 0 := by ring
    rw [this]; simp
  have hpos : (0 : ℚ) < 10 ^ (e - 6) := zpow_pos (by norm_num) _
  have herr : |(((roundEven x).toNat : ℕ) : ℚ) * 10 ^ (e - 6) - a| ≤ 5 / 10 ^ 7 * a := by
    have : (((roundEven x).toNat : ℕ) : ℚ) * 10 ^ (e - 6) - a = ((roundEven x : ℚ) - x) * 10 ^ (e - 6) := by
      rw [hcast]; linear_combination -hback
    rw [this, abs_mul, abs_of_pos hpos]
    conv_rhs => rw [hback]
    rw [← mul_assoc]
    refine mul_le_mul_of_nonneg_right (hnear.trans ?_) hpos.le
    have : (10 : ℚ) ^ 6 ≤ x := by exact_mod_cast x1
    norm_num at this ⊢
    linarith
  unfold mantExp
  simp only
  rw [← he, ← hx]
  split_ifs with hm
  · refine ⟨le_refl _, by norm_num, ?_⟩
    rw [hm] at herr
    have : (((10 ^ 6 : ℕ)) : ℚ) * 10 ^ (e + 1 - 6) = (((10 ^ 7 : ℕ)) : ℚ) * 10 ^ (e - 6) := by
      have : e + 1 - 6 = (e - 6) + 1 := by ring
      rw [this, zpow_add₀ (by norm_num), zpow_one]
      push_cast
      ring
    simp only
    rw [this]
    exact herr
  · refine ⟨by simp only; omega, by simp only; omega, herr⟩

theorem mantExp_fixed (m : ℕ) (e : ℤ) (h1 : 10 ^ 6 ≤ m) (h2 : m < 10 ^ 7) :
    mantExp ((m : ℚ) * 10 ^ (e - 6)) = (m, e) := by
  have hpos : (0 : ℚ) < 10 ^ (e - 6) := zpow_pos (by norm_num) _
  have hm : (0 : ℚ) < m := by
    have : 0 < m := by omega
    exact_mod_cast this
  have ha : (0 : ℚ) < (m : ℚ) * 10 ^ (e - 6) := by positivity
  have q1 : (10 : ℚ) ^ 6 ≤ m := by exact_mod_cast h1
  have q2 : (m : ℚ) < 10 ^ 7 := by exact_mod_cast h2
  have hlog : Int.log 10 ((m : ℚ) * 10 ^ (e - 6)) = e := by
    apply le_antisymm
    · have : Int.log 10 ((m : ℚ) * 10 ^ (e - 6)) < e + 1 := by
        rw [← Int.lt_zpow_iff_log_lt (by norm_num) ha]
        have e1 : (((10 : ℕ)) : ℚ) ^ (e + 1) = 10 ^ 7 * 10 ^ (e - 6) := by
          have : e + 1 = ((7 : ℕ) : ℤ) + (e - 6) := by push_cast; ring
          rw [this, zpow_add₀ (by norm_num), zpow_natCast]
          push_cast
          ring
        rw [e1]
        exact mul_lt_mul_of_pos_right q2 hpos
      omega
    · rw [← Int.zpow_le_iff_le_log (by norm_num) ha]
      have e1 : (((10 : ℕ)) : ℚ) ^ e = 10 ^ 6 * 10 ^ (e - 6) := by
        have : e = ((6 : ℕ) : ℤ) + (e - 6) := by push_cast; ring
        nth_rewrite 1 [this]
        rw [zpow_add₀ (by norm_num), zpow_natCast]
        push_cast
        ring
      rw [e1]
      exact mul_le_mul_of_nonneg_right q1 hpos.le
  unfold mantExp
  simp only
  rw [hlog]
  have hx : (m : ℚ) * 10 ^ (e - 6) * 10 ^ (6 - e) = ((m : ℤ) : ℚ) := by
    rw [mul_assoc, ← zpow_add₀ (by norm_num)]
    have : (e - 6 + (6 - e)) = 0 := by ring
    rw [this]; simp
  rw [hx, roundEven_int]
  simp only [Int.toNat_natCast]
  rw [if_neg (by omega)]

/-! ### Reading back -/

theorem strip_id (s : Str) (h : ∀ c ∈ s, c ≠ ' ' ∧ c ≠ '\t' ∧ c ≠ '\n' ∧ c ≠ '\r') : strip s = s := by
  have hdw : ∀ (t : Str), (∀ c ∈ t, c ≠ ' ' ∧ c ≠ '\t' ∧ c ≠ '\n' ∧ c ≠ '\r') →
      t.dropWhile (fun c : Char => c = ' ' || c = '\t' || c = '\n' || c = '\r') = t := by
    intro t ht
    cases t with
    | nil => rfl
    | cons c t =>
      obtain ⟨h1, h2, h3, h4⟩ := ht c (by simp)
      rw [List.dropWhile_cons_of_neg]
      simp [h1, h2, h3, h4]
  unfold strip
  simp only
  rw [hdw s h, hdw s.reverse (fun c hc => h c (by simpa using hc)), List.reverse_reverse]

theorem isDig_not {c : Char} (h : isDig c = true) :
    c ≠ ' ' ∧ c ≠ '\t' ∧ c ≠ '\n' ∧ c ≠ '\r' ∧ c ≠ '-' ∧ c ≠ '+' ∧ c ≠ '.' ∧ c ≠ 'E' := by
  refine ⟨?_, ?_, ?_, ?_, ?_, ?_, ?_, ?_⟩ <;> rintro rfl <;> revert h <;> decide

/-- The number that is printed: zero, or a seven digit mantissa times a power of ten. -/
def printed (q : ℚ) : ℚ :=
  if q = 0 then 0
  else (if q < 0 then -1 else 1) * ((mantExp |q|).1 * 10 ^ ((mantExp |q|).2 - 6))

theorem sign_dig (s : Str) (h : ∀ c, s.head? = some c → c ≠ '-' ∧ c ≠ '+') : sign s = (false, s) := by
  unfold sign
  split
  · rename_i r; exact absurd rfl (h _ rfl).1
  · rename_i r; exact absurd rfl (h _ rfl).2
  · rfl

theorem pyFloat_text (neg : Bool) (m : ℕ) (e : ℤ) (hm : m < 10 ^ 7) :
    pyFloat ((if neg then ['-'] else []) ++ (digitsText 7 m).take 1 ++ '.' :: (digitsText 7 m).drop 1 ++
        'E' :: (if e < 0 then '-' else '+') :: digitsText 2 e.natAbs)
      = .ok ((if neg then -1 else 1) * ((m : ℚ) * 10 ^ (e - 6))) := by
  set d := digitsText 7 m with hd
  have hlen : d.length = 7 := digitsText_length 7 m hm
  have hdig := digitsText_dig 7 m
  rw [← hd] at hdig
  set x := digitsText 2 e.natAbs with hx
  have hxd : ∀ c ∈ x, isDig c = true := digitsText_dig 2 e.natAbs
  have hxn : x ≠ [] := digitsText_ne_nil 2 _ (by norm_num)
  have hall : ∀ c ∈ ((if neg then ['-'] else []) ++ d.take 1 ++ '.' :: d.drop 1 ++
        'E' :: (if e < 0 then '-' else '+') :: x : Str), c ≠ ' ' ∧ c ≠ '\t' ∧ c ≠ '\n' ∧ c ≠ '\r' := by
    intro c hc
    simp only [List.mem_append, List.mem_cons] at hc
    have ofdig : isDig c = true → c ≠ ' ' ∧ c ≠ '\t' ∧ c ≠ '\n' ∧ c ≠ '\r' := fun h =>
      ⟨(isDig_not h).1, (isDig_not h).2.1, (isDig_not h).2.2.1, (isDig_not h).2.2.2.1⟩
    rcases hc with ((hc | hc) | rfl | hc) | rfl | rfl | hc
    · cases neg
      · simp at hc
      · simp only [if_true, List.mem_singleton] at hc; subst hc; decide
    · exact ofdig (hdig c (List.mem_of_mem_take hc))
    · decide
    · exact ofdig (hdig c (List.mem_of_mem_drop hc))
    · decide
    · split <;> decide
    · exact ofdig (hxd c hc)
  have hsign : sign ((if neg then ['-'] else []) ++ d.take 1 ++ '.' :: d.drop 1 ++
        'E' :: (if e < 0 then '-' else '+') :: x : Str)
      = (neg, d.take 1 ++ '.' :: d.drop 1 ++ 'E' :: (if e < 0 then '-' else '+') :: x) := by
    cases neg with
    | true => rfl
    | false =>
      simp only [Bool.false_eq_true, if_false, List.nil_append]
      apply sign_dig
      intro c hc
      cases hd' : d with
      | nil => rw [hd'] at hlen; simp at hlen
      | cons a t =>
        rw [hd'] at hc
        simp only [List.take_succ_cons, List.take_zero, List.cons_append, List.head?_cons, Option.some.injEq] at hc
        have := isDig_not (hdig a (by rw [hd']; simp))
        rw [← hc]
        exact ⟨this.2.2.2.2.1, this.2.2.2.2.2.1⟩
  have ht : ∀ c ∈ d.take 1, isDig c = true := fun c hc => hdig c (List.mem_of_mem_take hc)
  have hdr : ∀ c ∈ d.drop 1, isDig c = true := fun c hc => hdig c (List.mem_of_mem_drop hc)
  have hmant : mantissa (d.take 1 ++ '.' :: d.drop 1 ++ 'E' :: (if e < 0 then '-' else '+') :: x)
      = (d.take 1, d.drop 1, 'E' :: (if e < 0 then '-' else '+') :: x) := by
    unfold mantissa
    rw [List.append_assoc, List.dropWhile_append_of_pos ht, List.takeWhile_append_of_pos ht]
    have e1 : List.dropWhile isDig ('.' :: d.drop 1 ++ 'E' :: (if e < 0 then '-' else '+') :: x)
        = '.' :: (d.drop 1 ++ 'E' :: (if e < 0 then '-' else '+') :: x) := by
      rw [List.cons_append, List.dropWhile_cons_of_neg (by decide)]
    have e2 : List.takeWhile isDig ('.' :: d.drop 1 ++ 'E' :: (if e < 0 then '-' else '+') :: x) = [] := by
      rw [List.cons_append, List.takeWhile_cons_of_neg (by decide)]
    rw [e1, e2]
    simp only [List.append_nil]
    rw [List.dropWhile_append_of_pos hdr, List.takeWhile_append_of_pos hdr,
      List.dropWhile_cons_of_neg (by decide), List.takeWhile_cons_of_neg (by decide), List.append_nil]
  have hexp : exponent ('E' :: (if e < 0 then '-' else '+') :: x) = .ok e := by
    rw [exponent, if_pos (Or.inr rfl)]
    have hs : sign ((if e < 0 then '-' else '+') :: x) = (decide (e < 0), x) := by
      by_cases he : e < 0
      · simp [he, sign]
      · simp [he, sign]
    rw [hs]
    simp only
    rw [if_pos ⟨hxn, List.all_eq_true.2 hxd⟩, hx, digitsText_val]
    by_cases he : e < 0
    · simp only [he, decide_true, if_true]; congr 1; omega
    · simp only [he, decide_false, Bool.false_eq_true, if_false]; congr 1; omega
  unfold pyFloat
  rw [strip_id _ hall, hsign]
  simp only
  rw [hmant]
  simp only
  have hne : ¬ (d.take 1 = [] ∧ d.drop 1 = []) := by
    rintro ⟨h1, -⟩
    have := congrArg List.length h1
    rw [List.length_take, hlen] at this
    simp at this
  rw [if_neg hne, hexp]
  simp only
  rw [List.take_append_drop, hd, digitsText_val, ← hd, List.length_drop, hlen]
  cases neg <;> simp

theorem pyFloat_fmt (q : ℚ) : pyFloat (fmtE6 q) = .ok (printed q) := by
  unfold fmtE6 printed
  by_cases hq : q = 0
  · subst hq
    have := pyFloat_text false 0 0 (by norm_num)
    simp only [Bool.false_eq_true, if_false, lt_irrefl] at this
    simp only [lt_irrefl, if_true, if_false]
    rw [this]
    simp
  · have hp : 0 < |q| := abs_pos.2 hq
    obtain ⟨h1, h2, -⟩ := mantExp_spec |q| hp
    have := pyFloat_text (decide (q < 0)) (mantExp |q|).1 (mantExp |q|).2 h2
    simp only [decide_eq_true_eq] at this
    rw [if_neg hq, if_neg hq]
    exact this

/-- **C32.** A number sent with six decimals in scientific notation and read back with `float` differs by at most half
a unit of the seventh significant digit, keeps its sign and zero, and sending the value read back again sends the same
text. -/
theorem C32_round_trip (q : ℚ) :
    ∃ r, pyFloat (fmtE6 q) = .ok r ∧ |r - q| ≤ 5 / 10 ^ 7 * |q| ∧ (0 < r ↔ 0 < q) ∧ (r < 0 ↔ q < 0) ∧
      fmtE6 r = fmtE6 q := by
  refine ⟨printed q, pyFloat_fmt q, ?_⟩
  by_cases hq : q = 0
  · subst hq; simp [printed]
  · have hp : 0 < |q| := abs_pos.2 hq
    obtain ⟨h1, h2, h3⟩ := mantExp_spec |q| hp
    set m := (mantExp |q|).1 with hm
    set e := (mantExp |q|).2 with he
    have hv : (0 : ℚ) < (m : ℚ) * 10 ^ (e - 6) := by
      have : (0 : ℚ) < m := by
        have : 0 < m := by omega
        exact_mod_cast this
      exact mul_pos this (zpow_pos (by norm_num) _)
    have hpr : printed q = (if q < 0 then -1 else 1) * ((m : ℚ) * 10 ^ (e - 6)) := by
      unfold printed; rw [if_neg hq]
    rcases lt_or_gt_of_ne hq with hn | hn
    · rw [if_pos hn] at hpr
      have habs : |q| = -q := abs_of_neg hn
      refine ⟨?_, ?_, ?_, ?_⟩
      · rw [hpr]
        have : -1 * ((m : ℚ) * 10 ^ (e - 6)) - q = -((m : ℚ) * 10 ^ (e - 6) - |q|) := by rw [habs]; ring
        rw [this, abs_neg]
        exact h3
      · rw [hpr]; constructor <;> intro h <;> linarith
      · rw [hpr]; constructor <;> intro h <;> linarith
      · have hneg : printed q < 0 := by rw [hpr]; linarith
        have : |printed q| = (m : ℚ) * 10 ^ (e - 6) := by rw [abs_of_neg hneg, hpr]; ring
        unfold fmtE6
        rw [if_neg hneg.ne, if_neg hq, this, mantExp_fixed m e h1 h2, if_pos hneg, if_pos hn]
    · rw [if_neg (not_lt.2 hn.le)] at hpr
      have habs : |q| = q := abs_of_pos hn
      refine ⟨?_, ?_, ?_, ?_⟩
      · rw [hpr]
        have : 1 * ((m : ℚ) * 10 ^ (e - 6)) - q = ((m : ℚ) * 10 ^ (e - 6) - |q|) := by rw [habs]; ring
        rw [this]
        exact h3
      · rw [hpr]; constructor <;> intro h <;> linarith
      · rw [hpr]; constructor <;> intro h <;> linarith
      · have hpos : 0 < printed q := by rw [hpr]; linarith
        have : |printed q| = (m : ℚ) * 10 ^ (e - 6) := by rw [abs_of_pos hpos, hpr]; ring
        unfold fmtE6
        rw [if_neg hpos.ne', if_neg hq, this, mantExp_fixed m e h1 h2, if_neg (not_lt.2 hpos.le), if_neg (not_lt.2 hn.le)]

/-- **C32.** Numbers with at most seven significant digits are read back unchanged. -/
theorem C32_exact (m : ℤ) (e : ℤ) (hm : m.natAbs < 10 ^ 7) :
    pyFloat (fmtE6 ((m : ℚ) * 10 ^ e)) = .ok ((m : ℚ) * 10 ^ e) := by
  rw [pyFloat_fmt]
  congr 1
  have hpe : (0 : ℚ) < 10 ^ e := zpow_pos (by norm_num) _
  by_cases h0 : m = 0
  · subst h0; simp [printed]
  have hq : (m : ℚ) * 10 ^ e ≠ 0 := mul_ne_zero (by exact_mod_cast h0) hpe.ne'
  have hn : m.natAbs ≠ 0 := Int.natAbs_ne_zero.2 h0
  have k1 := Nat.pow_log_le_self 10 hn
  have k2 := Nat.lt_pow_succ_log_self (b := 10) (by norm_num) m.natAbs
  have k3 : Nat.log 10 m.natAbs ≤ 6 := by
    by_contra hc
    have : 10 ^ 7 ≤ 10 ^ Nat.log 10 m.natAbs := Nat.pow_le_pow_right (by norm_num) (by omega)
    omega
  set l := Nat.log 10 m.natAbs with hl
  obtain ⟨k, hk⟩ : ∃ k, l + k = 6 := ⟨6 - l, by omega⟩
  have b1 : 10 ^ 6 ≤ m.natAbs * 10 ^ k := by
    calc 10 ^ 6 = 10 ^ l * 10 ^ k := by rw [← pow_add, hk]
      _ ≤ _ := Nat.mul_le_mul_right _ k1
  have b2 : m.natAbs * 10 ^ k < 10 ^ 7 := by
    calc m.natAbs * 10 ^ k < 10 ^ (l + 1) * 10 ^ k := Nat.mul_lt_mul_of_pos_right k2 (by positivity)
      _ = 10 ^ 7 := by rw [← pow_add]; congr 1; omega
  have habs : |(m : ℚ) * 10 ^ e| = ((m.natAbs * 10 ^ k : ℕ) : ℚ) * 10 ^ ((e - k + 6) - 6) := by
    rw [abs_mul, abs_of_pos hpe]
    have e1 : (e - k + 6) - 6 = e - (k : ℤ) := by ring
    rw [e1, zpow_sub₀ (by norm_num), zpow_natCast]
    have : |(m : ℚ)| = (m.natAbs : ℚ) := by
      rw [← Int.cast_abs, Int.abs_eq_natAbs]; rfl
    rw [this]
    push_cast
    field_simp
  unfold printed
  rw [if_neg hq, habs, mantExp_fixed _ _ b1 b2, ← habs]
  split_ifs with h
  · rw [abs_of_neg h]; ring
  · rw [abs_of_nonneg (not_lt.1 h)]; ring

/-- A number with at most seven significant digits. -/
def Seven (x : ℚ) : Prop := ∃ m k : ℤ, |m| < 10 ^ 7 ∧ x = m * 10 ^ k

theorem roundEven_nearest (x : ℚ) (n : ℤ) : |(roundEven x : ℚ) - x| ≤ |(n : ℚ) - x| := by
  by_contra hc
  push Not at hc
  have h := roundEven_near x
  have h1 : |((n - roundEven x : ℤ) : ℚ)| < 1 := by
    push_cast
    rw [show (n : ℚ) - roundEven x = (n - x) - (roundEven x - x) by ring]
    have := abs_sub ((n : ℚ) - x) (roundEven x - x)
    linarith
  rw [← Int.cast_abs] at h1
  have h2 : |n - roundEven x| < 1 := by exact_mod_cast h1
  have h3 : n = roundEven x := by
    rw [Int.abs_lt_one_iff] at h2
    omega
  rw [h3] at hc
  exact lt_irrefl _ hc

theorem roundEven_even (x : ℚ) (h : |(roundEven x : ℚ) - x| = 1 / 2) : Even (roundEven x) := by
  have h1 := Int.floor_le x
  have h2 := Int.lt_floor_add_one x
  revert h
  unfold roundEven
  simp only
  split_ifs with c1 c2 c3
  · intro h
    rw [abs_of_nonpos (by linarith)] at h
    linarith
  · intro h
    push_cast at h
    rw [abs_of_nonneg (by linarith)] at h
    linarith
  · intro _
    exact Int.even_iff.2 c3
  · intro _
    rw [Int.even_iff]
    omega

/-- The mantissa is a rounded one, for the exponent of the number. -/
theorem mantExp_rounded (a : ℚ) (ha : 0 < a) : ∃ e : ℤ, (10 : ℚ) ^ e ≤ a ∧ a < 10 ^ (e + 1) ∧
    ((mantExp a).1 : ℚ) * 10 ^ ((mantExp a).2 - 6) = roundEven (a * 10 ^ (6 - e)) * 10 ^ (e - 6) ∧
    ((((mantExp a).1 : ℤ) = roundEven (a * 10 ^ (6 - e)) ∧ (mantExp a).2 = e) ∨ ((mantExp a).1 = 10 ^ 6 ∧ (mantExp a).2 = e + 1)) := by
  refine ⟨Int.log 10 a, ?_, ?_, ?_⟩
  · have := Int.zpow_log_le_self (b := 10) (r := a) (by norm_num) ha
    exact_mod_cast this
  · have := Int.lt_zpow_succ_log_self (b := 10) (by norm_num) a
    exact_mod_cast this
  · set e := Int.log 10 a with he
    have hn : 0 ≤ roundEven (a * 10 ^ (6 - e)) := by
      have : ((0 : ℤ) : ℚ) ≤ a * 10 ^ (6 - e) := by
        rw [Int.cast_zero]
        exact mul_nonneg ha.le (zpow_pos (by norm_num) _).le
      exact (roundEven_mono_int _ 0).1 this
    have hc : (((roundEven (a * 10 ^ (6 - e))).toNat : ℕ) : ℤ) = roundEven (a * 10 ^ (6 - e)) := Int.toNat_of_nonneg hn
    have hq : (((roundEven (a * 10 ^ (6 - e))).toNat : ℕ) : ℚ) = roundEven (a * 10 ^ (6 - e)) := by
      exact_mod_cast congrArg (Int.cast (R := ℚ)) hc
    unfold mantExp
    simp only
    rw [← he]
    split_ifs with hm
    · refine ⟨?_, Or.inr ⟨rfl, rfl⟩⟩
      rw [← hq, hm]
      have : e + 1 - 6 = (e - 6) + 1 := by ring
      simp only
      rw [this, zpow_add₀ (by norm_num), zpow_one]
      push_cast
      ring
    · exact ⟨by rw [← hq], Or.inl ⟨hc, rfl⟩⟩

theorem mant_nearest (a : ℚ) (ha : 0 < a) (m k : ℤ) (hm : |m| < 10 ^ 7) :
    |((mantExp a).1 : ℚ) * 10 ^ ((mantExp a).2 - 6) - a| ≤ |(m : ℚ) * 10 ^ k - a| := by
  obtain ⟨e, h1, h2, h3, -⟩ := mantExp_rounded a ha
  rw [h3]
  have hp : (0 : ℚ) < 10 ^ (e - 6) := zpow_pos (by norm_num) _
  have hback : a = a * 10 ^ (6 - e) * 10 ^ (e - 6) := by
    rw [mul_assoc, ← zpow_add₀ (by norm_num), show (6 - e + (e - 6)) = 0 by ring, zpow_zero, mul_one]
  have hint : ∀ n : ℤ, |(roundEven (a * 10 ^ (6 - e)) : ℚ) * 10 ^ (e - 6) - a| ≤ |(n : ℚ) * 10 ^ (e - 6) - a| := by
    intro n
    have hr := roundEven_nearest (a * 10 ^ (6 - e)) n
    have e1 : ∀ z : ℚ, |z * 10 ^ (e - 6) - a| = |z - a * 10 ^ (6 - e)| * 10 ^ (e - 6) := by
      intro z
      conv_rhs => rw [← abs_of_pos hp]
      rw [← abs_mul]
      congr 1
      linear_combination -hback
    rw [e1, e1]
    exact mul_le_mul_of_nonneg_right hr hp.le
  by_cases hk : e - 6 ≤ k
  · obtain ⟨j, hj⟩ := Int.eq_ofNat_of_zero_le (sub_nonneg.2 hk)
    have : (m : ℚ) * 10 ^ k = ((m * 10 ^ j : ℤ) : ℚ) * 10 ^ (e - 6) := by
      have : k = (j : ℤ) + (e - 6) := by omega
      rw [this, zpow_add₀ (by norm_num), zpow_natCast]
      push_cast
      ring
    rw [this]
    exact hint _
  · have hk' : k ≤ e - 7 := by omega
    have h10 := hint (10 ^ 6)
    have e10 : (((10 ^ 6 : ℤ)) : ℚ) * 10 ^ (e - 6) = 10 ^ e := by
      have : e = 6 + (e - 6) := by ring
      conv_rhs => rw [this, zpow_add₀ (by norm_num)]
      norm_num
    rw [e10, abs_of_nonpos (show (10 : ℚ) ^ e - a ≤ 0 by linarith)] at h10
    have hmq : (m : ℚ) ≤ 10 ^ 7 := by
      have : m ≤ 10 ^ 7 := (le_abs_self m).trans hm.le
      exact_mod_cast this
    have hsmall : (m : ℚ) * 10 ^ k ≤ 10 ^ e := by
      have hk0 : (0 : ℚ) < 10 ^ k := zpow_pos (by norm_num) _
      have h7 : (10 : ℚ) ^ k ≤ 10 ^ (e - 7) := zpow_le_zpow_right₀ (by norm_num) hk'
      have e7 : (10 : ℚ) ^ 7 * 10 ^ (e - 7) = 10 ^ e := by
        have : e = 7 + (e - 7) := by ring
        conv_rhs => rw [this, zpow_add₀ (by norm_num)]
        norm_num
      calc (m : ℚ) * 10 ^ k ≤ 10 ^ 7 * 10 ^ k := mul_le_mul_of_nonneg_right hmq hk0.le
        _ ≤ 10 ^ 7 * 10 ^ (e - 7) := mul_le_mul_of_nonneg_left h7 (by norm_num)
        _ = 10 ^ e := e7
    rw [abs_of_nonpos (show (m : ℚ) * 10 ^ k - a ≤ 0 by linarith)]
    linarith

/-- **C32.** No number with at most seven significant digits is closer to the one sent than the one read back, which has at most seven itself;
halfway between two of them the last digit is even. -/
theorem C32_nearest (q : ℚ) : ∃ r, pyFloat (fmtE6 q) = .ok r ∧ Seven r ∧ (∀ x, Seven x → |r - q| ≤ |x - q|) ∧
    ∀ m k : ℤ, 10 ^ 6 ≤ |m| → |m| < 10 ^ 7 → r = m * 10 ^ k → |r - q| = 10 ^ k / 2 → Even m := by
  refine ⟨printed q, pyFloat_fmt q, ?_⟩
  by_cases hq : q = 0
  · subst hq
    refine ⟨⟨0, 0, by norm_num, by simp [printed]⟩, fun x _ => by simp [printed], fun m k h1 _ h3 _ => ?_⟩
    have hp : (0 : ℚ) < 10 ^ k := zpow_pos (by norm_num) _
    rw [show printed 0 = 0 by simp [printed]] at h3
    have : (m : ℚ) = 0 := by
      rcases mul_eq_zero.1 h3.symm with h | h
      · exact h
      · exact absurd h hp.ne'
    have : m = 0 := by exact_mod_cast this
    subst this
    exact Even.zero
  · have hp : 0 < |q| := abs_pos.2 hq
    obtain ⟨s, hs, hsq⟩ : ∃ s : ℤ, (s = 1 ∨ s = -1) ∧ q = s * |q| ∧ printed q = s * (((mantExp |q|).1 : ℚ) * 10 ^ ((mantExp |q|).2 - 6)) := by
      unfold printed
      rw [if_neg hq]
      rcases lt_or_gt_of_ne hq with hn | hn
      · exact ⟨-1, Or.inr rfl, by rw [abs_of_neg hn]; push_cast; ring, by rw [if_pos hn]; push_cast; ring⟩
      · exact ⟨1, Or.inl rfl, by rw [abs_of_pos hn]; push_cast; ring, by rw [if_neg (not_lt.2 hn.le)]; push_cast; ring⟩
    obtain ⟨hs1, hs2⟩ := hsq
    have hss : (s : ℚ) * s = 1 := by rcases hs with rfl | rfl <;> norm_num
    have hsa : |(s : ℚ)| = 1 := by rcases hs with rfl | rfl <;> norm_num
    have hsi : |s| = 1 := by rcases hs with rfl | rfl <;> norm_num
    have hdist : ∀ z : ℚ, |s * z - q| = |z - (|q|)| := by
      intro z
      conv_lhs => rw [hs1]
      rw [← mul_sub, abs_mul, hsa, one_mul]
    obtain ⟨b1, b2, -⟩ := mantExp_spec |q| hp
    refine ⟨⟨s * (mantExp |q|).1, (mantExp |q|).2 - 6, ?_, ?_⟩, ?_, ?_⟩
    · rw [abs_mul, hsi, one_mul, Nat.abs_cast]
      exact_mod_cast b2
    · rw [hs2]
      push_cast
      ring
    · rintro x ⟨m, k, hm, rfl⟩
      rw [hs2, hdist]
      have : (m : ℚ) * 10 ^ k = s * (((s * m : ℤ) : ℚ) * 10 ^ k) := by
        push_cast
        linear_combination -(m : ℚ) * 10 ^ k * hss
      rw [this, hdist]
      exact mant_nearest |q| hp _ _ (by rw [abs_mul, hsi, one_mul]; exact hm)
    · intro m k h1 h2 h3 h4
      rw [hs2] at h3
      have hpk : (0 : ℚ) < 10 ^ k := zpow_pos (by norm_num) _
      have hval : ((mantExp |q|).1 : ℚ) * 10 ^ ((mantExp |q|).2 - 6) = ((s * m).natAbs : ℚ) * 10 ^ ((k + 6) - 6) := by
        have hv : ((mantExp |q|).1 : ℚ) * 10 ^ ((mantExp |q|).2 - 6) = ((s * m : ℤ) : ℚ) * 10 ^ k := by
          push_cast
          linear_combination (s : ℚ) * h3 - (((mantExp |q|).1 : ℚ) * 10 ^ ((mantExp |q|).2 - 6)) * hss
        have h0 : 0 ≤ s * m := by
          have : (0 : ℚ) ≤ ((s * m : ℤ) : ℚ) * 10 ^ k := by
            rw [← hv]
            exact mul_nonneg (Nat.cast_nonneg _) (zpow_pos (by norm_num) _).le
          have := nonneg_of_mul_nonneg_left this hpk
          exact_mod_cast this
        rw [hv, show (k + 6) - 6 = k by ring]
        congr 1
        have : (((s * m).natAbs : ℕ) : ℤ) = s * m := Int.natAbs_of_nonneg h0
        have h5 := (congrArg (Int.cast (R := ℚ)) this).symm
        rw [Int.cast_natCast] at h5
        exact h5
      have habs : ((s * m).natAbs : ℤ) = |m| := by rw [Int.natCast_natAbs, abs_mul, hsi, one_mul]
      have f1 := mantExp_fixed (mantExp |q|).1 (mantExp |q|).2 b1 b2
      rw [hval, mantExp_fixed (s * m).natAbs (k + 6) (by omega) (by omega)] at f1
      have f2 : (s * m).natAbs = (mantExp |q|).1 := congrArg Prod.fst f1
      have f3 : k + 6 = (mantExp |q|).2 := congrArg Prod.snd f1
      have hev : Even ((mantExp |q|).1 : ℤ) := by
        obtain ⟨e, -, -, g3, g4⟩ := mantExp_rounded |q| hp
        rcases g4 with ⟨g4, g5⟩ | ⟨g4, g5⟩
        · rw [g4]
          apply roundEven_even
          rw [hs2, hdist, g3] at h4
          have hk : k = e - 6 := by omega
          have hback : |q| = |q| * 10 ^ (6 - e) * 10 ^ (e - 6) := by
            rw [mul_assoc, ← zpow_add₀ (by norm_num), show (6 - e + (e - 6)) = 0 by ring, zpow_zero, mul_one]
          have e1 : |(roundEven (|q| * 10 ^ (6 - e)) : ℚ) * 10 ^ (e - 6) - (|q|)| =
              |(roundEven (|q| * 10 ^ (6 - e)) : ℚ) - |q| * 10 ^ (6 - e)| * 10 ^ (e - 6) := by
            conv_rhs => rw [← abs_of_pos (show (0 : ℚ) < 10 ^ (e - 6) from zpow_pos (by norm_num) _)]
            rw [← abs_mul]
            congr 1
            linear_combination -hback
          rw [e1, hk] at h4
          have hpe : (0 : ℚ) < 10 ^ (e - 6) := zpow_pos (by norm_num) _
          have := mul_right_cancel₀ hpe.ne' (h4.trans (show (10 : ℚ) ^ (e - 6) / 2 = 1 / 2 * 10 ^ (e - 6) by ring))
          exact this
        · rw [g4]
          decide
      rw [← f2, habs] at hev
      exact (even_abs).1 hev

/-- **C32.** Integers are sent and read back exactly. -/
theorem C32_int (n : ℤ) : pyInt (fmtInt n) = .ok n := by
  unfold pyInt fmtInt
  have hdig := digitsText_dig 1 n.natAbs
  have hne := digitsText_ne_nil 1 n.natAbs (by norm_num)
  have hval := digitsText_val 1 n.natAbs
  set d := digitsText 1 n.natAbs
  have hall : ∀ c ∈ ((if n < 0 then ['-'] else []) ++ d : Str), c ≠ ' ' ∧ c ≠ '\t' ∧ c ≠ '\n' ∧ c ≠ '\r' := by
    intro c hc
    rcases List.mem_append.1 hc with hc | hc
    · split at hc
      · rw [List.mem_singleton] at hc; subst hc; decide
      · simp at hc
    · have h := isDig_not (hdig c hc)
      exact ⟨h.1, h.2.1, h.2.2.1, h.2.2.2.1⟩
  have hs : sign ((if n < 0 then ['-'] else []) ++ d) = (decide (n < 0), d) := by
    by_cases h : n < 0
    · simp [h, sign]
    · simp only [h, if_false, List.nil_append, decide_false]
      apply sign_dig
      intro c hc
      have h := isDig_not (hdig c (List.mem_of_mem_head? hc))
      exact ⟨h.2.2.2.2.1, h.2.2.2.2.2.1⟩
  rw [strip_id _ hall, hs]
  simp only
  rw [if_pos ⟨hne, List.all_eq_true.2 hdig⟩, hval]
  by_cases h : n < 0
  · simp only [h, decide_true, if_true]; congr 1; omega
  · simp only [h, decide_false, Bool.false_eq_true, if_false]; congr 1; omega

example : String.ofList (fmtE6 (-(123456789 / 100000000000000))) = "-1.234568E-06" ∧
    String.ofList (fmtE6 (99999999 / 10)) = "1.000000E+07" ∧
    pyFloat " 4.7E3 ".toList = .ok 4700 ∧ pyFloat "x".toList = .error .valueError := by decide +kernel

/-- Halfway between two numbers with seven digits. -/
example : String.ofList (fmtE6 (10000005 / 10000000)) = "1.000000E+00" ∧ String.ofList (fmtE6 (-10000015 / 10000000)) = "-1.000002E+00" ∧
    |(1000002 : ℚ) * 10 ^ (-6 : ℤ) - 10000015 / 10000000| = 10 ^ (-6 : ℤ) / 2 := by decide +kernel

end Verif.Props.Decimal
