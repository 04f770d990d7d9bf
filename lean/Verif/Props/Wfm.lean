import Verif.Model.Wfm
import Verif.Props.WaveDecode
import Mathlib.Data.Nat.Digits.Defs

/-!
C36: validation of waveform files.
-/

namespace Verif.Props.Wfm

open Verif Verif.Scpi Verif.Wave Verif.Wfm Verif.Props.Wave

/-! ### Specification of the fields -/

/-- The `n` bytes at `o` are the number `v`, the lowest byte first. -/
def At (data : List UInt8) (o n v : ℕ) : Prop := (data.drop o).take n = leBytes n v ∧ v < 256 ^ n

/-- The two's complement number of four bytes. -/
def IntAt (data : List UInt8) (o : ℕ) (z : ℤ) : Prop :=
  -2 ^ 31 ≤ z ∧ z < 2 ^ 31 ∧ At data o 4 (if 0 ≤ z then z else z + 2 ^ 32).toNat

/-- The finite double `q`: sign, exponent and fraction. -/
def DoubleAt (data : List UInt8) (o : ℕ) (q : ℚ) : Prop :=
  ∃ s e m : ℕ, s < 2 ∧ e < 2047 ∧ m < 2 ^ 52 ∧ At data o 8 (s * 2 ^ 63 + e * 2 ^ 52 + m) ∧
    q = (-1) ^ s * (if e = 0 then (m : ℚ) * 2 ^ (-1074 : ℤ) else (1 + (m : ℚ) / 2 ^ 52) * 2 ^ ((e : ℤ) - 1023))

theorem word_unsigned (bs : List UInt8) : word false false bs = ((bs.foldr (fun b a => b.toNat + 256 * a) 0 : ℕ) : ℤ) := by
  simp [word]

theorem uN_eq (n : ℕ) (data : List UInt8) (o : ℕ) :
    uN n data o = ((data.drop o).take n).foldr (fun b a => b.toNat + 256 * a) 0 := by
  unfold uN
  rw [word_unsigned, Int.toNat_natCast]

theorem uN_at (data : List UInt8) (o n v : ℕ) (h : At data o n v) : uN n data o = v := by
  rw [uN_eq, h.1, leBytes_value, Nat.mod_eq_of_lt h.2]

theorem leBytes_of (bs : List UInt8) : leBytes bs.length (bs.foldr (fun b a => b.toNat + 256 * a) 0) = bs := by
  induction bs with
  | nil => rfl
  | cons b bs ih =>
    have hb : b.toNat < 256 := b.toNat_lt
    simp only [List.length_cons, leBytes, List.foldr_cons]
    rw [Nat.add_mul_mod_self_left, Nat.mod_eq_of_lt hb, Nat.add_mul_div_left _ _ (by norm_num : 0 < 256),
      Nat.div_eq_of_lt hb, Nat.zero_add, ih]
    congr 1
    exact UInt8.ofNat_toNat

theorem fold_lt (bs : List UInt8) : bs.foldr (fun b a => b.toNat + 256 * a) 0 < 256 ^ bs.length := by
  induction bs with
  | nil => simp
  | cons b bs ih =>
    have hb : b.toNat < 256 := b.toNat_lt
    simp only [List.foldr_cons, List.length_cons, pow_succ]
    omega

theorem at_uN (data : List UInt8) (o n : ℕ) (h : o + n ≤ data.length) : At data o n (uN n data o) := by
  have hl : ((data.drop o).take n).length = n := by simp; omega
  rw [uN_eq]
  constructor
  · have := leBytes_of ((data.drop o).take n)
    rw [hl] at this
    exact this.symm
  · have := fold_lt ((data.drop o).take n)
    rwa [hl] at this

theorem at_iff (data : List UInt8) (o n v : ℕ) (h : o + n ≤ data.length) : At data o n v ↔ uN n data o = v := by
  constructor
  · exact uN_at data o n v
  · rintro rfl; exact at_uN data o n h

theorem s32_at (data : List UInt8) (o : ℕ) (z : ℤ) (h : IntAt data o z) : s32 data o = z := by
  obtain ⟨h1, h2, h3⟩ := h
  have e : encode false 4 z = leBytes 4 (if 0 ≤ z then z else z + 2 ^ 32).toNat := by
    unfold encode
    simp only [Bool.false_eq_true, if_false]
    congr 2
    split
    · rw [Int.emod_eq_of_lt (by assumption) (by norm_num; omega)]
    · rw [← Int.add_emod_right, Int.emod_eq_of_lt (by norm_num; omega) (by norm_num; omega)]
  unfold s32
  rw [h3.1, ← e]
  exact word_encode false true 4 (by norm_num) z (by unfold Fits; simp; omega)

theorem s32_range (data : List UInt8) (o : ℕ) (h : o + 4 ≤ data.length) : -2 ^ 31 ≤ s32 data o ∧ s32 data o < 2 ^ 31 := by
  have hl : ((data.drop o).take 4).length = 4 := by simp; omega
  have hf := fold_lt ((data.drop o).take 4)
  unfold s32 word
  rw [hl] at hf ⊢
  simp only [Bool.false_eq_true, if_false, true_and]
  generalize ((data.drop o).take 4).foldr (fun b a => b.toNat + 256 * a) 0 = v at hf
  norm_num at hf ⊢
  split <;> omega

theorem dbl_at (data : List UInt8) (o : ℕ) (q : ℚ) (h : DoubleAt data o q) : dbl data o = .fin q := by
  obtain ⟨s, e, m, hs, he, hm, ha, hq⟩ := h
  have hv := uN_at _ _ _ _ ha
  unfold dbl
  simp only [hv]
  have e1 : (s * 2 ^ 63 + e * 2 ^ 52 + m) / 2 ^ 52 = s * 2 ^ 11 + e := by
    norm_num at hm ⊢; omega
  have e2 : (s * 2 ^ 63 + e * 2 ^ 52 + m) % 2 ^ 52 = m := by
    norm_num at hm ⊢; omega
  have e3 : (s * 2 ^ 63 + e * 2 ^ 52 + m) / 2 ^ 63 % 2 = s := by
    norm_num at hm ⊢; omega
  have e4 : (s * 2 ^ 11 + e) % 2 ^ 11 = e := by
    clear e1 e2 e3 hv ha hq hm; omega
  rw [e1, e2, e3, e4, if_neg (by clear e1 e2 e3 e4 hv ha hq hm; omega)]
  congr 1
  rw [hq]
  have key : (if e = 0 then (m : ℚ) * 2 ^ (-1074 : ℤ) else (2 ^ 52 + (m : ℚ)) * 2 ^ ((e : ℤ) - 1075)) =
      (if e = 0 then (m : ℚ) * 2 ^ (-1074 : ℤ) else (1 + (m : ℚ) / 2 ^ 52) * 2 ^ ((e : ℤ) - 1023)) := by
    split
    · rfl
    · rw [show (e : ℤ) - 1023 = ((e : ℤ) - 1075) + 52 by ring, zpow_add₀ (by norm_num)]
      norm_num
      ring
  rw [key]
  have : s = 0 ∨ s = 1 := by clear e1 e2 e3 e4 hv ha hq hm key; omega
  rcases this with rfl | rfl
  · rw [if_neg (by norm_num), pow_zero, one_mul]
  · rw [if_pos rfl, pow_one, neg_one_mul]

/-! ### Which errors there can be -/

/-- The only error is ValueError. -/
def OnlyVE {α : Type} (x : Except PyErr α) : Prop := ∀ e, x = .error e → e = .valueError

theorem ve_bind {α β : Type} (x : Except PyErr α) (f : α → Except PyErr β) (hx : OnlyVE x)
    (hf : ∀ a, x = .ok a → OnlyVE (f a)) : OnlyVE (x >>= f) := by
  intro e he
  cases x with
  | error e' => cases he; exact hx e rfl
  | ok a => exact hf a rfl e he

theorem ve_ok {α : Type} (a : α) : OnlyVE (Except.ok a : Except PyErr α) := by
  intro e h; cases h

theorem ve_error {α : Type} : OnlyVE (Except.error .valueError : Except PyErr α) := by
  intro e h; cases h; rfl

theorem ve_ite {α : Type} (c : Prop) [Decidable c] (x y : Except PyErr α) (hx : OnlyVE x) (hy : OnlyVE y) :
    OnlyVE (if c then x else y) := by
  split
  · exact hx
  · exact hy

theorem ve_start (data : List UInt8) : OnlyVE (checkStart data) := by
  unfold checkStart
  exact ve_ite _ _ _ ve_error (ve_ite _ _ _ ve_error (ve_ite _ _ _ ve_error (ve_ok _)))

theorem ve_text (dec : List UInt8 → Option Str) (data : List UInt8) (o n : ℕ) : OnlyVE (Wfm.text dec data o n) := by
  unfold Wfm.text
  split
  · exact ve_ok _
  · exact ve_error

theorem ve_dims (data : List UInt8) : OnlyVE (checkDims data) := by
  unfold checkDims; exact ve_ite _ _ _ ve_error (ve_ok _)

theorem ve_storage (data : List UInt8) : OnlyVE (checkStorage data) := by
  unfold checkStorage; exact ve_ite _ _ _ ve_error (ve_ok _)

theorem ve_format (data : List UInt8) : OnlyVE (checkFormat data) := by
  unfold checkFormat
  split
  · exact ve_error
  · exact ve_ite _ _ _ ve_error (ve_ok _)

theorem ve_sum (data : List UInt8) : OnlyVE (checkSum data) := by
  unfold checkSum; exact ve_ite _ _ _ ve_error (ve_ite _ _ _ ve_error (ve_ok _))

theorem ve_buffer (h : Head) (data : List UInt8) : OnlyVE (h.buffer data) := by
  have hf : ∀ a b c d, OnlyVE (fromBuffer a b c d) := by
    intro a b c d; unfold fromBuffer; exact ve_ite _ _ _ (ve_ok _) ve_error
  unfold Head.buffer
  exact ve_ite _ _ _ ve_error (ve_ite _ _ _ (hf _ _ _ _) (ve_ite _ _ _ ve_error (hf _ _ _ _)))

theorem ve_noisy (h : Head) (noise : Bool) (codes : List ℤ) (u : ℕ → ℚ) : OnlyVE (h.noisy noise codes u) := by
  unfold Head.noisy; exact ve_ite _ _ _ (ve_ite _ _ _ ve_error (ve_ok _)) (ve_ok _)

theorem ve_split {α : Type} (y : List α) (n : ℕ) : OnlyVE (splitEqual y n) := by
  unfold splitEqual; exact ve_ite _ _ _ ve_error (ve_ok _)

theorem ve_rect (fs : List Frame) : OnlyVE (rectangular fs) := by
  unfold rectangular
  split
  · exact ve_ok _
  · exact ve_ite _ _ _ (ve_ok _) ve_error

theorem ve_mapM {α β : Type} (f : α → Except PyErr β) (l : List α) (h : ∀ a ∈ l, OnlyVE (f a)) : OnlyVE (l.mapM f) := by
  induction l with
  | nil => rw [List.mapM_nil]; exact ve_ok _
  | cons a l ih =>
    rw [List.mapM_cons]
    exact ve_bind _ _ (h a (by simp)) (fun b _ => ve_bind _ _ (ih fun x hx => h x (by simp [hx])) (fun c _ => ve_ok _))

/-- The seconds can be converted by the platform: finite, and of an absolute value up to 10^16 (three hundred million
years). -/
def Tame (d : Dbl) : Prop := d = .nan ∨ ∃ q, d = .fin q ∧ |q| ≤ 10 ^ 16

theorem roundEven_near (q : ℚ) : |(roundEven q : ℚ) - q| ≤ 1 / 2 := by
  unfold roundEven
  have h1 := Int.floor_le q
  have h2 := Int.lt_floor_add_one q
  have hfl : q.floor = ⌊q⌋ := rfl
  simp only [hfl]
  split_ifs <;> push_cast <;> rw [abs_le] <;> constructor <;> linarith

theorem roundEven_even (q : ℚ) (h : |(roundEven q : ℚ) - q| = 1 / 2) : Even (roundEven q) := by
  have h1 := Int.floor_le q
  have h2 := Int.lt_floor_add_one q
  have hfl : q.floor = ⌊q⌋ := rfl
  revert h
  unfold roundEven
  simp only [hfl]
  split_ifs with c1 c2 c3
  · intro h
    rw [abs_of_nonpos (by linarith)] at h
    linarith
  · intro h
    push_cast at h
    rw [abs_of_nonneg (by linarith)] at h
    linarith
  · intro _
    exact Int.even_iff.2 c3
  · intro _
    rw [Int.even_iff]
    omega

theorem ve_time (sec : ℤ) (d : Dbl) (hs : -2 ^ 31 ≤ sec ∧ sec < 2 ^ 31) (hd : Tame d) : OnlyVE (timestamp sec d) := by
  rcases hd with rfl | ⟨q, rfl, hq⟩
  · exact ve_error
  · unfold timestamp
    have h1 := roundEven_near ((sec + q) * 1000000)
    rw [abs_le] at hq h1
    simp only
    generalize roundEven ((sec + q) * 1000000) = us at h1
    have hsec : (-2 ^ 31 : ℚ) ≤ sec ∧ (sec : ℚ) < 2 ^ 31 := ⟨by exact_mod_cast hs.1, by exact_mod_cast hs.2⟩
    have hlo : (-(10 ^ 16 + 2 ^ 31 + 1) * 1000000 : ℤ) ≤ us := by
      have : (-(10 ^ 16 + 2 ^ 31 + 1) * 1000000 : ℚ) ≤ us := by nlinarith [hq.1, hsec.1, h1.1]
      exact_mod_cast this
    have hhi : us ≤ (10 ^ 16 + 2 ^ 31 + 1) * 1000000 := by
      have : (us : ℚ) ≤ (10 ^ 16 + 2 ^ 31 + 1) * 1000000 := by nlinarith [hq.2, hsec.2, h1.2]
      exact_mod_cast this
    rw [if_neg (by norm_num at hlo hhi ⊢; omega), if_neg (by norm_num at hlo hhi ⊢; omega)]
    exact ve_ite _ _ _ ve_error (ve_ok _)

/-- **C36**, the trigger times that are no dates: which error there is for a time (seconds since 1970), away from the limits by at least a microsecond.
In the years 1 to 9999 there is none. -/
theorem C36_time_limits (sec : ℤ) (q t : ℚ) (ht : t = sec + q) :
    (2 ^ 63 ≤ t ∨ t ≤ -2 ^ 63 - 1 / 10 ^ 6 → timestamp sec (.fin q) = .error .arithmeticError) ∧
    (2 ^ 31 * 31556952 ≤ t ∧ t ≤ 2 ^ 63 - 1 / 10 ^ 6 ∨ -2 ^ 63 ≤ t ∧ t ≤ -(2 ^ 31 * 31556952) - 1 / 10 ^ 6 →
      timestamp sec (.fin q) = .error .osError) ∧
    (253402300800 ≤ t ∧ t ≤ 2 ^ 31 * 31556952 - 1 / 10 ^ 6 ∨ -(2 ^ 31 * 31556952) ≤ t ∧ t ≤ -62135596800 - 1 / 10 ^ 6 →
      timestamp sec (.fin q) = .error .valueError) ∧
    (-62135596800 ≤ t ∧ t ≤ 253402300800 - 1 / 10 ^ 6 → ∃ us, timestamp sec (.fin q) = .ok us) := by
  subst ht
  unfold timestamp
  have h1 := roundEven_near ((sec + q) * 1000000)
  rw [abs_le] at h1
  simp only
  generalize roundEven ((sec + q) * 1000000) = us at h1
  have up : ∀ z : ℤ, (z : ℚ) ≤ sec + q → z ≤ us / 1000000 := by
    intro z hz
    have : ((z * 1000000 - 1 : ℤ) : ℚ) < us := by push_cast; linarith
    have : z * 1000000 - 1 < us := by exact_mod_cast this
    omega
  have dn : ∀ z : ℤ, sec + q ≤ (z : ℚ) - 1 / 10 ^ 6 → us / 1000000 < z := by
    intro z hz
    have : (us : ℚ) < ((z * 1000000 : ℤ) : ℚ) := by push_cast; linarith
    have : us < z * 1000000 := by exact_mod_cast this
    omega
  refine ⟨?_, ?_, ?_, ?_⟩
  · rintro (h | h)
    · rw [if_pos (.inr (up _ (by norm_num at h ⊢; exact h)))]
    · rw [if_pos (.inl (dn _ (by norm_num at h ⊢; exact h)))]
  · rintro (⟨h, h'⟩ | ⟨h, h'⟩)
    · have a := up (2 ^ 31 * 31556952) (by norm_num at h ⊢; exact h)
      have b := dn (2 ^ 63) (by norm_num at h' ⊢; exact h')
      rw [if_neg (by norm_num at a b ⊢; omega), if_pos (.inr a)]
    · have a := up (-2 ^ 63) (by norm_num at h ⊢; exact h)
      have b := dn (-(2 ^ 31 * 31556952)) (by norm_num at h' ⊢; exact h')
      rw [if_neg (by norm_num at a b ⊢; omega), if_pos (.inl b)]
  · rintro (⟨h, h'⟩ | ⟨h, h'⟩)
    · have a := up 253402300800 (by norm_num at h ⊢; exact h)
      have b := dn (2 ^ 31 * 31556952) (by norm_num at h' ⊢; exact h')
      rw [if_neg (by norm_num at a b ⊢; omega), if_neg (by norm_num at a b ⊢; omega), if_pos (.inr a)]
    · have a := up (-(2 ^ 31 * 31556952)) (by norm_num at h ⊢; exact h)
      have b := dn (-62135596800) (by norm_num at h' ⊢; exact h')
      rw [if_neg (by norm_num at a b ⊢; omega), if_neg (by norm_num at a b ⊢; omega), if_pos (.inl b)]
  · rintro ⟨h, h'⟩
    have a := up (-62135596800) (by norm_num at h ⊢; exact h)
    have b := dn 253402300800 (by norm_num at h' ⊢; exact h')
    rw [if_neg (by norm_num at a b ⊢; omega), if_neg (by norm_num at a b ⊢; omega), if_neg (by norm_num at a b ⊢; omega)]
    exact ⟨_, rfl⟩

/-- One time for each of the cases of `C36_time_limits`; the last one is in 2023. -/
example : (2 : ℚ) ^ 63 ≤ 0 + 10 ^ 20 ∧ ((2 : ℚ) ^ 31 * 31556952 ≤ 0 + 10 ^ 18 ∧ (0 : ℚ) + 10 ^ 18 ≤ 2 ^ 63 - 1 / 10 ^ 6) ∧
    (-(2 ^ 31 * 31556952) ≤ (5 : ℚ) - 10 ^ 15 ∧ (5 : ℚ) - 10 ^ 15 ≤ -62135596800 - 1 / 10 ^ 6) ∧
    (-62135596800 ≤ (1700000000 : ℚ) + 1 / 4 ∧ (1700000000 : ℚ) + 1 / 4 ≤ 253402300800 - 1 / 10 ^ 6) := by norm_num

/-! ### C36 -/

theorem head_ve (dec : List UInt8 → Option Str) (data : List UInt8)
    (ht : 0x328 ≤ data.length → Tame (dbl data 0x31C)) : OnlyVE (head dec data) := by
  unfold head
  refine ve_bind _ _ (ve_start _) fun a ha => ?_
  have hlen : 0x346 ≤ data.length := by
    unfold checkStart at ha
    by_contra hc
    rw [if_pos (by unfold lenHeader; omega)] at ha
    cases ha
  refine ve_bind _ _ (ve_text _ _ _ _) fun _ _ => ve_bind _ _ (ve_dims _) fun _ _ => ve_bind _ _ (ve_text _ _ _ _) fun _ _ =>
    ve_bind _ _ (ve_storage _) fun _ _ => ve_bind _ _ (ve_text _ _ _ _) fun _ _ =>
    ve_bind _ _ (ve_time _ _ (s32_range _ _ (by omega)) (ht (by omega))) fun _ _ =>
    ve_bind _ _ (ve_format _) fun _ _ => ve_bind _ _ (ve_sum _) fun _ _ => ve_ok _

/-- What a successful check of the header means. -/
structure HeadOk (data : List UInt8) : Prop where
  length : 0x346 ≤ data.length
  start : data.take 2 = [0x0F, 0x0F]
  version : intBytes ((data.drop 0x007).take 3) = some 3
  dims : u32 data 0x072 = 1 ∧ u32 data 0x076 = 1 ∧ u32 data 0x07A = 2
  storage : u32 data 0x0F4 = 0
  time : ∃ t, timestamp (s32 data 0x324) (dbl data 0x31C) = .ok t
  format : ∃ f, formats (u32 data 0x0F0) = some f ∧ (f.2.1 : ℤ) = s8 data 0x00F * 8
  long : lenExpected data ≤ data.length
  sum : byteSum (data.take (lenExpected data - 8)) = uN 8 data (lenExpected data - 8)

theorem ok_bind {α β : Type} {x : Except PyErr α} {f : α → Except PyErr β} {b : β} (h : x >>= f = .ok b) :
    ∃ a, x = .ok a ∧ f a = .ok b := by
  cases x with
  | error e => cases h
  | ok a => exact ⟨a, rfl, h⟩

theorem head_ok (dec : List UInt8 → Option Str) (data : List UInt8) (h : Head) (hh : head dec data = .ok h) : HeadOk data := by
  unfold head at hh
  obtain ⟨_, h1, hh⟩ := ok_bind hh
  obtain ⟨_, -, hh⟩ := ok_bind hh
  obtain ⟨_, h2, hh⟩ := ok_bind hh
  obtain ⟨_, -, hh⟩ := ok_bind hh
  obtain ⟨_, h3, hh⟩ := ok_bind hh
  obtain ⟨_, -, hh⟩ := ok_bind hh
  obtain ⟨t, h4, hh⟩ := ok_bind hh
  obtain ⟨f, h5, hh⟩ := ok_bind hh
  obtain ⟨_, h6, hh⟩ := ok_bind hh
  unfold checkStart at h1
  unfold checkDims at h2
  unfold checkStorage at h3
  unfold checkFormat at h5
  unfold checkSum at h6
  split at h1
  · cases h1
  rename_i a1
  split at h1
  · cases h1
  rename_i a2
  split at h1
  · cases h1
  rename_i a3
  split at h2
  · cases h2
  rename_i a4
  split at h3
  · cases h3
  rename_i a5
  simp only at h6
  split at h6
  · cases h6
  rename_i a6
  split at h6
  · cases h6
  rename_i a7
  push Not at a1 a2 a3 a4 a5 a6 a7
  split at h5
  · cases h5
  rename_i f' hf'
  split at h5
  · cases h5
  rename_i a8
  push Not at a8
  exact ⟨a1, a2, a3, a4, a5, ⟨t, h4⟩, ⟨f', hf', a8⟩, a6, a7⟩

theorem parse_head (dec : List UInt8 → Option Str) (data : List UInt8) (raw noise prepost : Bool) (u : ℕ → ℚ)
    (h : ∀ x, head dec data ≠ .ok x) (hve : OnlyVE (head dec data)) :
    parseWfm dec data raw noise prepost u = .error .valueError := by
  unfold parseWfm
  cases e : head dec data with
  | ok x => exact absurd e (h x)
  | error e' => rw [hve e' e]; rfl

/-- The number of bytes that the format of the samples has, if it is a supported one. -/
def widthOf : ℕ → Option ℕ
  | 0 => some 2
  | 1 => some 4
  | 2 => some 4
  | 3 => some 8
  | 6 => some 1
  | 7 => some 1
  | _ => none

/-- The ways in which a file is not a waveform file of the supported kind: too short, start marker, version (three digits other
than 003), dimensions, storage type, format, width of the format, length, checksum. -/
def Bad (data : List UInt8) : Prop :=
  data.length < 0x346 ∨
  ¬ At data 0 2 0x0F0F ∨
  (∃ a b c : UInt8, (data.drop 7).take 3 = [a, b, c] ∧ 48 ≤ a ∧ a ≤ 57 ∧ 48 ≤ b ∧ b ≤ 57 ∧ 48 ≤ c ∧ c ≤ 57 ∧
    ¬ (a = 48 ∧ b = 48 ∧ c = 51)) ∨
  ¬ At data 0x72 4 1 ∨ ¬ At data 0x76 4 1 ∨ ¬ At data 0x7A 4 2 ∨
  ¬ At data 0xF4 4 0 ∨
  (∃ f, At data 0xF0 4 f ∧ widthOf f = none) ∨
  (∃ f w, At data 0xF0 4 f ∧ widthOf f = some w ∧ ¬ At data 0x0F 1 w) ∨
  (∃ n e, At data 0x48 4 n ∧ At data 0x342 4 e ∧
    (data.length < 0x346 + 54 * n + e * (n + 1) + 8 ∨
     ¬ At data (0x346 + 54 * n + e * (n + 1)) 8 ((data.take (0x346 + 54 * n + e * (n + 1))).map UInt8.toNat).sum))

theorem widthOf_formats (f : ℕ) : widthOf f = (formats f).map fun x => x.2.1 / 8 := by
  unfold widthOf formats
  split <;> simp

theorem formats_bits (f : ℕ) (x) (h : formats f = some x) : x.2.1 = 8 ∨ x.2.1 = 16 ∨ x.2.1 = 32 ∨ x.2.1 = 64 := by
  unfold formats at h
  split at h
  all_goals first
    | (simp only [Option.some.injEq] at h; subst h; simp)
    | cases h

theorem digits_version (a b c : UInt8) (ha : 48 ≤ a ∧ a ≤ 57) (hb : 48 ≤ b ∧ b ≤ 57) (hc : 48 ≤ c ∧ c ≤ 57)
    (h : intBytes [a, b, c] = some 3) : a = 48 ∧ b = 48 ∧ c = 51 := by
  have hns : ∀ x : UInt8, 48 ≤ x ∧ x ≤ 57 → isSpace x = false ∧ x ≠ 43 ∧ x ≠ 45 := by
    have key : ∀ n : Fin 256, 48 ≤ UInt8.ofNat n ∧ UInt8.ofNat n ≤ 57 →
        isSpace (UInt8.ofNat n) = false ∧ UInt8.ofNat n ≠ 43 ∧ UInt8.ofNat n ≠ 45 := by decide +kernel
    intro x
    have := key ⟨x.toNat, x.toNat_lt⟩
    simpa using this
  obtain ⟨a1, a2, a3⟩ := hns a ha
  obtain ⟨c1, -, -⟩ := hns c hc
  have e : ((([a, b, c].dropWhile isSpace).reverse.dropWhile isSpace).reverse) = [a, b, c] := by simp [a1, c1]
  unfold intBytes at h
  rw [e] at h
  simp only at h
  split at h
  · rename_i r er; simp only [List.cons.injEq] at er; exact absurd er.1 a2
  · rename_i r er; simp only [List.cons.injEq] at er; exact absurd er.1 a3
  · simp only [digitsOf, ha, hb, hc, and_self, if_true, Option.getD_none, Option.getD_some, Bool.false_eq_true, if_false,
      Option.map_some, Option.some.injEq] at h
    have hA : 48 ≤ a.toNat := ha.1
    have hB : 48 ≤ b.toNat := hb.1
    have hC : 48 ≤ c.toNat := hc.1
    have : a.toNat = 48 ∧ b.toNat = 48 ∧ c.toNat = 51 := by omega
    exact ⟨UInt8.toNat_inj.1 this.1, UInt8.toNat_inj.1 this.2.1, UInt8.toNat_inj.1 this.2.2⟩

theorem bad_head (dec : List UInt8 → Option Str) (data : List UInt8) (h : Bad data) : ∀ x, head dec data ≠ .ok x := by
  intro x hx
  have ok := head_ok dec data x hx
  have hl := ok.length
  rcases h with h | h | h | h | h | h | h | h | h | h
  · omega
  · exact h ⟨by rw [List.drop_zero, ok.start]; rfl, by norm_num⟩
  · obtain ⟨a, b, c, e, a1, a2, b1, b2, c1, c2, hn⟩ := h
    have := ok.version
    rw [e] at this
    exact hn (digits_version a b c ⟨a1, a2⟩ ⟨b1, b2⟩ ⟨c1, c2⟩ this)
  · exact h ((at_iff _ _ _ _ (by omega)).2 ok.dims.1)
  · exact h ((at_iff _ _ _ _ (by omega)).2 ok.dims.2.1)
  · exact h ((at_iff _ _ _ _ (by omega)).2 ok.dims.2.2)
  · exact h ((at_iff _ _ _ _ (by omega)).2 ok.storage)
  · obtain ⟨f, hf, hw⟩ := h
    obtain ⟨g, hg, -⟩ := ok.format
    rw [show u32 data 0xF0 = f from uN_at _ _ _ _ hf] at hg
    rw [widthOf_formats, hg] at hw
    cases hw
  · obtain ⟨f, w, hf, hw, hn⟩ := h
    obtain ⟨g, hg, hb⟩ := ok.format
    rw [show u32 data 0xF0 = f from uN_at _ _ _ _ hf] at hg
    rw [widthOf_formats, hg] at hw
    simp only [Option.map_some, Option.some.injEq] at hw
    apply hn
    rw [at_iff _ _ _ _ (by omega)]
    have hbits := formats_bits f g hg
    have hlt : ((data.drop 0x0F).take 1).length = 1 := by simp; omega
    unfold s8 word at hb
    rw [uN_eq]
    rw [hlt] at hb
    have hfl := fold_lt ((data.drop 0x0F).take 1)
    rw [hlt] at hfl
    simp only [Bool.false_eq_true, if_false, true_and] at hb
    generalize ((data.drop 0x0F).take 1).foldr (fun b a => b.toNat + 256 * a) 0 = v at hb hfl ⊢
    norm_num at hb
    split at hb <;> omega
  · obtain ⟨n, e, hn, he, h⟩ := h
    have e1 : u32 data 0x48 = n := uN_at _ _ _ _ hn
    have e2 : u32 data 0x342 = e := uN_at _ _ _ _ he
    have h1 := ok.long
    have h2 := ok.sum
    unfold lenExpected lenHeader at h1 h2
    rw [e1, e2] at h1 h2
    simp only [Nat.add_sub_cancel] at h2
    rcases h with h | h
    · omega
    · apply h
      rw [at_iff _ _ _ _ (by omega)]
      exact h2.symm

/-- **C36, part 1** (partial: a time of the trigger beyond what the platform can convert is an OverflowError or OSError,
`C36_time_fails`).  Files that are too short or have a wrong start marker, version, dimension, format, width, length or checksum
are rejected with ValueError. -/
theorem C36_rejects_partial (dec : List UInt8 → Option Str) (data : List UInt8) (raw noise prepost : Bool) (u : ℕ → ℚ)
    (h : Bad data) (ht : 0x328 ≤ data.length → Tame (dbl data 0x31C)) :
    parseWfm dec data raw noise prepost u = .error .valueError :=
  parse_head dec data raw noise prepost u (bad_head dec data h) (head_ve dec data ht)

/-- C36, part 1 without the condition on the time: rejected, with some error. -/
theorem C36_rejects (dec : List UInt8 → Option Str) (data : List UInt8) (raw noise prepost : Bool) (u : ℕ → ℚ)
    (h : Bad data) : ∃ e, parseWfm dec data raw noise prepost u = .error e := by
  unfold parseWfm
  cases e : head dec data with
  | ok x => exact absurd e (bad_head dec data h x)
  | error e' => exact ⟨e', rfl⟩

/-- C36: every error is a ValueError when the times of all frames can be converted. -/
theorem C36_only_value_error_partial (dec : List UInt8 → Option Str) (data : List UInt8) (raw noise prepost : Bool) (u : ℕ → ℚ)
    (ht : 0x328 ≤ data.length → Tame (dbl data 0x31C))
    (hf : ∀ n i, At data 0x48 4 n → i < n → 0x346 + i * 24 + 24 ≤ data.length → Tame (dbl data (0x346 + i * 24 + 12)))
    (e : PyErr) (he : parseWfm dec data raw noise prepost u = .error e) : e = .valueError := by
  revert e
  change OnlyVE _
  unfold parseWfm
  refine ve_bind _ _ (head_ve dec data ht) fun h hh => ?_
  have ok := head_ok dec data h hh
  have hff : h.ff = u32 data 0x48 := by
    unfold head at hh
    obtain ⟨_, -, hh⟩ := ok_bind hh
    obtain ⟨_, -, hh⟩ := ok_bind hh
    obtain ⟨_, -, hh⟩ := ok_bind hh
    obtain ⟨_, -, hh⟩ := ok_bind hh
    obtain ⟨_, -, hh⟩ := ok_bind hh
    obtain ⟨_, -, hh⟩ := ok_bind hh
    obtain ⟨_, -, hh⟩ := ok_bind hh
    obtain ⟨_, -, hh⟩ := ok_bind hh
    obtain ⟨_, -, hh⟩ := ok_bind hh
    cases hh
    rfl
  have hl := ok.length
  unfold body
  refine ve_bind _ _ (ve_buffer _ _) fun _ _ => ve_bind _ _ (ve_noisy _ _ _ _) fun _ _ => ve_bind _ _ (ve_split _ _) fun _ _ =>
    ve_bind _ _ (ve_mapM _ _ ?_) fun _ _ => ve_bind _ _ (ve_rect _) fun _ _ => ve_ok _
  intro i hi
  have hi' := List.mem_range.1 hi
  have hlong := ok.long
  unfold lenExpected lenHeader at hlong
  have hin : 0x346 + i * 24 + 24 ≤ data.length := by rw [hff] at hi'; omega
  unfold frameHead
  refine ve_bind _ _ (ve_time _ _ (s32_range _ _ (by omega)) ?_) fun _ _ => ve_ok _
  exact hf _ i ((at_iff _ _ _ _ (by omega)).2 rfl) (by rw [hff] at hi'; exact hi') hin

/-! ### One altered byte -/

theorem window_set (data : List UInt8) (o n i : ℕ) (b : UInt8) (h : i < o ∨ o + n ≤ i) :
    ((data.set i b).drop o).take n = (data.drop o).take n := by
  apply List.ext_getElem?
  intro k
  rw [List.getElem?_take, List.getElem?_take, List.getElem?_drop, List.getElem?_drop]
  split
  · rw [List.getElem?_set_ne (by omega)]
  · rfl

theorem uN_set (data : List UInt8) (o n i : ℕ) (b : UInt8) (h : i < o ∨ o + n ≤ i) :
    uN n (data.set i b) o = uN n data o := by
  rw [uN_eq, uN_eq, window_set data o n i b h]

theorem uN_inj (d1 d2 : List UInt8) (o n : ℕ) (h1 : o + n ≤ d1.length) (h2 : o + n ≤ d2.length)
    (h : uN n d1 o = uN n d2 o) : (d1.drop o).take n = (d2.drop o).take n := by
  have a1 := at_uN d1 o n h1
  have a2 := at_uN d2 o n h2
  rw [a1.1, a2.1, h]

theorem byteSum_set (l : List UInt8) (i : ℕ) (b : UInt8) (h : i < l.length) :
    byteSum (l.set i b) + (l[i]).toNat = byteSum l + b.toNat := by
  induction l generalizing i with
  | nil => simp at h
  | cons x l ih =>
    cases i with
    | zero => simp [byteSum]; omega
    | succ i =>
      have := ih i (by simpa using h)
      simp only [List.set_cons_succ, List.getElem_cons_succ, byteSum, List.map_cons, List.sum_cons] at this ⊢
      omega

/-- The fields that determine the length: number of fast frames and length of a frame. -/
def LengthField (i : ℕ) : Prop := (0x48 ≤ i ∧ i < 0x4C) ∨ (0x342 ≤ i ∧ i < 0x346)

theorem lenExpected_set (data : List UInt8) (i : ℕ) (b : UInt8) (h : ¬ LengthField i) :
    lenExpected (data.set i b) = lenExpected data := by
  unfold LengthField at h
  unfold lenExpected u32
  rw [uN_set _ _ _ _ _ (by omega), uN_set _ _ _ _ _ (by omega)]

theorem altered_head (dec : List UInt8 → Option Str) (data : List UInt8) (h : Head) (hh : head dec data = .ok h)
    (i : ℕ) (b : UInt8) (hi : i < lenExpected data) (hb : data[i]? ≠ some b) (hf : ¬ LengthField i) :
    ∀ x, head dec (data.set i b) ≠ .ok x := by
  intro x hx
  have o1 := head_ok dec data h hh
  have o2 := head_ok dec _ x hx
  have s1 := o1.sum
  have s2 := o2.sum
  have hlen := o1.long
  have hilt : i < data.length := by omega
  have hbn : (data[i]).toNat ≠ b.toNat := by
    intro e
    exact hb (by rw [List.getElem?_eq_getElem hilt, UInt8.toNat_inj.1 e])
  rw [lenExpected_set data i b hf] at s2
  have hge : 8 ≤ lenExpected data := by unfold lenExpected; omega
  by_cases hc : i < lenExpected data - 8
  · rw [uN_set _ _ _ _ _ (by omega), ← s1, List.take_set] at s2
    have := byteSum_set (data.take (lenExpected data - 8)) i b (by rw [List.length_take]; omega)
    rw [List.getElem_take] at this
    omega
  · have e : (data.set i b).take (lenExpected data - 8) = data.take (lenExpected data - 8) := by
      rw [List.take_set, List.set_eq_of_length_le (by rw [List.length_take]; omega)]
    rw [e, s1] at s2
    have := uN_inj _ _ _ _ (by omega) (by rw [List.length_set]; omega) s2
    have h2 := congrArg (fun l => l[i - (lenExpected data - 8)]?) this
    rw [List.getElem?_take, List.getElem?_take, if_pos (by omega), if_pos (by omega), List.getElem?_drop,
      List.getElem?_drop, show lenExpected data - 8 + (i - (lenExpected data - 8)) = i by omega,
      List.getElem?_set_self hilt] at h2
    exact hb h2

theorem time_tame (sec : ℤ) (d : Dbl) (t : ℤ) (hs : -2 ^ 31 ≤ sec ∧ sec < 2 ^ 31) (h : timestamp sec d = .ok t) : Tame d := by
  cases d with
  | nan => exact Or.inl rfl
  | inf => cases h
  | fin q =>
    refine Or.inr ⟨q, rfl, ?_⟩
    unfold timestamp at h
    simp only at h
    have h1 := roundEven_near ((sec + q) * 1000000)
    rw [abs_le] at h1
    generalize roundEven ((sec + q) * 1000000) = us at h h1
    split at h
    · cases h
    · split at h
      · cases h
      · split at h
        · cases h
        · rename_i hr
          push Not at hr
          have hsec : (-2 ^ 31 : ℚ) ≤ sec ∧ (sec : ℚ) < 2 ^ 31 := ⟨by exact_mod_cast hs.1, by exact_mod_cast hs.2⟩
          have hlo : (-62135596800 * 1000000 : ℤ) ≤ us := by omega
          have hhi : us ≤ 253402300800 * 1000000 := by omega
          have hlo' : (-62135596800 * 1000000 : ℚ) ≤ us := by exact_mod_cast hlo
          have hhi' : (us : ℚ) ≤ 253402300800 * 1000000 := by exact_mod_cast hhi
          rw [abs_le]
          constructor <;> norm_num at hsec ⊢ <;> linarith [h1.1, h1.2, hsec.1, hsec.2]

theorem parse_ok_head (dec : List UInt8 → Option Str) (data : List UInt8) (raw noise prepost : Bool) (u : ℕ → ℚ) (r)
    (h : parseWfm dec data raw noise prepost u = .ok r) : ∃ x, head dec data = .ok x := by
  unfold parseWfm at h
  obtain ⟨x, hx, -⟩ := ok_bind h
  exact ⟨x, hx⟩

/-- **C36, part 2** (partial).  When a file is accepted, then every file that differs from it in one covered byte (anything up
to and including the checksum) is rejected, except possibly when the byte is in one of the two fields that determine where the checksum is.
The error is a ValueError unless the byte is in the fraction of the trigger time. -/
theorem C36_altered_partial (dec : List UInt8 → Option Str) (data : List UInt8) (raw noise prepost : Bool) (u : ℕ → ℚ) (r)
    (h : parseWfm dec data raw noise prepost u = .ok r) (i : ℕ) (b : UInt8) (nf e : ℕ) (hn : At data 0x48 4 nf)
    (he : At data 0x342 4 e) (hi : i < 0x346 + 54 * nf + e * (nf + 1) + 8) (hb : data[i]? ≠ some b) (hf : ¬ LengthField i)
    (raw' noise' prepost' : Bool) (u' : ℕ → ℚ) :
    (∃ er, parseWfm dec (data.set i b) raw' noise' prepost' u' = .error er) ∧
    (i < 0x31C ∨ 0x324 ≤ i → parseWfm dec (data.set i b) raw' noise' prepost' u' = .error .valueError) := by
  obtain ⟨x, hx⟩ := parse_ok_head _ _ _ _ _ _ _ h
  have ok := head_ok dec data x hx
  have hl := ok.length
  have hlen : lenExpected data = 0x346 + 54 * nf + e * (nf + 1) + 8 := by
    unfold lenExpected lenHeader
    rw [show u32 data 0x48 = nf from uN_at _ _ _ _ hn, show u32 data 0x342 = e from uN_at _ _ _ _ he]
  have hno := altered_head dec data x hx i b (by rw [hlen]; exact hi) hb hf
  constructor
  · unfold parseWfm
    cases e : head dec (data.set i b) with
    | ok y => exact absurd e (hno y)
    | error er => exact ⟨er, rfl⟩
  · intro hfr
    apply parse_head _ _ _ _ _ _ hno
    apply head_ve
    intro _
    obtain ⟨t, ht⟩ := ok.time
    have hd : dbl (data.set i b) 0x31C = dbl data 0x31C := by
      unfold dbl
      rw [uN_set _ _ _ _ _ (by omega)]
    rw [hd]
    exact time_tame _ _ t (s32_range _ _ (by omega)) ht

/-- C36: a file that is exactly as long as its header says is also rejected when one of the length fields is raised. -/
theorem C36_longer_partial (dec : List UInt8 → Option Str) (data : List UInt8) (raw noise prepost : Bool) (u : ℕ → ℚ) (r)
    (h : parseWfm dec data raw noise prepost u = .ok r) (i : ℕ) (b : UInt8) (nf e nf' e' : ℕ) (_hn : At data 0x48 4 nf)
    (_he : At data 0x342 4 e) (hlen : data.length = 0x346 + 54 * nf + e * (nf + 1) + 8)
    (hn' : At (data.set i b) 0x48 4 nf') (he' : At (data.set i b) 0x342 4 e') (hf : LengthField i)
    (hup : (nf < nf' ∧ e ≤ e') ∨ (nf ≤ nf' ∧ e < e')) (raw' noise' prepost' : Bool) (u' : ℕ → ℚ) :
    parseWfm dec (data.set i b) raw' noise' prepost' u' = .error .valueError := by
  obtain ⟨x, hx⟩ := parse_ok_head _ _ _ _ _ _ _ h
  have ok := head_ok dec data x hx
  have hl := ok.length
  refine C36_rejects_partial _ _ _ _ _ _ ?_ ?_
  · refine Or.inr (Or.inr (Or.inr (Or.inr (Or.inr (Or.inr (Or.inr (Or.inr (Or.inr ⟨nf', e', hn', he', Or.inl ?_⟩))))))))
    rw [List.length_set, hlen]
    rcases hup with ⟨h1, h2⟩ | ⟨h1, h2⟩
    · have : e * (nf + 1) ≤ e' * (nf' + 1) := Nat.mul_le_mul h2 (by omega)
      omega
    · have : e * (nf + 1) < e' * (nf' + 1) := by
        calc e * (nf + 1) ≤ e * (nf' + 1) := Nat.mul_le_mul (le_refl _) (by omega)
          _ < e' * (nf' + 1) := Nat.mul_lt_mul_of_pos_right h2 (by omega)
      omega
  · intro _
    obtain ⟨t, ht⟩ := ok.time
    have hd : dbl (data.set i b) 0x31C = dbl data 0x31C := by
      unfold dbl
      unfold LengthField at hf
      rw [uN_set _ _ _ _ _ (by omega)]
    rw [hd]
    exact time_tame _ _ t (s32_range _ _ (by omega)) ht

/-! ### Instances and counterexamples -/

/-- A sequence of pieces placed at offsets, zeros between them. -/
def place : ℕ → List (ℕ × List UInt8) → List UInt8
  | _, [] => []
  | o, (a, bs) :: r => List.replicate (a - o) 0 ++ bs ++ place (a + bs.length) r

/-- The header of a file: bytes per point, format, fast frames, time fraction, offsets. -/
def exHead (width fmt ff : ℕ) (frac : List UInt8) (pre dat post stop endd : ℕ) : List UInt8 :=
  place 0 [(0, [0x0F, 0x0F]), (7, [48, 48, 51]), (0x0F, leBytes 1 width), (0x28, ascii "CH1"), (0x48, leBytes 4 ff),
    (0x72, leBytes 4 1), (0x76, leBytes 4 1), (0x7A, leBytes 4 2), (0xA8, leBytes 8 0x3FE0000000000000),
    (0xB0, leBytes 8 0x3FF0000000000000), (0xBC, ascii "V"), (0xF0, leBytes 4 fmt), (0xF4, leBytes 4 0),
    (0x1E8, leBytes 8 0x4000000000000000), (0x1F0, leBytes 8 0xC024000000000000), (0x1FC, ascii "s"),
    (0x314, leBytes 8 0x3FD0000000000000), (0x31C, frac), (0x324, leBytes 4 1600000000), (0x332, leBytes 4 pre),
    (0x336, leBytes 4 dat), (0x33A, leBytes 4 post), (0x33E, leBytes 4 stop), (0x342, leBytes 4 endd)]

/-- A file with its checksum. -/
def withSum (bs : List UInt8) : List UInt8 := bs ++ leBytes 8 (byteSum bs)

/-- Four samples of one byte, one precharge and one postcharge sample. -/
def exFile : List UInt8 := withSum (exHead 1 7 0 (leBytes 8 0x3FE0000000000000) 0 1 5 6 6 ++ [1, 2, 3, 0x80, 5, 0x7f])

theorem exFile_ok : parseWfm exDec exFile false false false (fun _ => 0) =
    .ok ([⟨[some (-19 / 2), some (-15 / 2), some (-11 / 2), some (-7 / 2)], [some 2, some (5 / 2), some (-63), some (7 / 2)]⟩],
      ⟨"Label: CH1, 4 points, 1 frame".toList, ['s'], ['V'], some 2, some (1 / 2), some (-125 / 2), some (129 / 2), true, true,
        [1600000000500000]⟩) := by decide +kernel

/-- The hypotheses of `C36_altered_partial` are met: one sample changed. -/
example : parseWfm exDec (exFile.set 0x348 4) false false false (fun _ => 0) = .error .valueError :=
  (C36_altered_partial _ _ _ _ _ _ _ exFile_ok 0x348 4 0 6 (by unfold At; decide +kernel) (by unfold At; decide +kernel) (by decide +kernel)
    (by decide +kernel) (by unfold LengthField; decide +kernel) _ _ _ _).2 (by decide)

/-- The hypotheses of `C36_rejects_partial` are met: a big endian file. -/
example : parseWfm exDec ([0xF0, 0xF0] ++ exFile.drop 2) false false false (fun _ => 0) = .error .valueError :=
  C36_rejects_partial _ _ _ _ _ _ (Or.inr (Or.inl (by unfold At; decide +kernel)))
    (fun _ => Or.inr ⟨1 / 2, by decide +kernel, by norm_num [abs_le]⟩)

/-- The hypotheses of `C36_longer_partial` are met. -/
example : parseWfm exDec (exFile.set 0x342 7) false false false (fun _ => 0) = .error .valueError :=
  C36_longer_partial _ _ _ _ _ _ _ exFile_ok 0x342 7 0 6 0 7 (by unfold At; decide +kernel) (by unfold At; decide +kernel)
    (by decide +kernel) (by unfold At; decide +kernel) (by unfold At; decide +kernel) (by unfold LengthField; decide +kernel) (Or.inr (by decide))
    _ _ _ _

/-- A file whose samples, by accident, are a checksum for the shorter file. -/
def exTrap : List UInt8 :=
  let short := exHead 1 7 0 (leBytes 8 0x3FE0000000000000) 0 1 5 6 6 ++ [1, 2, 3, 4, 5, 6]
  let long := exHead 1 7 0 (leBytes 8 0x3FE0000000000000) 0 1 5 6 14 ++ [1, 2, 3, 4, 5, 6]
  withSum (long ++ leBytes 8 (byteSum short))

/-- **C36 fails** for the length fields: both the file and the file with one altered byte are accepted. -/
theorem C36_length_fails : ∃ (data : List UInt8) (i : ℕ) (b : UInt8), i < data.length ∧ data[i]? ≠ some b ∧
    data.length = lenExpected data ∧
    (∃ r, parseWfm exDec data false false false (fun _ => 0) = .ok r) ∧
    (∃ r, parseWfm exDec (data.set i b) false false false (fun _ => 0) = .ok r) := by
  refine ⟨exTrap, 0x342, 6, by decide +kernel, by decide +kernel, by decide +kernel, ?_, ?_⟩
  · exact ⟨([⟨[some (-19 / 2), some (-15 / 2), some (-11 / 2), some (-7 / 2)], [some 2, some (5 / 2), some 3, some (7 / 2)]⟩],
      ⟨"Label: CH1, 4 points, 1 frame".toList, ['s'], ['V'], some 2, some (1 / 2), some (-125 / 2), some (129 / 2), false, false,
        [1600000000500000]⟩), by decide +kernel⟩
  · exact ⟨([⟨[some (-19 / 2), some (-15 / 2), some (-11 / 2), some (-7 / 2)], [some 2, some (5 / 2), some 3, some (7 / 2)]⟩],
      ⟨"Label: CH1, 4 points, 1 frame".toList, ['s'], ['V'], some 2, some (1 / 2), some (-125 / 2), some (129 / 2), false, false,
        [1600000000500000]⟩), by decide +kernel⟩

/-- **C36 fails** for the time of the trigger: one altered byte of an accepted file makes it an OverflowError. -/
theorem C36_time_fails : ∃ (data : List UInt8) (i : ℕ) (b : UInt8), (∃ r, parseWfm exDec data false false false (fun _ => 0) = .ok r) ∧
    parseWfm exDec (data.set i b) false false false (fun _ => 0) = .error .arithmeticError :=
  ⟨exFile, 0x323, 0x7F, ⟨_, exFile_ok⟩, by decide +kernel⟩

theorem digit_byte (d : ℕ) (h : d < 10) : let b := UInt8.ofNat (48 + d)
    (48 ≤ b ∧ b ≤ 57) ∧ b.toNat - 48 = d ∧ isSpace b = false ∧ b ≠ 43 ∧ b ≠ 45 := by
  have key : ∀ d : Fin 10, (48 ≤ UInt8.ofNat (48 + d) ∧ UInt8.ofNat (48 + d) ≤ 57) ∧ (UInt8.ofNat (48 + d)).toNat - 48 = d ∧
      isSpace (UInt8.ofNat (48 + d)) = false ∧ UInt8.ofNat (48 + d) ≠ 43 ∧ UInt8.ofNat (48 + d) ≠ 45 := by decide +kernel
  exact key ⟨d, h⟩

theorem digitsOf_value (ds : List ℕ) (h : ∀ d ∈ ds, d < 10) : ∀ acc : ℕ,
    digitsOf (ds.map fun d => UInt8.ofNat (48 + d)) (some acc) false = some (Nat.ofDigits 10 ds.reverse + 10 ^ ds.length * acc) := by
  induction ds with
  | nil => intro acc; simp [digitsOf]
  | cons d ds ih =>
    intro acc
    obtain ⟨h1, h2, -⟩ := digit_byte d (h d (by simp))
    simp only [List.map_cons, digitsOf]
    rw [if_pos h1, h2, ih (fun x hx => h x (List.mem_cons_of_mem _ hx))]
    simp only [List.reverse_cons, Nat.ofDigits_append, List.length_cons, List.length_reverse, Nat.ofDigits_singleton, Option.getD_some]
    congr 1
    ring

/-- The bytes that are white space: tab, line feed, vertical tab, form feed, carriage return and space. -/
def blanks : List UInt8 := [9, 10, 11, 12, 13, 32]

theorem isSpace_iff (b : UInt8) : isSpace b = true ↔ b ∈ blanks := by
  have h : ∀ n ∈ List.range 256, isSpace (UInt8.ofNat n) = true ↔ UInt8.ofNat n ∈ blanks := by decide +kernel
  have := h b.toNat (by simpa using b.toNat_lt)
  simpa using this

theorem dropWhile_pre {α : Type} (p : α → Bool) (pre l : List α) (h : ∀ b ∈ pre, p b = true) (hl : ∀ b, l.head? = some b → p b = false) :
    (pre ++ l).dropWhile p = l := by
  induction pre with
  | nil =>
    cases l with
    | nil => rfl
    | cons b l => rw [List.nil_append, List.dropWhile_cons, hl b rfl]; simp
  | cons a pre ih =>
    rw [List.cons_append, List.dropWhile_cons, h a (by simp), if_pos rfl]
    exact ih fun b hb => h b (List.mem_cons_of_mem _ hb)

/-- **C36.** The version is read as a decimal number; white space around it is ignored. -/
theorem C36_version (pre post : List UInt8) (ds : List ℕ) (hpre : ∀ b ∈ pre, b ∈ blanks) (hpost : ∀ b ∈ post, b ∈ blanks) (hd : ∀ d ∈ ds, d < 10)
    (hne : ds ≠ []) : intBytes (pre ++ (ds.map fun d => UInt8.ofNat (48 + d)) ++ post) = some (Nat.ofDigits 10 ds.reverse : ℕ) := by
  obtain ⟨d, ds, rfl⟩ := List.exists_cons_of_ne_nil hne
  have hsp : ∀ b ∈ (d :: ds).map (fun d => UInt8.ofNat (48 + d)), isSpace b = false ∧ b ≠ 43 ∧ b ≠ 45 := by
    intro b hb
    obtain ⟨x, hx, rfl⟩ := List.mem_map.1 hb
    exact (digit_byte x (hd x hx)).2.2
  have e : (((pre ++ ((d :: ds).map fun d => UInt8.ofNat (48 + d)) ++ post).dropWhile isSpace).reverse.dropWhile isSpace).reverse =
      (d :: ds).map fun d => UInt8.ofNat (48 + d) := by
    rw [List.append_assoc, dropWhile_pre isSpace pre _ (fun b hb => (isSpace_iff b).2 (hpre b hb)), List.reverse_append,
      dropWhile_pre isSpace post.reverse _ (fun b hb => (isSpace_iff b).2 (hpost b (List.mem_reverse.1 hb))), List.reverse_reverse]
    · intro b hb
      exact (hsp b (List.mem_reverse.1 (List.mem_of_mem_head? hb))).1
    · intro b hb
      simp only [List.map_cons, List.cons_append, List.head?_cons, Option.some.injEq] at hb
      subst hb
      exact (hsp _ (by simp)).1
  obtain ⟨h1, h2, -⟩ := digit_byte d (hd d (by simp))
  have hval := digitsOf_value ds (fun x hx => hd x (List.mem_cons_of_mem _ hx)) d
  have hdig : digitsOf ((d :: ds).map fun d => UInt8.ofNat (48 + d)) none false = some (Nat.ofDigits 10 (d :: ds).reverse) := by
    simp only [List.map_cons, digitsOf]
    rw [if_pos h1, h2]
    simp only [Option.getD_none, Nat.mul_zero, Nat.zero_add]
    rw [hval]
    simp [Nat.ofDigits_append, Nat.ofDigits_singleton]
  unfold intBytes
  rw [e]
  simp only
  split
  · rename_i r er
    exact absurd (List.cons.inj er).1 (hsp _ (by simp)).2.1
  · rename_i r er
    exact absurd (List.cons.inj er).1 (hsp _ (by simp)).2.2
  · rw [hdig]; rfl

theorem digitsOf_only (bs : List UInt8) : ∀ (acc : Option ℕ) (under : Bool) (n : ℕ), digitsOf bs acc under = some n →
    ∀ b ∈ bs, (48 ≤ b ∧ b ≤ 57) ∨ b = 95 := by
  induction bs with
  | nil => intro _ _ _ _ b hb; simp at hb
  | cons x bs ih =>
    intro acc under n h b hb
    unfold digitsOf at h
    split at h
    · rename_i hx
      rcases List.mem_cons.1 hb with rfl | hb
      · exact .inl hx
      · exact ih _ _ _ h b hb
    · split at h
      · rename_i hx
        rcases List.mem_cons.1 hb with rfl | hb
        · exact .inr hx.1
        · exact ih _ _ _ h b hb
      · cases h

/-- **C36.** A version with other bytes than digits, signs, underscores and white space is no number. -/
theorem C36_version_only (bs : List UInt8) (n : ℤ) (h : intBytes bs = some n) :
    ∀ b ∈ bs, (48 ≤ b ∧ b ≤ 57) ∨ b ∈ ([43, 45, 95] : List UInt8) ∨ b ∈ blanks := by
  have strip : ∀ (l : List UInt8) (b : UInt8), b ∈ l → isSpace b = true ∨ b ∈ l.dropWhile isSpace := by
    intro l b hb
    rcases List.mem_append.1 ((List.takeWhile_append_dropWhile (p := isSpace) (l := l)) ▸ hb) with h | h
    · exact .inl (List.all_eq_true.1 (List.all_takeWhile (p := isSpace) (l := l)) b h)
    · exact .inr h
  intro b hb
  have h3 : isSpace b = true ∨ b ∈ ((bs.dropWhile isSpace).reverse.dropWhile isSpace).reverse := by
    rcases strip bs b hb with h | h
    · exact .inl h
    · rcases strip _ b (List.mem_reverse.2 h) with h | h
      · exact .inl h
      · exact .inr (List.mem_reverse.2 h)
  rcases h3 with h3 | h3
  · exact .inr (.inr ((isSpace_iff b).1 h3))
  unfold intBytes at h
  generalize ((bs.dropWhile isSpace).reverse.dropWhile isSpace).reverse = r at h h3
  have key : ∀ r : List UInt8, b ∈ r → ∀ k, digitsOf r none false = some k → (48 ≤ b ∧ b ≤ 57) ∨ b ∈ ([43, 45, 95] : List UInt8) ∨ b ∈ blanks := by
    intro r hr k hk
    rcases digitsOf_only r none false k hk b hr with h | h
    · exact .inl h
    · exact .inr (.inl (by simp [h]))
  have fin : ∀ (r : List UInt8) (f : ℕ → ℤ), (digitsOf r none false).map f = some n → ∃ k, digitsOf r none false = some k := by
    intro r f hf
    cases hd : digitsOf r none false with
    | none => rw [hd] at hf; cases hf
    | some k => exact ⟨k, rfl⟩
  simp only at h
  split at h
  · obtain ⟨k, hk⟩ := fin _ _ h
    rcases List.mem_cons.1 h3 with rfl | h3
    · exact .inr (.inl (by simp))
    · exact key _ h3 k hk
  · obtain ⟨k, hk⟩ := fin _ _ h
    rcases List.mem_cons.1 h3 with rfl | h3
    · exact .inr (.inl (by simp))
    · exact key _ h3 k hk
  · obtain ⟨k, hk⟩ := fin _ _ h
    exact key _ h3 k hk

/-- The hypotheses are met: the version 003, and another one. -/
example : intBytes [48, 48, 51] = some 3 ∧ intBytes [9, 50, 32] = some 2 ∧ intBytes [14, 50, 32] = none ∧ intBytes [49, 50, 51] = some 123 ∧ Nat.ofDigits 10 [1, 2, 3].reverse = 123 := by decide +kernel
end Verif.Props.Wfm
