import Verif.Props.Wave

/-!
C35: the reply to `WAVFRM?` is decoded to the samples that were acquired.
-/

namespace Verif.Props.Wave

open Verif Verif.Scpi Verif.Decimal Verif.Tek Verif.Wave Verif.Props.Scpi

/-! ### Splitting at the marker -/

/-- The number of places where a marker stands. -/
def occ (m s : List UInt8) : ℕ := s.tails.countP fun t => m.isPrefixOf t

/-- No two occurrences of the marker overlap. -/
def BorderFree (m : List UInt8) : Prop := m ≠ [] ∧ ∀ d, d < m.length → 0 < d → m[d]? ≠ m[0]?

theorem markLong_free : BorderFree markLong := by
  unfold BorderFree; exact ⟨by decide, by decide⟩

theorem markShort_free : BorderFree markShort := by
  unfold BorderFree; exact ⟨by decide, by decide⟩

theorem occ_nil (m : List UInt8) (hm : m ≠ []) : occ m [] = 0 := by
  unfold occ
  cases m with
  | nil => exact absurd rfl hm
  | cons a m => simp

theorem occ_cons (m : List UInt8) (x : UInt8) (s : List UInt8) :
    occ m (x :: s) = occ m s + if m <+: x :: s then 1 else 0 := by
  unfold occ
  rw [List.tails_cons, List.countP_cons]
  simp [List.isPrefixOf_iff_prefix]

/-- After an occurrence at the start no other one starts within it. -/
theorem occ_skip (m : List UInt8) (hm : BorderFree m) (s : List UInt8) (h : m <+: s) :
    occ m s = 1 + occ m (s.drop m.length) := by
  have key : ∀ k, 0 < k → k ≤ m.length → occ m (s.drop k) = occ m (s.drop m.length) := by
    intro k hk hkm
    induction hn : m.length - k generalizing k with
    | zero => rw [show k = m.length by omega]
    | succ n ih =>
      have hlt : k < s.length := lt_of_lt_of_le (by omega) h.length_le
      rw [← ih (k + 1) (by omega) (by omega) (by omega)]
      obtain ⟨x, hx⟩ : ∃ x, s.drop k = x :: s.drop (k + 1) := ⟨s[k], by rw [List.drop_eq_getElem_cons hlt]⟩
      have hno : ¬ m <+: s.drop k := ?_
      · rw [hx] at hno ⊢
        rw [occ_cons, if_neg hno]
        rfl
      intro hp
      have h0 : m[0]? = (s.drop k)[0]? := by
        obtain ⟨t, ht⟩ := hp
        rw [← ht, List.getElem?_append_left (by omega)]
      have h1 : m[k]? = s[k]? := by
        obtain ⟨t, ht⟩ := h
        rw [← ht, List.getElem?_append_left (by omega)]
      rw [List.getElem?_drop] at h0
      exact hm.2 k (by omega) hk (h1.trans (by simpa using h0.symm))
  obtain ⟨x, r, rfl⟩ : ∃ x r, s = x :: r := by
    cases s with
    | nil => exact absurd (List.prefix_nil.1 h) hm.1
    | cons x r => exact ⟨x, r, rfl⟩
  have hpos : 0 < m.length := List.length_pos_of_ne_nil hm.1
  rw [occ_cons, if_pos h, ← key 1 (by omega) (by omega)]
  simp [Nat.add_comm]

theorem splitAux_skip (m : List UInt8) : ∀ (k : ℕ) (s : List UInt8), splitAux m k s = splitAux m 0 (s.drop k) := by
  intro k
  induction k with
  | zero => intro s; simp
  | succ k ih =>
    intro s
    cases s with
    | nil => rw [List.drop_nil, splitAux.eq_def, splitAux.eq_def]
    | cons x s => rw [splitAux, ih]; simp

theorem splitAux_ne (m : List UInt8) : ∀ (k : ℕ) (s : List UInt8), splitAux m k s ≠ [] := by
  intro k s
  induction s generalizing k with
  | nil => rw [splitAux.eq_def]; simp
  | cons x s ih =>
    cases k with
    | succ k => rw [splitAux]; exact ih k
    | zero =>
      rw [splitAux]
      split
      · simp
      · split <;> simp

theorem split_hit (m : List UInt8) (x : UInt8) (s : List UInt8) (h : m <+: x :: s) (hm : m ≠ []) :
    splitSub m (x :: s) = [] :: splitSub m ((x :: s).drop m.length) := by
  unfold splitSub
  rw [splitAux, if_pos (List.isPrefixOf_iff_prefix.2 h), splitAux_skip]
  obtain ⟨y, t, rfl⟩ : ∃ y t, m = y :: t := by
    cases m with
    | nil => exact absurd rfl hm
    | cons y t => exact ⟨y, t, rfl⟩
  simp

theorem split_miss (m : List UInt8) (x : UInt8) (s : List UInt8) (h : ¬ m <+: x :: s) :
    ∃ p ps, splitSub m s = p :: ps ∧ splitSub m (x :: s) = (x :: p) :: ps := by
  unfold splitSub
  cases e : splitAux m 0 s with
  | nil => exact absurd e (splitAux_ne _ _ _)
  | cons p ps =>
    refine ⟨p, ps, rfl, ?_⟩
    rw [splitAux, if_neg (by rwa [List.isPrefixOf_iff_prefix]), e]

theorem split_length (m : List UInt8) (hm : BorderFree m) (s : List UInt8) : (splitSub m s).length = occ m s + 1 := by
  induction hn : s.length using Nat.strong_induction_on generalizing s with
  | _ n ih =>
    cases s with
    | nil => rw [occ_nil _ hm.1]; rfl
    | cons x s =>
      have hpos : 0 < m.length := List.length_pos_of_ne_nil hm.1
      by_cases h : m <+: x :: s
      · rw [split_hit m x s h hm.1, occ_skip m hm _ h, List.length_cons,
          ih _ (by rw [List.length_drop, hn]; simp at hn; omega) _ rfl]
        omega
      · obtain ⟨p, ps, h1, h2⟩ := split_miss m x s h
        have := ih s.length (by simp at hn; omega) s rfl
        rw [h1] at this
        rw [h2, occ_cons, if_neg h]
        simpa using this

theorem split_none (m : List UInt8) (s : List UInt8) (h : ¬ m <:+: s) (hm : m ≠ []) : splitSub m s = [s] := by
  induction s with
  | nil => rfl
  | cons x s ih =>
    obtain ⟨p, ps, h1, h2⟩ := split_miss m x s (fun hp => h hp.isInfix)
    rw [ih (fun hi => h (hi.trans (List.suffix_cons x s).isInfix))] at h1
    simp only [List.cons.injEq] at h1
    rw [h2, ← h1.1, ← h1.2]

/-- With one marker between two parts that do not contain it the parts are found. -/
theorem split_two (m : List UInt8) (hm : BorderFree m) (a b : List UInt8) (ha : ¬ m <:+: a) (hb : ¬ m <:+: b) :
    splitSub m (a ++ m ++ b) = [a, b] := by
  induction a with
  | nil =>
    obtain ⟨y, t, rfl⟩ : ∃ y t, m = y :: t := by
      cases m with
      | nil => exact absurd rfl hm.1
      | cons y t => exact ⟨y, t, rfl⟩
    simp only [List.nil_append, List.cons_append]
    rw [split_hit _ _ _ (by exact ⟨b, rfl⟩) hm.1]
    simp only [List.length_cons, List.drop_succ_cons, List.drop_left]
    rw [split_none _ _ hb hm.1]
  | cons x a ih =>
    simp only [List.cons_append]
    have hno : ¬ m <+: x :: (a ++ m ++ b) := by
      intro hp
      by_cases hl : m.length ≤ (x :: a).length
      · apply ha
        have : m <+: x :: a := by
          rw [← List.cons_append, ← List.cons_append, List.append_assoc] at hp
          exact List.prefix_of_prefix_length_le hp (List.prefix_append _ _) hl
        exact this.isInfix
      · push Not at hl
        obtain ⟨t, ht⟩ := hp
        have h1 : m[(x :: a).length]? = (m ++ t)[(x :: a).length]? := by rw [List.getElem?_append_left hl]
        rw [ht, ← List.cons_append, ← List.cons_append, List.append_assoc,
          List.getElem?_append_right (le_refl _)] at h1
        have hpos : 0 < m.length := List.length_pos_of_ne_nil hm.1
        rw [Nat.sub_self, List.getElem?_append_left hpos] at h1
        exact hm.2 _ hl (by simp) h1
    obtain ⟨p, ps, h1, h2⟩ := split_miss m x (a ++ m ++ b) hno
    rw [ih (fun hi => ha (hi.trans (List.suffix_cons x a).isInfix))] at h1
    simp only [List.cons.injEq] at h1
    rw [h2, ← h1.1, ← h1.2]

/-- The curve is found after the long marker. -/
theorem splitCurve_long (a b : List UInt8) (ha : ¬ markLong <:+: a) (hb : ¬ markLong <:+: b) :
    splitCurve (a ++ markLong ++ b) = .ok (a, b) := by
  unfold splitCurve
  rw [split_two _ markLong_free a b ha hb]

theorem occ_pos (m s : List UInt8) (h : m <:+: s) : 0 < occ m s := by
  obtain ⟨a, b, e⟩ := h
  unfold occ
  rw [List.countP_pos_iff]
  refine ⟨m ++ b, ?_, by simp [List.isPrefixOf_iff_prefix]⟩
  rw [List.mem_tails]
  exact ⟨a, by rw [← List.append_assoc]; exact e⟩

/-- The curve is found after the short marker, when the long one does not occur. -/
theorem splitCurve_short (a b : List UInt8) (ha : ¬ markShort <:+: a) (hb : ¬ markShort <:+: b)
    (hl : ¬ markLong <:+: a ++ markShort ++ b) : splitCurve (a ++ markShort ++ b) = .ok (a, b) := by
  unfold splitCurve
  rw [split_none _ _ hl markLong_free.1, split_two _ markShort_free a b ha hb]

/-- Whatever is not exactly once in the data is no place to split. -/
theorem splitCurve_error (data : List UInt8) (h1 : occ markLong data ≠ 1) (h2 : occ markShort data ≠ 1) :
    splitCurve data = .error .valueError := by
  have l1 := split_length _ markLong_free data
  have l2 := split_length _ markShort_free data
  unfold splitCurve
  have key : ∀ l : List (List UInt8), l.length ≠ 2 → ∀ a b, l ≠ [a, b] := by
    rintro l hl a b rfl; simp at hl
  have k1 := key _ (by omega : (splitSub markLong data).length ≠ 2)
  have k2 := key _ (by omega : (splitSub markShort data).length ≠ 2)
  split
  · rename_i a b e; exact absurd e (k1 a b)
  · split
    · rename_i a b e; exact absurd e (k2 a b)
    · rfl

/-- **C35.** A reply without exactly one curve marker (of either spelling) is rejected. -/
theorem C35_rejects (dec : List UInt8 → Option Str) (data : List UInt8) (raw noise : Bool) (u : ℕ → ℚ)
    (h1 : occ markLong data ≠ 1) (h2 : occ markShort data ≠ 1) :
    parseQuery dec data raw noise u = .error .valueError := by
  unfold parseQuery
  rw [splitCurve_error data h1 h2]
  rfl

/-- **C35.** A reply with a header that is no text (UTF-8) is rejected. -/
theorem C35_undecodable (dec : List UInt8 → Option Str) (hb curve : List UInt8) (raw noise : Bool) (u : ℕ → ℚ) (hd : dec hb = none)
    (h1 : ¬ markLong <:+: hb) (h2 : ¬ markLong <:+: curve) : parseQuery dec (hb ++ markLong ++ curve) raw noise u = .error .valueError := by
  unfold parseQuery
  rw [splitCurve_long hb curve h1 h2]
  simp only [bind, Except.bind, hd]

example : ∃ dec : List UInt8 → Option Str, dec [255] = none ∧ dec [65] = some ['A'] ∧ ¬ markLong <:+: [255] ∧ ¬ markLong <:+: [35, 48, 1] :=
  ⟨fun l => if l.all (· < 128) then some (l.map fun b => Char.ofNat b.toNat) else none, by decide +kernel, by decide +kernel, by decide +kernel,
    by decide +kernel⟩

example : occ markLong (ascii "*OPC 1") ≠ 1 ∧ occ markShort (ascii "*OPC 1") ≠ 1 := by decide +kernel
example : occ markLong (ascii ":A 1;:CURVE #;:CURVE ;") = 2 ∧ occ markShort (ascii ":A 1;:CURVE #;:CURVE ;") = 0 := by
  decide +kernel

/-! ### Samples -/

/-- The lowest `n` bytes of a number, the lowest first. -/
def leBytes : ℕ → ℕ → List UInt8
  | 0, _ => []
  | n + 1, v => UInt8.ofNat (v % 256) :: leBytes n (v / 256)

/-- How a converter sends a code: two's complement (or unsigned), most or least significant byte first. -/
def encode (msb : Bool) (size : ℕ) (c : ℤ) : List UInt8 :=
  let l := leBytes size (c % 2 ^ (8 * size)).toNat
  if msb then l.reverse else l

/-- The codes that a format can represent. -/
def Fits (signed : Bool) (size : ℕ) (c : ℤ) : Prop :=
  if signed then -2 ^ (8 * size - 1) ≤ c ∧ c < 2 ^ (8 * size - 1) else 0 ≤ c ∧ c < 2 ^ (8 * size)

theorem leBytes_length (n v : ℕ) : (leBytes n v).length = n := by
  induction n generalizing v with
  | zero => rfl
  | succ n ih => simp [leBytes, ih]

theorem encode_length (msb : Bool) (size : ℕ) (c : ℤ) : (encode msb size c).length = size := by
  unfold encode
  cases msb <;> simp [leBytes_length]

theorem leBytes_value (n v : ℕ) : (leBytes n v).foldr (fun b a => b.toNat + 256 * a) 0 = v % 256 ^ n := by
  induction n generalizing v with
  | zero => simp [leBytes, Nat.mod_one]
  | succ n ih =>
    rw [leBytes, List.foldr_cons, ih]
    have h1 : (UInt8.ofNat (v % 256)).toNat = v % 256 := by
      rw [UInt8.toNat_ofNat']
      omega
    rw [h1, pow_succ, Nat.mul_comm (256 ^ n) 256, Nat.mod_mul]

theorem word_encode (msb signed : Bool) (size : ℕ) (hs : 0 < size) (c : ℤ) (hc : Fits signed size c) :
    word msb signed (encode msb size c) = c := by
  have hv : ∀ m : Bool, (if m then (encode m size c).reverse else encode m size c).foldr
      (fun b a => b.toNat + 256 * a) 0 = (c % 2 ^ (8 * size)).toNat := by
    intro m
    have : (if m then (encode m size c).reverse else encode m size c) = leBytes size (c % 2 ^ (8 * size)).toNat := by
      unfold encode; cases m <;> simp
    rw [this, leBytes_value]
    apply Nat.mod_eq_of_lt
    have h1 : c % 2 ^ (8 * size) < 2 ^ (8 * size) := Int.emod_lt_of_pos _ (by positivity)
    have h0 : 0 ≤ c % 2 ^ (8 * size) := Int.emod_nonneg _ (by positivity)
    have : (256 : ℕ) ^ size = 2 ^ (8 * size) := by rw [show (256 : ℕ) = 2 ^ 8 by norm_num, ← pow_mul]
    rw [this]
    zify
    rw [Int.toNat_of_nonneg h0]
    exact h1
  unfold word
  simp only [hv, encode_length]
  have h1 : c % 2 ^ (8 * size) < 2 ^ (8 * size) := Int.emod_lt_of_pos _ (by positivity)
  have h0 : 0 ≤ c % 2 ^ (8 * size) := Int.emod_nonneg _ (by positivity)
  have hcast : (((c % 2 ^ (8 * size)).toNat : ℕ) : ℤ) = c % 2 ^ (8 * size) := Int.toNat_of_nonneg h0
  have hhalf : (2 : ℤ) ^ (8 * size) = 2 * 2 ^ (8 * size - 1) := by
    rw [← pow_succ']; congr 1; omega
  have hp : (0 : ℤ) < 2 ^ (8 * size - 1) := by positivity
  have hle : (2 ^ (8 * size - 1) ≤ (c % 2 ^ (8 * size)).toNat) ↔ (2 : ℤ) ^ (8 * size - 1) ≤ c % 2 ^ (8 * size) := by
    rw [← hcast]; norm_cast
  unfold Fits at hc
  cases signed with
  | false =>
    simp only [Bool.false_eq_true, false_and, if_false] at hc ⊢
    rw [hcast, Int.emod_eq_of_lt hc.1 hc.2]
  | true =>
    simp only [if_true, true_and, hle] at hc ⊢
    by_cases hn : 0 ≤ c
    · rw [Int.emod_eq_of_lt hn (by omega)] at hcast ⊢
      rw [if_neg (by omega), hcast]
    · have e : c % 2 ^ (8 * size) = c + 2 ^ (8 * size) := by
        rw [← Int.add_emod_right, Int.emod_eq_of_lt (by omega) (by omega)]
      rw [e] at hcast ⊢
      rw [if_pos (by omega), hcast]
      ring

theorem chunk (f : ℤ → List UInt8) (size : ℕ) (hf : ∀ c, (f c).length = size) (codes : List ℤ) (i : ℕ)
    (hi : i < codes.length) : ((codes.flatMap f).drop (i * size)).take size = f codes[i] := by
  induction codes generalizing i with
  | nil => simp at hi
  | cons c codes ih =>
    cases i with
    | zero =>
      simp only [Nat.zero_mul, List.drop_zero, List.flatMap_cons, List.getElem_cons_zero]
      rw [← hf c, List.take_left]
    | succ i =>
      rw [List.flatMap_cons, Nat.succ_mul, Nat.add_comm, ← List.drop_drop]
      rw [show (f c ++ codes.flatMap f).drop size = codes.flatMap f by rw [← hf c, List.drop_left]]
      simpa using ih i (by simpa using hi)

theorem flat_length (f : ℤ → List UInt8) (size : ℕ) (hf : ∀ c, (f c).length = size) (codes : List ℤ) :
    (codes.flatMap f).length = codes.length * size := by
  induction codes with
  | nil => simp
  | cons c codes ih => rw [List.flatMap_cons, List.length_append, ih, hf, List.length_cons]; ring

theorem fromBuffer_encode (msb signed : Bool) (size : ℕ) (hs : 0 < size) (codes : List ℤ)
    (hc : ∀ c ∈ codes, Fits signed size c) :
    fromBuffer msb signed size (codes.flatMap (encode msb size)) = .ok codes := by
  have hl := flat_length (encode msb size) size (encode_length msb size) codes
  unfold fromBuffer
  rw [hl, if_pos (Nat.mul_mod_left _ _), Nat.mul_div_cancel _ hs]
  congr 1
  apply List.ext_getElem
  · simp
  · intro i h1 h2
    simp only [List.getElem_map, List.getElem_range]
    rw [chunk _ size (encode_length msb size) codes i h2]
    exact word_encode msb signed size hs _ (hc _ (List.getElem_mem h2))

end Verif.Props.Wave
