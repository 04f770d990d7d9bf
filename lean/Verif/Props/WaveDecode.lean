import Verif.Props.WaveHeader

/-!
C35 concluded, and C38 for whole replies.
-/

namespace Verif.Props.Wave

open Verif Verif.Scpi Verif.Decimal Verif.Wave Verif.Props.Scpi
open Verif.Tek (lit)

/-! ### The missing quote -/

theorem fixQuote_none (s : Str) : ∀ prev, ¬ lit ";NR_PT" <:+: s → fixQuote prev s = s := by
  induction s with
  | nil => intro prev _; rfl
  | cons c s ih =>
    intro prev h
    rw [fixQuote, if_neg, ih]
    · exact fun hi => h (hi.trans (List.suffix_cons c s).isInfix)
    · rintro ⟨h1, -⟩
      exact h (List.isPrefixOf_iff_prefix.1 h1).isInfix

/-- The `;` is only at the start of the marker. -/
theorem nrpt_overlap (a : Str) (c : Char) (b : Str) (h : lit ";NR_PT" <+: c :: a ++ (lit ";NR_PT" ++ b))
    (hn : ¬ lit ";NR_PT" <+: c :: a) : False := by
  by_cases hl : (lit ";NR_PT").length ≤ (c :: a).length
  · exact hn (List.prefix_of_prefix_length_le h (List.prefix_append _ _) hl)
  · push Not at hl
    obtain ⟨t, ht⟩ := h
    have h1 : (lit ";NR_PT")[(c :: a).length]? = (lit ";NR_PT" ++ t)[(c :: a).length]? := by
      rw [List.getElem?_append_left hl]
    rw [ht, List.getElem?_append_right (le_refl _), Nat.sub_self, List.getElem?_append_left (by decide)] at h1
    have key : ∀ d, d < (lit ";NR_PT").length → 0 < d → (lit ";NR_PT")[d]? ≠ (lit ";NR_PT")[0]? := by decide
    exact key _ hl (by simp) h1

/-- One marker: the quote is put before it unless it is there. -/
theorem fixQuote_one (a b : Str) (ha : ¬ lit ";NR_PT" <:+: a) (hb : ¬ lit ";NR_PT" <:+: b) : ∀ prev,
    fixQuote prev (a ++ (lit ";NR_PT" ++ b)) =
      a ++ (if (a.getLast?.or prev) = some '"' then [] else ['"']) ++ (lit ";NR_PT" ++ b) := by
  have htail : ∀ prev, fixQuote prev (lit "NR_PT" ++ b) = lit "NR_PT" ++ b := by
    intro prev
    apply fixQuote_none
    intro hi
    apply hb
    have hs : ∀ (x : Char) (l : Str), x ≠ ';' → lit ";NR_PT" <:+: x :: l → lit ";NR_PT" <:+: l := by
      intro x l hx h
      rcases List.infix_cons_iff.1 h with hp | hp
      · obtain ⟨t, ht⟩ := hp
        have : ';' = x := by
          have := congrArg List.head? ht
          simpa [lit] using this
        exact absurd this.symm hx
      · exact hp
    have h1 := hs 'N' _ (by decide) hi
    have h2 := hs 'R' _ (by decide) h1
    have h3 := hs '_' _ (by decide) h2
    have h4 := hs 'P' _ (by decide) h3
    exact hs 'T' _ (by decide) h4
  induction a with
  | nil =>
    intro prev
    have e : lit ";NR_PT" ++ b = ';' :: (lit "NR_PT" ++ b) := rfl
    have e3 : (([] : Str).getLast?.or prev) = prev := rfl
    rw [List.nil_append, List.nil_append, e, fixQuote, htail, e3]
    have hp : (lit ";NR_PT").isPrefixOf (';' :: (lit "NR_PT" ++ b)) = true := by
      rw [← e, List.isPrefixOf_iff_prefix]; exact List.prefix_append _ _
    by_cases h : prev = some '"'
    · rw [if_neg (by simp [h]), if_pos h]; rfl
    · rw [if_pos ⟨hp, h⟩, if_neg h]; rfl
  | cons c a ih =>
    intro prev
    rw [List.cons_append, fixQuote, if_neg, ih (fun hi => ha (hi.trans (List.suffix_cons c a).isInfix))]
    · have : (a.getLast?.or (some c)) = ((c :: a).getLast?.or prev) := by
        cases a with
        | nil => rfl
        | cons x a =>
          rw [List.getLast?_cons_cons]
          cases h : (x :: a).getLast? with
          | none => simp at h
          | some y => rfl
      rw [this]
      simp
    · rintro ⟨h1, -⟩
      exact nrpt_overlap a c b (List.isPrefixOf_iff_prefix.1 h1) (fun hp => ha hp.isInfix)

/-- How a header is sent: as it is, where a `NR_PT` follows a closing quote; or with that quote missing, as some
instruments do. -/
def Sent (full text : Str) : Prop :=
  (¬ lit ";NR_PT" <:+: full ∧ text = full) ∨
  ∃ a b, full = a ++ ['"'] ++ (lit ";NR_PT" ++ b) ∧ ¬ lit ";NR_PT" <:+: a ∧ ¬ lit ";NR_PT" <:+: b ∧
    (text = full ∨ (a.getLast? ≠ some '"' ∧ a ≠ [] ∧ text = a ++ (lit ";NR_PT" ++ b)))

theorem sent_fix (full text : Str) (h : Sent full text) : fixQuote none text = full := by
  rcases h with ⟨h1, rfl⟩ | ⟨a, b, rfl, ha, hb, h2⟩
  · exact fixQuote_none _ _ h1
  · rcases h2 with rfl | ⟨h3, h4, rfl⟩
    · have : ¬ lit ";NR_PT" <:+: a ++ ['"'] := by
        intro hi
        rw [List.infix_concat_iff] at hi
        rcases hi with hi | hi
        · obtain ⟨t, ht⟩ := hi
          have := congrArg List.getLast? ht
          rw [List.getLast?_append, List.getLast?_append] at this
          simp [lit] at this
        · exact ha hi
      rw [fixQuote_one _ _ this hb]
      simp
    · rw [fixQuote_one _ _ ha hb]
      rw [if_neg]
      cases h5 : a.getLast? with
      | none => exact absurd (List.getLast?_eq_none_iff.1 h5) h4
      | some y => rw [h5] at h3; exact h3

/-! ### Texts -/

/-- A text value, with or without double quotes around it. -/
def Unquotes (v u : Str) : Prop := '"' ∉ u ∧ (v = u ∨ v = '"' :: u ++ ['"'])

theorem dropQuote (u r : Str) (h : '"' ∉ u) (hr : u = [] → r.dropWhile (· = '"') = r) :
    (u ++ r).dropWhile (· = '"') = u ++ r := by
  cases u with
  | nil => simpa using hr rfl
  | cons x u =>
    have : x ≠ '"' := fun e => h (by simp [e])
    simp [this]

theorem strip_unquotes (v u : Str) (h : Unquotes v u) : stripQuote v = u := by
  obtain ⟨h1, h2⟩ := h
  have hid : ∀ w : Str, '"' ∉ w → w.dropWhile (· = '"') = w := by
    intro w hw
    cases w with
    | nil => rfl
    | cons x w =>
      have : x ≠ '"' := fun e => hw (by simp [e])
      simp [this]
  rcases h2 with rfl | rfl
  · unfold stripQuote
    rw [hid _ h1, hid _ (by simpa using h1), List.reverse_reverse]
  · unfold stripQuote
    have e1 : ('"' :: u ++ ['"']).dropWhile (· = '"') = (u ++ ['"']).dropWhile (· = '"') := by simp
    rw [e1]
    by_cases hu : u = []
    · subst hu; rfl
    · have : (u ++ ['"']).dropWhile (· = '"') = u ++ ['"'] := dropQuote u _ h1 (fun e => absurd e hu)
      rw [this]
      have e2 : (u ++ ['"']).reverse.dropWhile (· = '"') = u.reverse.dropWhile (· = '"') := by simp
      rw [e2, hid _ (by simpa using h1), List.reverse_reverse]

/-! ### The reply -/

/-- The digit that tells the length of the length field. -/
def HexDigit (b : UInt8) (n : ℕ) : Prop := (ascii "0123456789ABCDEF")[n]? = some b ∨ (ascii "0123456789abcdef")[n]? = some b

theorem hexByte_digit (b : UInt8) (n : ℕ) (h : HexDigit b n) : hexByte b = .ok n := by
  have hn : n < 16 := by
    rcases h with h | h
    · exact (List.getElem?_eq_some_iff.1 h).1
    · exact (List.getElem?_eq_some_iff.1 h).1
  have key : ∀ m < 16, ∀ l ∈ [ascii "0123456789ABCDEF", ascii "0123456789abcdef"],
      (l[m]?).map hexByte = some (Except.ok m) := by decide +kernel
  rcases h with h | h
  · have := key n hn (ascii "0123456789ABCDEF") (by simp)
    rw [h] at this; simpa using this
  · have := key n hn (ascii "0123456789abcdef") (by simp)
    rw [h] at this; simpa using this

/-- The largest code of a converter; codes that reach it (or its negative) are clipped. -/
def fullScale (size : ℕ) : ℤ := if size = 1 then 127 else 32512

/-- What the instrument has acquired and how it describes it. -/
structure Acq where
  size : ℕ
  msb : Bool
  signed : Bool
  codes : List ℤ
  xIncr : ℚ
  xZero : ℚ
  yMult : ℚ
  yOff : ℚ
  yZero : ℚ
  xUnit : Str
  yUnit : Str
  config : Str

/-- The last value of a documented integer key. -/
def IntField (fs : List (Str × Str)) (P : Str) (n : ℤ) : Prop := ∃ v, Last fs P v ∧ pyInt v = .ok n
/-- The last value of a documented decimal key. -/
def NumField (fs : List (Str × Str)) (P : Str) (q : ℚ) : Prop := ∃ v, Last fs P v ∧ pyFloat v = .ok q
/-- The last value of a documented word key, in any case. -/
def WordField (fs : List (Str × Str)) (P : Str) (w : Str) : Prop := ∃ v, Last fs P v ∧ upper v = w
/-- The last value of a documented text key. -/
def TextField (fs : List (Str × Str)) (P : Str) (u : Str) : Prop := ∃ v, Last fs P v ∧ Unquotes v u

/-- The header describes the acquisition. -/
structure Describes (h : Hdr) (q : Acq) : Prop where
  ok : h.Ok
  points : IntField h.fields (lit "NR_Pt") q.codes.length
  size : IntField h.fields (lit "BYT_Nr") q.size
  order : WordField h.fields (lit "BYT_Or") (if q.msb then lit "MSB" else lit "LSB")
  fmt : WordField h.fields (lit "BN_Fmt") (if q.signed then lit "RI" else lit "RP")
  xIncr : NumField h.fields (lit "XINcr") q.xIncr
  xZero : NumField h.fields (lit "XZEro") q.xZero
  yMult : NumField h.fields (lit "YMUlt") q.yMult
  yOff : NumField h.fields (lit "YOFf") q.yOff
  yZero : NumField h.fields (lit "YZEro") q.yZero
  xUnit : TextField h.fields (lit "XUNit") q.xUnit
  yUnit : TextField h.fields (lit "YUNit") q.yUnit
  config : TextField h.fields (lit "WFId") q.config

/-- A reply: header, marker, `#`, a digit, the length field of that many bytes, the samples, and anything after them.
The marker is neither in the header nor in the rest. -/
structure Reply (dec : List UInt8 → Option Str) (data : List UInt8) (h : Hdr) (q : Acq) : Prop where
  describes : Describes h q
  size : q.size = 1 ∨ q.size = 2
  fits : ∀ c ∈ q.codes, Fits q.signed q.size c
  nonempty : q.codes ≠ []
  bytes : ∃ text hb b0 b1 skip tail, ∃ n : ℕ, dec hb = some text ∧ Sent h.text text ∧ HexDigit b1 n ∧ skip.length = n ∧
    let curve := b0 :: b1 :: skip ++ q.codes.flatMap (encode q.msb q.size) ++ tail
    (data = hb ++ markLong ++ curve ∧ ¬ markLong <:+: hb ∧ ¬ markLong <:+: curve) ∨
    (data = hb ++ markShort ++ curve ∧ ¬ markShort <:+: hb ∧ ¬ markShort <:+: curve ∧ ¬ markLong <:+: data)

/-- What is returned for samples `ys`. -/
def expected (q : Acq) (raw : Bool) (ys : List ℚ) : Result :=
  let m := fullScale q.size
  let conv : ℚ → ℚ := fun y => if raw then y else (y - q.yOff) * q.yMult + q.yZero
  { x := (List.range q.codes.length).map fun k : ℕ => q.xZero + q.xIncr * k
    y := ys.map conv
    info :=
      { config := q.config
        xUnit := q.xUnit
        yUnit := if raw then lit "ADC Counts" else q.yUnit
        xIncr := q.xIncr
        yIncr := if raw then 1 else q.yMult
        clipMin := conv (-m)
        clipMax := conv m
        top := decide (∃ c ∈ q.codes, m ≤ c)
        bottom := decide (∃ c ∈ q.codes, c ≤ -m) } }

theorem header_value (s : St TekVal) (R : Str) (fs : List (Str × Str)) (hdir : s.tree [R] = some .dir)
    (hall : ∀ P ∈ wfmKeys, ∀ v, Last fs P v → ∃ w, Converts P v w ∧ s.tree [R, upper P] = some (.file (.conv w)))
    (P v : Str) (g : Str → Except PyErr TekVal) (w : TekVal) (i : ℕ) (hP' : wfmTypes[i]? = some (P, Ty.conv g)) (hl : Last fs P v)
    (hg : g v = .ok w) (K : Str) (hK : K = upper P) : headerKey s.tree R K = .ok (.conv w) := by
  have hP := List.mem_of_getElem? hP'
  obtain ⟨w', ⟨g', hg', hv⟩, ht⟩ := hall P (List.mem_map_of_mem hP) v hl
  have hnd : (wfmTypes.map Prod.fst).Nodup := by decide +kernel
  have : g' = g := by
    have := List.inj_on_of_nodup_map hnd hg' hP rfl
    simpa using this
  subst this
  rw [hg] at hv
  cases hv
  subst hK
  simp [headerKey, hdir, ht]

theorem slice_payload (b0 b1 : UInt8) (skip payload tail : List UInt8) (n : ℕ) (hn : skip.length = n) (k size : ℤ)
    (hk : k * size = payload.length) :
    pySlice (b0 :: b1 :: skip ++ payload ++ tail) (2 + n) (((2 + n : ℕ) : ℤ) + k * size) = payload := by
  unfold pySlice
  rw [hk]
  rw [if_neg (by omega)]
  have e : ((((2 + n : ℕ) : ℤ) + (payload.length : ℤ)).toNat) = (b0 :: b1 :: skip ++ payload).length := by
    simp; omega
  rw [e]
  simp only [List.take_left]
  have e2 : 2 + n = (b0 :: b1 :: skip).length := by simp; omega
  rw [e2, List.drop_left]

/-- The samples as they are before conversion. -/
def wave (q : Acq) (noise : Bool) (u : ℕ → ℚ) : List ℚ :=
  if noise then dither (-fullScale q.size) (fullScale q.size) (8 * q.size) q.codes u else q.codes.map fun c : ℤ => (c : ℚ)

theorem reply_facts (dec : List UInt8 → Option Str) (data : List UInt8) (h : Hdr) (q : Acq) (hr : Reply dec data h q) :
    ∃ hb text curve, ∃ s : St TekVal, ∃ R b1, ∃ n : ℕ, splitCurve data = .ok (hb, curve) ∧ dec hb = some text ∧
      parse (fixQuote none text) false (some tekTypes) = .ok s ∧ s.order = [R] ∧ curve[1]? = some b1 ∧ hexByte b1 = .ok n ∧
      headerKey s.tree R (lit "NR_PT") = .ok (.conv (.int q.codes.length)) ∧ headerKey s.tree R (lit "BYT_NR") = .ok (.conv (.int q.size)) ∧
      headerKey s.tree R (lit "BYT_OR") = .ok (.conv (.text (if q.msb then lit "MSB" else lit "LSB"))) ∧
      headerKey s.tree R (lit "BN_FMT") = .ok (.conv (.text (if q.signed then lit "RI" else lit "RP"))) ∧
      headerKey s.tree R (lit "XINCR") = .ok (.conv (.num q.xIncr)) ∧ headerKey s.tree R (lit "XZERO") = .ok (.conv (.num q.xZero)) ∧
      headerKey s.tree R (lit "YMULT") = .ok (.conv (.num q.yMult)) ∧ headerKey s.tree R (lit "YOFF") = .ok (.conv (.num q.yOff)) ∧
      headerKey s.tree R (lit "YZERO") = .ok (.conv (.num q.yZero)) ∧ headerKey s.tree R (lit "XUNIT") = .ok (.conv (.text q.xUnit)) ∧
      headerKey s.tree R (lit "YUNIT") = .ok (.conv (.text q.yUnit)) ∧ headerKey s.tree R (lit "WFID") = .ok (.conv (.text q.config)) ∧
      samples (decide ((if q.msb then lit "MSB" else lit "LSB") = lit "MSB"))
        (decide ((if q.signed then lit "RI" else lit "RP") = lit "RI")) q.size q.codes.length curve (2 + n) = .ok q.codes ∧
      limit q.size = .ok (fullScale q.size) := by
  obtain ⟨hd, hsize, hfits, hsome, text, hb, b0, b1, skip, tail, n, hdec, hsent, hhex, hskip, hdata⟩ := hr
  set curve := b0 :: b1 :: skip ++ q.codes.flatMap (encode q.msb q.size) ++ tail with hcurve
  have hsplit : splitCurve data = .ok (hb, curve) := by
    rcases hdata with ⟨rfl, a1, a2⟩ | ⟨e, a1, a2, a3⟩
    · exact splitCurve_long _ _ a1 a2
    · rw [e] at a3 ⊢; exact splitCurve_short _ _ a1 a2 a3
  obtain ⟨s, R, hp, horder, hdir, hall⟩ := parse_header h hd.ok
  have hv := header_value s R h.fields hdir hall
  obtain ⟨v1, l1, c1⟩ := hd.points
  obtain ⟨v2, l2, c2⟩ := hd.size
  obtain ⟨v3, l3, c3⟩ := hd.order
  obtain ⟨v4, l4, c4⟩ := hd.fmt
  obtain ⟨v5, l5, c5⟩ := hd.xIncr
  obtain ⟨v6, l6, c6⟩ := hd.xZero
  obtain ⟨v7, l7, c7⟩ := hd.yMult
  obtain ⟨v8, l8, c8⟩ := hd.yOff
  obtain ⟨v9, l9, c9⟩ := hd.yZero
  obtain ⟨v10, l10, c10⟩ := hd.xUnit
  obtain ⟨v11, l11, c11⟩ := hd.yUnit
  obtain ⟨v12, l12, c12⟩ := hd.config
  have hI : ∀ (v : Str) (n : ℤ), pyInt v = .ok n → (fun s => do return TekVal.int (← pyInt s)) v = .ok (TekVal.int n) := by
    intro v n hn; simp [hn, bind, Except.bind, pure, Except.pure]
  have hF : ∀ (v : Str) (n : ℚ), pyFloat v = .ok n → (fun s => do return TekVal.num (← pyFloat s)) v = .ok (TekVal.num n) := by
    intro v n hn; simp [hn, bind, Except.bind, pure, Except.pure]
  have hU : ∀ v w : Str, upper v = w → (fun s => (Except.ok (TekVal.text (upper s)) : Except PyErr TekVal)) v = .ok (TekVal.text w) := by
    intro v w e; simp [e]
  have hT : ∀ v w : Str, Unquotes v w → (fun s => (Except.ok (TekVal.text (stripQuote s)) : Except PyErr TekVal)) v = .ok (TekVal.text w) := by
    intro v w e; simp [strip_unquotes v w e]
  have k1 := hv (lit "NR_Pt") v1 _ _ 6 rfl l1 (hI _ _ c1) (lit "NR_PT") (by decide)
  have k2 := hv (lit "BYT_Nr") v2 _ _ 0 rfl l2 (hI _ _ c2) (lit "BYT_NR") (by decide)
  have k3 := hv (lit "BYT_Or") v3 _ _ 4 rfl l3 (hU _ _ c3) (lit "BYT_OR") (by decide)
  have k4 := hv (lit "BN_Fmt") v4 _ _ 3 rfl l4 (hU _ _ c4) (lit "BN_FMT") (by decide)
  have k5 := hv (lit "XINcr") v5 _ _ 9 rfl l5 (hF _ _ c5) (lit "XINCR") (by decide)
  have k6 := hv (lit "XZEro") v6 _ _ 10 rfl l6 (hF _ _ c6) (lit "XZERO") (by decide)
  have k7 := hv (lit "YMUlt") v7 _ _ 14 rfl l7 (hF _ _ c7) (lit "YMULT") (by decide)
  have k8 := hv (lit "YOFf") v8 _ _ 15 rfl l8 (hF _ _ c8) (lit "YOFF") (by decide)
  have k9 := hv (lit "YZEro") v9 _ _ 16 rfl l9 (hF _ _ c9) (lit "YZERO") (by decide)
  have k10 := hv (lit "XUNit") v10 _ _ 8 rfl l10 (hT _ _ c10) (lit "XUNIT") (by decide)
  have k11 := hv (lit "YUNit") v11 _ _ 13 rfl l11 (hT _ _ c11) (lit "YUNIT") (by decide)
  have k12 := hv (lit "WFId") v12 _ _ 5 rfl l12 (hT _ _ c12) (lit "WFID") (by decide)
  have hcodes : samples (decide ((if q.msb then lit "MSB" else lit "LSB") = lit "MSB"))
      (decide ((if q.signed then lit "RI" else lit "RP") = lit "RI")) q.size q.codes.length curve (2 + n) = .ok q.codes := by
    have e1 : decide ((if q.msb then lit "MSB" else lit "LSB") = lit "MSB") = q.msb := by cases q.msb <;> decide
    have e2 : decide ((if q.signed then lit "RI" else lit "RP") = lit "RI") = q.signed := by cases q.signed <;> decide
    rw [e1, e2]
    unfold samples
    have hm : (q.size : ℤ) ∈ [(1 : ℤ), 2, 4, 8] := by rcases hsize with e | e <;> simp [e]
    rw [if_pos hm, hcurve, slice_payload _ _ _ _ _ n hskip]
    · rw [Int.toNat_natCast]
      exact fromBuffer_encode _ _ _ (by omega) _ hfits
    · rw [flat_length _ q.size (encode_length _ _)]; push_cast; ring
  have hlim : limit q.size = .ok (fullScale q.size) := by
    rcases hsize with e | e <;> simp [e, limit, fullScale]
  have hcur : curve[1]? = some b1 := by simp [hcurve]
  exact ⟨hb, text, curve, s, R, b1, n, hsplit, hdec, by rw [sent_fix _ _ hsent]; exact hp, horder, hcur, hexByte_digit _ _ hhex, k1, k2, k3, k4, k5,
    k6, k7, k8, k9, k10, k11, k12, hcodes, hlim⟩

theorem query_reply (dec : List UInt8 → Option Str) (data : List UInt8) (h : Hdr) (q : Acq) (hr : Reply dec data h q)
    (raw noise : Bool) (u : ℕ → ℚ) : parseQuery dec data raw noise u = .ok (expected q raw (wave q noise u)) := by
  obtain ⟨hb, text, curve, s, R, b1, n, hsplit, hdec, hp, horder, hcur, hhex, k1, k2, k3, k4, k5, k6, k7, k8, k9, k10, k11, k12, hcodes, hlim⟩ :=
    reply_facts dec data h q hr
  have hlen : (wave q noise u).length = q.codes.length := by
    unfold wave; cases noise <;> simp [dither]
  have hany : ∀ m : ℤ, (q.codes.any fun c => decide (m ≤ c)) = decide (∃ c ∈ q.codes, m ≤ c) := by
    intro m; rw [Bool.eq_iff_iff]; simp
  have hany2 : ∀ m : ℤ, (q.codes.any fun c => decide (c ≤ m)) = decide (∃ c ∈ q.codes, c ≤ m) := by
    intro m; rw [Bool.eq_iff_iff]; simp
  have hw : (if noise = true then dither (-fullScale q.size) (fullScale q.size) (8 * q.size) q.codes u
      else q.codes.map fun c : ℤ => (c : ℚ)) = wave q noise u := rfl
  unfold parseQuery
  rw [hsplit]
  simp only [bind, Except.bind, hdec, pure, Except.pure, hp, horder, lastRoot, List.getLast?_singleton]
  unfold decodeCurve
  simp only [bind, Except.bind, pure, Except.pure, k1, k2, k3, k4, k5, k6, k10, k12, asInt, asNum, asText, hcur,
    hhex, hcodes, hlim, if_neg hr.nonempty]
  rw [if_neg (by simp)]
  simp only [Int.toNat_natCast, hw]
  unfold convert expected
  cases raw with
  | true =>
    simp only [if_true, hlen]
    simp [hany, hany2]
  | false =>
    simp only [bind, Except.bind, k7, k8, k9, k11, asNum, asText, Bool.false_eq_true, if_false, hlen, if_true]
    simp [hany, hany2]

/-- **C35, partial**: a well formed reply is decoded to the codes that were sent, on the time axis that the header
describes.  The proviso (in `Reply`) is that the bytes of the marker do not occur in the header or among the samples; without it
the claim is false, see `C35_marker_fails`. -/
theorem C35_decodes_partial (dec : List UInt8 → Option Str) (data : List UInt8) (h : Hdr) (q : Acq)
    (hr : Reply dec data h q) (raw : Bool) (u : ℕ → ℚ) :
    parseQuery dec data raw false u = .ok (expected q raw (q.codes.map fun c : ℤ => (c : ℚ))) :=
  query_reply dec data h q hr raw false u

/-- **C38** for whole replies: with noise the same reply gives the same time axis and information; before conversion the
samples are the codes with noise as described by `Dithered`. -/
theorem C38_query_partial (dec : List UInt8 → Option Str) (data : List UInt8) (h : Hdr) (q : Acq)
    (hr : Reply dec data h q) (raw : Bool) (u : ℕ → ℚ) (hu : ∀ k, -(1 / 2) ≤ u k ∧ u k < 1 / 2)
    (h0 : ∃ c ∈ q.codes, c ≠ 0) (hin : ∀ c ∈ q.codes, -fullScale q.size ≤ c ∧ c ≤ fullScale q.size) :
    ∃ ys, Dithered (-fullScale q.size) (fullScale q.size) q.codes ys ∧ parseQuery dec data raw true u = .ok (expected q raw ys) := by
  refine ⟨_, ?_, query_reply dec data h q hr raw true u⟩
  unfold wave
  rw [if_pos rfl]
  exact C38_dither_partial _ _ (by unfold fullScale; split <;> norm_num) _
    (by unfold fullScale; rcases hr.size with e | e <;> simp [e]) _ h0 hin u hu

theorem occ_append (m a b : List UInt8) : occ m b ≤ occ m (a ++ b) := by
  induction a with
  | nil => exact le_refl _
  | cons x a ih => rw [List.cons_append, occ_cons]; omega

/-- **C35 fails** when the bytes of the marker occur among the samples: the reply is rejected although it is well formed. -/
theorem C35_marker_fails (dec : List UInt8 → Option Str) (hb curve : List UInt8) (raw noise : Bool) (u : ℕ → ℚ)
    (hc : markLong <:+: curve) (hs : occ markShort (hb ++ markLong ++ curve) ≠ 1) :
    parseQuery dec (hb ++ markLong ++ curve) raw noise u = .error .valueError := by
  apply C35_rejects _ _ _ _ _ _ hs
  have h1 := occ_append markLong hb (markLong ++ curve)
  rw [occ_skip _ markLong_free _ (List.prefix_append _ _), List.drop_left, ← List.append_assoc] at h1
  have := occ_pos _ _ hc
  omega

/-- **C35 fails** for unsigned samples: the limits are those of signed ones, so that every sample from mid scale on counts as
clipped at the top and none at the bottom. -/
theorem C35_unsigned_fails (dec : List UInt8 → Option Str) (data : List UInt8) (h : Hdr) (q : Acq)
    (hr : Reply dec data h q) (raw : Bool) (u : ℕ → ℚ) (hs : q.signed = false) (h1 : q.size = 1) :
    ∃ r, parseQuery dec data raw false u = .ok r ∧ (r.info.top = true ↔ ∃ c ∈ q.codes, 127 ≤ c) ∧ r.info.bottom = false := by
  refine ⟨_, C35_decodes_partial dec data h q hr raw u, ?_, ?_⟩
  · simp [expected, fullScale, h1]
  · simp only [expected, fullScale, h1, if_true, decide_eq_false_iff_not]
    rintro ⟨c, hc, hle⟩
    have := hr.fits c hc
    rw [hs] at this
    simp only [Fits, Bool.false_eq_true, if_false] at this
    omega

/-! ### Instances -/

/-- A header as an instrument sends it. -/
def exHdr : Hdr :=
  { colon := true, root := lit "WFMO", first := (lit "BYT_N", lit "2"),
    others := [(lit "BIT_NR", lit "16"), (lit "BN_FMT", lit "RI"), (lit "BYT_OR", lit "MSB"),
      (lit "WFID", lit "\"Ch1, DC coupling; 4 points\""), (lit "NR_PT", lit "4"), (lit "XUNIT", lit "\"s\""),
      (lit "XINCR", lit "4.0000E-9"), (lit "XZERO", lit "-20.0E-6"), (lit "PT_O", lit "0"), (lit "YUN", lit "\"V\""),
      (lit "YMULT", lit "3.1250E-6"), (lit "YOFF", lit "-1.5E+3"), (lit "YZERO", lit "0.5"), (lit "OTHER", lit "x y")] }

/-- What it describes. -/
def exAcq : Acq :=
  { size := 2, msb := true, signed := true, codes := [-32768, 0, 258, 32512], xIncr := 1 / 250000000, xZero := -(1 / 50000),
    yMult := 1 / 320000, yOff := -1500, yZero := 1 / 2, xUnit := lit "s", yUnit := lit "V",
    config := lit "Ch1, DC coupling; 4 points" }

/-- An instance of `Last` by computation. -/
theorem last_of_check (fs : List (Str × Str)) (P v : Str) (i : ℕ)
    (h : (match fs[i]? with | some f => f.2 == v && abbrevMatch P f.1 | none => false) = true)
    (h2 : ((fs.drop (i + 1)).all fun f => !abbrevMatch P f.1) = true) : Last fs P v := by
  cases e : fs[i]? with
  | none => rw [e] at h; cases h
  | some f =>
    rw [e] at h
    simp only [Bool.and_eq_true, beq_iff_eq] at h
    obtain ⟨hi, hf⟩ := List.getElem?_eq_some_iff.1 e
    refine ⟨fs.take i, f.1, fs.drop (i + 1), ?_, (abbrevMatch_iff _ _).1 h.2, ?_⟩
    · rw [← h.1, show ((f.1, f.2) : Str × Str) = fs[i] from hf.symm, List.cons_getElem_drop_succ, List.take_append_drop]
    · intro x hx hab
      rw [List.all_eq_true] at h2
      have := h2 x hx
      rw [(abbrevMatch_iff _ _).2 hab] at this
      cases this

/-- An instance of `FieldOk` by computation. -/
theorem fieldOk_of_check (f : Str × Str)
    (h1 : (intKeys.all fun P => !abbrevMatch P f.1 || (match pyInt f.2 with | .ok _ => true | .error _ => false)) = true)
    (h2 : (floatKeys.all fun P => !abbrevMatch P f.1 || (match pyFloat f.2 with | .ok _ => true | .error _ => false)) = true) :
    FieldOk f := by
  rw [List.all_eq_true] at h1 h2
  constructor
  · intro P hP hab
    have := h1 P hP
    rw [(abbrevMatch_iff _ _).2 hab] at this
    cases e : pyInt f.2 with
    | ok n => exact ⟨n, rfl⟩
    | error er => rw [e] at this; cases this
  · intro P hP hab
    have := h2 P hP
    rw [(abbrevMatch_iff _ _).2 hab] at this
    cases e : pyFloat f.2 with
    | ok n => exact ⟨n, rfl⟩
    | error er => rw [e] at this; cases this

theorem exHdr_ok : exHdr.Ok := by
  refine ⟨⟨lit "WFMOutpre", by decide +kernel, (abbrevMatch_iff _ _).1 (by decide +kernel)⟩, ⟨by decide +kernel, ?_, fun _ => by decide +kernel⟩, ?_⟩
  · intro c hc
    simp only [Hdr.cmds, exHdr, fieldCmd, List.map_cons, List.map_nil, List.mem_cons, List.not_mem_nil, or_false] at hc
    rcases hc with rfl|rfl|rfl|rfl|rfl|rfl|rfl|rfl|rfl|rfl|rfl|rfl|rfl|rfl|rfl
    all_goals
      refine ⟨by decide, ?_, quoted_of_scan _ (by decide +kernel) (by decide +kernel), by decide +kernel⟩
      unfold KeyOk
      decide +kernel
  · intro f hf
    simp only [Hdr.fields, exHdr, List.mem_cons, List.not_mem_nil, or_false] at hf
    rcases hf with rfl|rfl|rfl|rfl|rfl|rfl|rfl|rfl|rfl|rfl|rfl|rfl|rfl|rfl|rfl
    all_goals exact fieldOk_of_check _ (by decide +kernel) (by decide +kernel)

/-- A decoder of ASCII. -/
def exDec (bs : List UInt8) : Option Str := if bs.all (· < 128) then some (bs.map fun b => Char.ofNat b.toNat) else none

/-- The header as bytes, here without the closing quote of the description. -/
def exBytes : List UInt8 :=
  ascii (":WFMO:BYT_N 2;BIT_NR 16;BN_FMT RI;BYT_OR MSB;WFID \"Ch1, DC coupling; 4 points;NR_PT 4;XUNIT \"s\";XINCR 4.0000E-9;" ++
    "XZERO -20.0E-6;PT_O 0;YUN \"V\";YMULT 3.1250E-6;YOFF -1.5E+3;YZERO 0.5;OTHER x y")

/-- The whole reply. -/
def exData : List UInt8 := exBytes ++ markLong ++ (ascii "#18" ++ [0x80, 0, 0, 0, 1, 2, 0x7f, 0] ++ ascii "\n")

theorem exReply : Reply exDec exData exHdr exAcq := by
  refine ⟨⟨exHdr_ok, ⟨lit "4", last_of_check _ _ _ 5 (by decide +kernel) (by decide +kernel), by decide +kernel⟩,
    ⟨lit "2", last_of_check _ _ _ 0 (by decide +kernel) (by decide +kernel), by decide +kernel⟩,
    ⟨lit "MSB", last_of_check _ _ _ 3 (by decide +kernel) (by decide +kernel), by decide +kernel⟩,
    ⟨lit "RI", last_of_check _ _ _ 2 (by decide +kernel) (by decide +kernel), by decide +kernel⟩,
    ⟨lit "4.0000E-9", last_of_check _ _ _ 7 (by decide +kernel) (by decide +kernel), by decide +kernel⟩,
    ⟨lit "-20.0E-6", last_of_check _ _ _ 8 (by decide +kernel) (by decide +kernel), by decide +kernel⟩,
    ⟨lit "3.1250E-6", last_of_check _ _ _ 11 (by decide +kernel) (by decide +kernel), by decide +kernel⟩,
    ⟨lit "-1.5E+3", last_of_check _ _ _ 12 (by decide +kernel) (by decide +kernel), by decide +kernel⟩,
    ⟨lit "0.5", last_of_check _ _ _ 13 (by decide +kernel) (by decide +kernel), by decide +kernel⟩,
    ⟨_, last_of_check _ _ (lit "\"s\"") 6 (by decide +kernel) (by decide +kernel), by decide +kernel, Or.inr rfl⟩,
    ⟨_, last_of_check _ _ (lit "\"V\"") 10 (by decide +kernel) (by decide +kernel), by decide +kernel, Or.inr rfl⟩,
    ⟨_, last_of_check _ _ (lit "\"Ch1, DC coupling; 4 points\"") 4 (by decide +kernel) (by decide +kernel), by decide +kernel,
      Or.inr rfl⟩⟩, Or.inr rfl, ?_, by decide, ?_⟩
  · unfold Fits; decide +kernel
  · refine ⟨exBytes.map fun b => Char.ofNat b.toNat, exBytes, 35, 49, ascii "8", ascii "\n", 1, by decide +kernel, Or.inr ⟨
      lit ":WFMO:BYT_N 2;BIT_NR 16;BN_FMT RI;BYT_OR MSB;WFID \"Ch1, DC coupling; 4 points",
      lit " 4;XUNIT \"s\";XINCR 4.0000E-9;XZERO -20.0E-6;PT_O 0;YUN \"V\";YMULT 3.1250E-6;YOFF -1.5E+3;YZERO 0.5;OTHER x y",
      by decide +kernel, by decide +kernel, by decide +kernel, Or.inr ⟨by decide +kernel, by decide +kernel, by decide +kernel⟩⟩,
      Or.inl (by decide +kernel), rfl, Or.inl ⟨by decide +kernel, by decide +kernel, by decide +kernel⟩⟩

/-- The instance of `C35_decodes_partial`. -/
example : parseQuery exDec exData true false (fun _ => 0) =
    .ok ⟨[-(1 / 50000), -(4999 / 250000000), -(2499 / 125000000), -(4997 / 250000000)], [-32768, 0, 258, 32512],
      ⟨lit "Ch1, DC coupling; 4 points", lit "s", lit "ADC Counts", 1 / 250000000, 1, -32512, 32512, true, true⟩⟩ := by
  rw [C35_decodes_partial _ _ _ _ exReply]
  decide +kernel

/-- An instance of `C35_marker_fails`: eight samples of one byte that spell the marker. -/
example (dec : List UInt8 → Option Str) (u : ℕ → ℚ) :
    parseQuery dec (ascii ":WFMO:BYT_NR 1;NR_PT 8" ++ markLong ++
      (ascii "#18" ++ [59, 58, 67, 85, 82, 86, 69, 32].flatMap (encode false 1))) true false u = .error .valueError :=
  C35_marker_fails dec _ _ true false u (by decide +kernel) (by decide +kernel)

/-- A header for unsigned samples. -/
def exHdr2 : Hdr :=
  { colon := false, root := lit "WFMPRE", first := (lit "WFID", lit "\"Ch2\""),
    others := [(lit "NR_P", lit "2"), (lit "BYT_NR", lit "1"), (lit "BN_FMT", lit "RP"), (lit "BYT_OR", lit "lsb"),
      (lit "XUNIT", lit "\"s\""), (lit "XINCR", lit "1"), (lit "XZERO", lit "0"), (lit "YUNIT", lit "V"),
      (lit "YMULT", lit "1"), (lit "YOFF", lit "128"), (lit "YZERO", lit "0")] }

/-- What it describes: the lowest code and the one before the middle. -/
def exAcq2 : Acq :=
  { size := 1, msb := false, signed := false, codes := [0, 127], xIncr := 1, xZero := 0, yMult := 1, yOff := 128, yZero := 0,
    xUnit := lit "s", yUnit := lit "V", config := lit "Ch2" }

theorem exHdr2_ok : exHdr2.Ok := by
  refine ⟨⟨lit "WFMPre", by decide +kernel, (abbrevMatch_iff _ _).1 (by decide +kernel)⟩, ⟨by decide +kernel, ?_, fun _ => by decide +kernel⟩, ?_⟩
  · intro c hc
    simp only [Hdr.cmds, exHdr2, fieldCmd, List.map_cons, List.map_nil, List.mem_cons, List.not_mem_nil, or_false] at hc
    rcases hc with rfl|rfl|rfl|rfl|rfl|rfl|rfl|rfl|rfl|rfl|rfl|rfl
    all_goals
      refine ⟨by decide, ?_, quoted_of_scan _ (by decide +kernel) (by decide +kernel), by decide +kernel⟩
      unfold KeyOk
      decide +kernel
  · intro f hf
    simp only [Hdr.fields, exHdr2, List.mem_cons, List.not_mem_nil, or_false] at hf
    rcases hf with rfl|rfl|rfl|rfl|rfl|rfl|rfl|rfl|rfl|rfl|rfl|rfl
    all_goals exact fieldOk_of_check _ (by decide +kernel) (by decide +kernel)

/-- The header as bytes. -/
def exBytes2 : List UInt8 :=
  ascii ("WFMPRE:WFID \"Ch2\";NR_P 2;BYT_NR 1;BN_FMT RP;BYT_OR lsb;XUNIT \"s\";XINCR 1;XZERO 0;YUNIT V;" ++
    "YMULT 1;YOFF 128;YZERO 0")

theorem exReply2 : Reply exDec (exBytes2 ++ markShort ++ (ascii "#0" ++ [0, 127])) exHdr2 exAcq2 := by
  refine ⟨⟨exHdr2_ok, ⟨lit "2", last_of_check _ _ _ 1 (by decide +kernel) (by decide +kernel), by decide +kernel⟩,
    ⟨lit "1", last_of_check _ _ _ 2 (by decide +kernel) (by decide +kernel), by decide +kernel⟩,
    ⟨lit "lsb", last_of_check _ _ _ 4 (by decide +kernel) (by decide +kernel), by decide +kernel⟩,
    ⟨lit "RP", last_of_check _ _ _ 3 (by decide +kernel) (by decide +kernel), by decide +kernel⟩,
    ⟨lit "1", last_of_check _ _ _ 6 (by decide +kernel) (by decide +kernel), by decide +kernel⟩,
    ⟨lit "0", last_of_check _ _ _ 7 (by decide +kernel) (by decide +kernel), by decide +kernel⟩,
    ⟨lit "1", last_of_check _ _ _ 9 (by decide +kernel) (by decide +kernel), by decide +kernel⟩,
    ⟨lit "128", last_of_check _ _ _ 10 (by decide +kernel) (by decide +kernel), by decide +kernel⟩,
    ⟨lit "0", last_of_check _ _ _ 11 (by decide +kernel) (by decide +kernel), by decide +kernel⟩,
    ⟨_, last_of_check _ _ (lit "\"s\"") 5 (by decide +kernel) (by decide +kernel), by decide +kernel, Or.inr rfl⟩,
    ⟨_, last_of_check _ _ (lit "V") 8 (by decide +kernel) (by decide +kernel), by decide +kernel, Or.inl rfl⟩,
    ⟨_, last_of_check _ _ (lit "\"Ch2\"") 0 (by decide +kernel) (by decide +kernel), by decide +kernel, Or.inr rfl⟩⟩,
    Or.inl rfl, ?_, by decide, ?_⟩
  · unfold Fits; decide +kernel
  · exact ⟨exBytes2.map fun b => Char.ofNat b.toNat, exBytes2, 35, 48, [], [], 0, by decide +kernel,
      Or.inl ⟨by decide +kernel, by decide +kernel⟩, Or.inl (by decide +kernel), rfl,
      Or.inr ⟨by decide +kernel, by decide +kernel, by decide +kernel, by decide +kernel⟩⟩

/-- The instance of `C35_unsigned_fails`: 127 of 0…255 is reported as clipped. -/
example : ∃ r, parseQuery exDec (exBytes2 ++ markShort ++ (ascii "#0" ++ [0, 127])) false false (fun _ => 0) = .ok r ∧
    r.info.top = true ∧ r.info.bottom = false ∧ r.y = [-128, -1] := by
  rw [C35_decodes_partial _ _ _ _ exReply2]
  exact ⟨_, rfl, by decide +kernel⟩

end Verif.Props.Wave
