import Verif.Props.WaveHeader

/-!
C89: replies about the trigger and the preamble of a waveform, read with `TEK_TYPES`.
-/

namespace Verif.Props.TekTypes

open Verif Verif.Scpi Verif.Decimal Verif.Wave Verif.Props.Scpi Verif.Props.Wave
open Verif.Tek (lit parsePolarity parseComparison parseThreshold)

/-! ### Specification -/

/-- The kinds of values. -/
inductive Kind where
  | integer | number | word | quoted | polarity | comparison | threshold
  deriving DecidableEq

/-- What is made of the text of a value. -/
def Kind.read : Kind → Str → Except PyErr TekVal
  | .integer => fun s => do return .int (← pyInt s)
  | .number => fun s => do return .num (← pyFloat s)
  | .word => fun s => .ok (.text (s.map Char.toUpper))
  | .quoted => fun s => .ok (.text (stripQuote s))
  | .polarity => fun s => .ok (.pol (parsePolarity s))
  | .comparison => fun s => .ok (.cmp (parseComparison s))
  | .threshold => fun s => do return .num (← parseThreshold s)

/-- The settings of the trigger by group; upper case letters are those that are needed. -/
def trigger : List (List Str × List (Str × Kind)) :=
  [([lit "BANDWidth", lit "RF"], [(lit "HIGH", .number), (lit "LOW", .number)]),
   ([lit "EDGE"], [(lit "COUPling", .word), (lit "SLOpe", .polarity), (lit "SOUrce", .word)]),
   ([lit "HOLDoff"], [(lit "TIMe", .number)]),
   ([lit "LEVel"], [lit "AUXin", lit "CH1", lit "CH2", lit "CH3", lit "CH4", lit "D0", lit "D1", lit "D2", lit "D3", lit "D4", lit "D5", lit "D6",
      lit "D7", lit "D8", lit "D9", lit "D10", lit "D11", lit "D12", lit "D13", lit "D14", lit "D15"].map fun k => (k, .threshold)),
   ([], [(lit "MODe", .word), (lit "TYPe", .word)]),
   ([lit "PULse"], [(lit "CLAss", .word)]),
   ([lit "PULSEWidth"], [(lit "HIGHLimit", .number), (lit "LOWLimit", .number), (lit "POLarity", .polarity), (lit "SOUrce", .word),
      (lit "WHEn", .comparison), (lit "WIDth", .number)]),
   ([lit "TIMEOut"], [(lit "POLarity", .polarity), (lit "SOUrce", .word), (lit "TIMe", .number)])]

/-- The entries of the preamble. -/
def preamble : List (Str × Kind) :=
  [(lit "BYT_Nr", .integer), (lit "BIT_Nr", .integer), (lit "ENCdg", .word), (lit "BN_Fmt", .word), (lit "BYT_Or", .word),
   (lit "WFId", .quoted), (lit "NR_Pt", .integer), (lit "PT_Fmt", .word), (lit "XUNit", .quoted), (lit "XINcr", .number),
   (lit "XZEro", .number), (lit "PT_Off", .integer), (lit "PT_ORder", .word), (lit "YUNit", .quoted), (lit "YMUlt", .number),
   (lit "YOFf", .number), (lit "YZEro", .number), (lit "VSCALE", .number), (lit "HSCALE", .number), (lit "VPOS", .number),
   (lit "VOFFSET", .number), (lit "HDELAY", .number), (lit "DOMain", .word), (lit "WFMTYPe", .word),
   (lit "CENTERFREQuency", .number), (lit "SPAN", .number), (lit "REFLEvel", .number)]

/-- All settings with a known kind of value. -/
def known : List (List Str × Kind) :=
  (trigger.flatMap fun g => g.2.map fun e => (lit "TRIGger" :: lit "A" :: g.1 ++ [e.1], e.2)) ++
  [lit "WFMOutpre", lit "WFMInpre", lit "WFMPre"].flatMap fun r => preamble.map fun e => ([r, e.1], e.2)

/-! ### Ranges of keys -/

theorem takeWhile_stop {α : Type} (p : α → Bool) (s : List α) (x : α) (t : List α) (h : ∀ c ∈ s, p c = true) (hx : p x = false) :
    (s ++ x :: t).takeWhile p = s ∧ (s ++ x :: t).dropWhile p = x :: t := by
  induction s with
  | nil => simp [hx]
  | cons a s ih =>
    obtain ⟨i1, i2⟩ := ih fun c hc => h c (by simp [hc])
    simp [h a (by simp), i1, i2]

theorem isWord_iff (c : Char) : isWord c = true ↔ c.isAlphanum = true ∨ c = '_' := by
  simp only [isWord, isLower, Char.isAlphanum, Char.isAlpha, Char.isUpper, Char.isLower, Char.isDigit, Bool.or_eq_true, Bool.and_eq_true,
    decide_eq_true_eq, Char.le_def]
  constructor
  · rintro (((h | h) | h) | h)
    · exact .inl (.inl (.inr h))
    · exact .inl (.inl (.inl h))
    · exact .inl (.inr h)
    · exact .inr h
  · rintro (((h | h) | h) | h)
    · exact .inl (.inl (.inr h))
    · exact .inl (.inl (.inl h))
    · exact .inl (.inr h)
    · exact .inr h

/-- C25, ranges: a type key with a range of numbers stands for the keys with these numbers, in this order, and no others. -/
theorem C25_range (name a b rest : Str) (hn : name ≠ []) (ha : a ≠ []) (hb : b ≠ []) (hw' : ∀ c ∈ name, c.isAlphanum = true ∨ c = '_')
    (had : ∀ c ∈ a, isDig c = true) (hbd : ∀ c ∈ b, isDig c = true) (hr : '|' ∉ rest) (k : Str) :
    k ∈ alternatives (name ++ '<' :: a ++ '-' :: b ++ '>' :: rest) ↔
      ∃ i : ℕ, digitsVal a ≤ i ∧ i ≤ digitsVal b ∧ k = name ++ (toString i).toList := by
  have hw : ∀ c ∈ name, isWord c = true := fun c hc => (isWord_iff c).2 (hw' c hc)
  have notin : ∀ (s : Str) (p : Char → Bool), p '|' = false → (∀ c ∈ s, p c = true) → '|' ∉ s := by
    intro s p hp h hm
    rw [h _ hm] at hp
    exact absurd hp (by simp)
  have hbar : '|' ∉ name ++ '<' :: a ++ '-' :: b ++ '>' :: rest := by
    simp only [List.mem_append, List.mem_cons, not_or]
    exact ⟨⟨⟨notin name isWord (by decide) hw, by decide, notin a isDig (by decide) had⟩, by decide, notin b isDig (by decide) hbd⟩,
      by decide, hr⟩
  have hm : rangeMatch (name ++ '<' :: a ++ '-' :: b ++ '>' :: rest) = some (name, digitsVal a, digitsVal b) := by
    have e : name ++ '<' :: a ++ '-' :: b ++ '>' :: rest = name ++ '<' :: (a ++ '-' :: (b ++ '>' :: rest)) := by simp
    obtain ⟨p1, p2⟩ := takeWhile_stop isWord name '<' (a ++ '-' :: (b ++ '>' :: rest)) hw (by decide)
    obtain ⟨q1, q2⟩ := takeWhile_stop isDig a '-' (b ++ '>' :: rest) had (by decide)
    obtain ⟨r1, r2⟩ := takeWhile_stop isDig b '>' rest hbd (by decide)
    unfold rangeMatch
    rw [e]
    simp only [p1, p2, q1, q2, r1, r2, hn, ha, hb, or_self, if_false]
  unfold alternatives
  rw [splitOn_no _ _ hbar]
  simp only [List.flatMap_cons, List.flatMap_nil, List.append_nil, hm, List.mem_map, List.mem_range'_1]
  constructor
  · rintro ⟨i, ⟨h1, h2⟩, rfl⟩
    exact ⟨i, h1, by omega, rfl⟩
  · rintro ⟨i, h1, h2, rfl⟩
    exact ⟨i, ⟨h1, by omega⟩, rfl⟩

/-- C25, no range: without a hyphen the key stands for itself. -/
theorem C25_no_range (kd : Str) (h : '|' ∉ kd) (hm : '-' ∉ kd) : alternatives kd = [kd] := by
  have : rangeMatch kd = none := by
    unfold rangeMatch
    have sub : ∀ (p q : Char → Bool) r, kd.dropWhile p = '<' :: r → '-' ∉ r.dropWhile q := by
      intro p q r e hc
      apply hm
      have h1 := (List.dropWhile_suffix q).subset hc
      exact (List.dropWhile_suffix p).subset (by rw [e]; exact List.mem_cons_of_mem _ h1)
    simp only
    split
    · rename_i r1 e
      split
      · rename_i r2 e2
        exact absurd (by rw [e2]; simp) (sub _ _ _ e)
      · rfl
    · rfl
  unfold alternatives
  rw [splitOn_no _ _ h]
  simp [this]

/-- The range of the channels. -/
example : (∀ c ∈ lit "CH", c.isAlphanum = true ∨ c = '_') ∧ (∀ c ∈ lit "4", isDig c = true) ∧
    alternatives (lit "CH<1-4>") = [lit "CH1", lit "CH2", lit "CH3", lit "CH4"] := by decide +kernel

/-! ### Lookup -/

/-- No key abbreviates two of them. -/
def distinct (ks : List Str) : Prop := (ks.flatMap alternatives).Pairwise fun P Q => ∀ k ∈ forms P, k ∉ forms Q

instance (ks : List Str) : Decidable (distinct ks) := by unfold distinct; infer_instance

theorem resolves_step (es : List (Str × Ty TekVal)) (hd : distinct (es.map Prod.fst)) (kd kk k : Str) (ty : Ty TekVal) (hm : (kd, ty) ∈ es)
    (hk : kk ∈ alternatives kd) (h : Abbrev kk k) (ks ps : List Str) (ty' : Option (Ty TekVal)) (hr : Resolves (some ty) ks ps ty') :
    Resolves (some (.dict es)) (k :: ks) (upper kk :: ps) ty' := by
  obtain ⟨before, after, rfl⟩ := List.append_of_mem hm
  obtain ⟨ab, aa, ea⟩ := List.append_of_mem hk
  unfold distinct at hd
  rw [List.map_append, List.map_cons, List.flatMap_append, List.flatMap_cons, List.pairwise_append] at hd
  obtain ⟨-, hd2, hd3⟩ := hd
  rw [List.pairwise_append] at hd2
  have hd2 := hd2.1
  refine .known k ks ps ty' before after kd ty ab aa kk ?_ ea ?_ h hr
  · intro e he a ha hab
    refine hd3 a (List.mem_flatMap.2 ⟨e.1, List.mem_map_of_mem he, ha⟩) kk (List.mem_append_left _ hk) k (mem_forms _ _ hab) (mem_forms _ _ h)
  · intro a ha hab
    simp only at hd2
    rw [ea, List.pairwise_append] at hd2
    exact hd2.2.2 a ha kk (by simp) k (mem_forms _ _ hab) (mem_forms _ _ h)

/-- A dictionary of values only. -/
def leaves (l : List (Str × Kind)) : List (Str × Ty TekVal) := l.map fun e => (e.1, .conv e.2.read)

theorem leaf (l : List (Str × Kind)) (hd : distinct (l.map Prod.fst)) (ha : ∀ k ∈ l.map Prod.fst, alternatives k = [k]) (e : Str × Kind) (he : e ∈ l)
    (k : Str) (h : Abbrev e.1 k) : Resolves (some (.dict (leaves l))) [k] [upper e.1] (some (.conv e.2.read)) := by
  have hf : (leaves l).map Prod.fst = l.map Prod.fst := by simp [leaves, Function.comp_def]
  refine resolves_step (leaves l) (by rw [hf]; exact hd) e.1 e.1 k _ (List.mem_map.2 ⟨e, he, rfl⟩) ?_ h _ _ _ (.nil _)
  rw [ha e.1 (List.mem_map_of_mem he)]
  simp

/-- The dictionary of the trigger. -/
def inner : List (Str × Ty TekVal) :=
  [(lit "BANDWidth", .dict [(lit "RF", .dict (leaves [(lit "HIGH", .number), (lit "LOW", .number)]))]),
   (lit "EDGE", .dict (leaves [(lit "COUPling", .word), (lit "SLOpe", .polarity), (lit "SOUrce", .word)])),
   (lit "HOLDoff", .dict (leaves [(lit "TIMe", .number)])),
   (lit "LEVel", .dict (leaves [(lit "AUXin", .threshold), (lit "CH<1-4>", .threshold), (lit "D<0-15>", .threshold)])),
   (lit "MODe", .conv Kind.word.read),
   (lit "PULse", .dict (leaves [(lit "CLAss", .word)])),
   (lit "PULSEWidth", .dict (leaves [(lit "HIGHLimit", .number), (lit "LOWLimit", .number), (lit "POLarity", .polarity), (lit "SOUrce", .word),
      (lit "WHEn", .comparison), (lit "WIDth", .number)])),
   (lit "TIMEOut", .dict (leaves [(lit "POLarity", .polarity), (lit "SOUrce", .word), (lit "TIMe", .number)])),
   (lit "TYPe", .conv Kind.word.read)]

theorem trigTypes_eq : trigTypes = [(lit "A", .dict inner)] := rfl

theorem wfmTypes_eq : wfmTypes = leaves preamble := rfl

theorem inner_distinct : distinct (inner.map Prod.fst) := by
  show distinct [lit "BANDWidth", lit "EDGE", lit "HOLDoff", lit "LEVel", lit "MODe", lit "PULse", lit "PULSEWidth", lit "TIMEOut", lit "TYPe"]
  decide +kernel

theorem plain : ∀ k ∈ [lit "TRIGger", lit "A", lit "BANDWidth", lit "RF", lit "EDGE", lit "HOLDoff", lit "LEVel", lit "MODe", lit "PULse", lit "PULSEWidth",
    lit "TIMEOut", lit "TYPe"], alternatives k = [k] := by decide +kernel

/-- An abbreviation of each key of a path. -/
abbrev Abbrevs (path ks : List Str) : Prop := List.Forall₂ Abbrev path ks

theorem abbrevs_one {P : Str} {ks : List Str} (h : Abbrevs [P] ks) : ∃ k, ks = [k] ∧ Abbrev P k := by
  cases h with
  | cons h1 h2 => cases h2; exact ⟨_, rfl, h1⟩

theorem in_inner (g : List Str × List (Str × Kind)) (hg : g ∈ trigger) (e : Str × Kind) (he : e ∈ g.2) (ks : List Str) (h : Abbrevs (g.1 ++ [e.1]) ks) :
    Resolves (some (.dict inner)) ks ((g.1 ++ [e.1]).map upper) (some (.conv e.2.read)) := by
  have grp : ∀ (kd : Str) (l : List (Str × Kind)), (kd, Ty.dict (leaves l)) ∈ inner → alternatives kd = [kd] → distinct (l.map Prod.fst) →
      (∀ k ∈ l.map Prod.fst, alternatives k = [k]) → e ∈ l → Abbrevs [kd, e.1] ks →
      Resolves (some (.dict inner)) ks ([kd, e.1].map upper) (some (.conv e.2.read)) := by
    intro kd l hm ha hd hl hel hab
    cases hab with
    | cons h1 h2 =>
      obtain ⟨k, rfl, h3⟩ := abbrevs_one h2
      exact resolves_step inner inner_distinct kd kd _ _ hm (by rw [ha]; simp) h1 _ _ _ (leaf l hd hl e hel k h3)
  unfold trigger at hg
  simp only [List.mem_cons, List.not_mem_nil, or_false] at hg
  rcases hg with rfl | rfl | rfl | rfl | rfl | rfl | rfl | rfl
  · cases h with
    | cons h1 h2 =>
      cases h2 with
      | cons h2 h3 =>
        obtain ⟨k, rfl, h4⟩ := abbrevs_one h3
        refine resolves_step inner inner_distinct (lit "BANDWidth") (lit "BANDWidth") _ _ (by unfold inner; exact List.mem_cons_self)
          (by rw [plain _ (by simp)]; simp) h1 _ _ _ ?_
        refine resolves_step _ (by show distinct [lit "RF"]; decide +kernel) (lit "RF") (lit "RF") _ _ List.mem_cons_self
          (by rw [plain _ (by simp)]; simp) h2 _ _ _ ?_
        exact leaf _ (by decide +kernel) (by decide +kernel) e he k h4
  · exact grp _ _ (by unfold inner; simp) (plain _ (by simp)) (by decide +kernel) (by decide +kernel) he h
  · exact grp _ _ (by unfold inner; simp) (plain _ (by simp)) (by decide +kernel) (by decide +kernel) he h
  · cases h with
    | cons h1 h2 =>
      obtain ⟨k, rfl, h3⟩ := abbrevs_one h2
      refine resolves_step inner inner_distinct (lit "LEVel") (lit "LEVel") _ _ (List.mem_of_getElem? (i := 3) rfl) (by rw [plain _ (by simp)]; simp) h1 _ _ _ ?_
      have hx : ∀ x ∈ [lit "AUXin", lit "CH1", lit "CH2", lit "CH3", lit "CH4", lit "D0", lit "D1", lit "D2", lit "D3", lit "D4", lit "D5", lit "D6",
          lit "D7", lit "D8", lit "D9", lit "D10", lit "D11", lit "D12", lit "D13", lit "D14", lit "D15"],
          ∃ kd ∈ [lit "AUXin", lit "CH<1-4>", lit "D<0-15>"], x ∈ alternatives kd := by decide +kernel
      obtain ⟨x, hx1, rfl⟩ := List.mem_map.1 he
      obtain ⟨kd, m1, m2⟩ := hx x hx1
      refine resolves_step _ (by show distinct [lit "AUXin", lit "CH<1-4>", lit "D<0-15>"]; decide +kernel) kd x k _ ?_ m2 h3 _ _ _ (.nil _)
      simp only [List.mem_cons, List.not_mem_nil, or_false] at m1
      rcases m1 with rfl | rfl | rfl <;> simp [leaves]
  · obtain ⟨k, rfl, h3⟩ := abbrevs_one h
    simp only [List.mem_cons, List.not_mem_nil, or_false] at he
    rcases he with rfl | rfl
    · exact resolves_step inner inner_distinct (lit "MODe") (lit "MODe") _ _ (by unfold inner; simp) (by rw [plain _ (by simp)]; simp) h3 _ _ _ (.nil _)
    · exact resolves_step inner inner_distinct (lit "TYPe") (lit "TYPe") _ _ (by unfold inner; simp) (by rw [plain _ (by simp)]; simp) h3 _ _ _ (.nil _)
  · exact grp _ _ (by unfold inner; simp) (plain _ (by simp)) (by decide +kernel) (by decide +kernel) he h
  · exact grp _ _ (by unfold inner; simp) (plain _ (by simp)) (by decide +kernel) (by decide +kernel) he h
  · exact grp _ _ (by unfold inner; simp) (plain _ (by simp)) (by decide +kernel) (by decide +kernel) he h

theorem top_distinct : distinct [lit "TRIGger", lit "WFMOutpre|WFMInpre|WFMPre"] := by decide +kernel

/-- C89, keys: any abbreviation of a known setting stands for its long form and its kind of value. -/
theorem C89_keys (r : List Str × Kind) (hr : r ∈ known) (ks : List Str) (h : Abbrevs r.1 ks) :
    Resolves (some tekTypes) ks (r.1.map upper) (some (.conv r.2.read)) := by
  unfold known at hr
  rcases List.mem_append.1 hr with hr | hr
  · obtain ⟨g, hg, hr⟩ := List.mem_flatMap.1 hr
    obtain ⟨e, he, rfl⟩ := List.mem_map.1 hr
    rw [List.cons_append, List.cons_append] at h
    cases h with
    | cons h1 h2 =>
      cases h2 with
      | cons h2 h3 =>
        refine resolves_step [(lit "TRIGger", .dict trigTypes), (lit "WFMOutpre|WFMInpre|WFMPre", .dict wfmTypes)] top_distinct (lit "TRIGger") (lit "TRIGger") _ _ List.mem_cons_self (by rw [plain _ (by simp)]; simp) h1 _ _ _ ?_
        rw [trigTypes_eq]
        refine resolves_step _ (by show distinct [lit "A"]; decide +kernel) (lit "A") (lit "A") _ _ List.mem_cons_self (by rw [plain _ (by simp)]; simp) h2 _ _ _ ?_
        exact in_inner g hg e he _ h3
  · obtain ⟨R, hR, hr⟩ := List.mem_flatMap.1 hr
    obtain ⟨e, he, rfl⟩ := List.mem_map.1 hr
    cases h with
    | cons h1 h2 =>
      obtain ⟨k, rfl, h3⟩ := abbrevs_one h2
      have hal : alternatives (lit "WFMOutpre|WFMInpre|WFMPre") = roots := by decide +kernel
      refine resolves_step [(lit "TRIGger", .dict trigTypes), (lit "WFMOutpre|WFMInpre|WFMPre", .dict wfmTypes)] top_distinct (lit "WFMOutpre|WFMInpre|WFMPre") R _ _ (List.mem_cons_of_mem _ List.mem_cons_self)
        (by rw [hal]; exact hR) h1 _ _ _ ?_
      rw [wfmTypes_eq]
      exact leaf preamble (by decide +kernel) (by decide +kernel) e he k h3

/-- C89: a reply of known settings, each with its full path in any abbreviation, gives exactly the values of their kinds under the long forms, the last
one if a setting repeats. -/
theorem C89_reply (cs : List (Cmd × (List Str × Kind) × TekVal)) (n : ℕ) (hs : Sendable (cs.map Prod.fst) n) (habs : ∀ e ∈ cs.tail, e.1.abs = true)
    (h : ∀ e ∈ cs, e.2.1 ∈ known ∧ Abbrevs e.2.1.1 e.1.keys ∧ e.2.1.2.read e.1.value = .ok e.2.2) :
    ∃ s : St TekVal, parse (render (cs.map Prod.fst) ++ List.replicate n ';') true (some tekTypes) = .ok s ∧
      ∀ k, getFlat s.flat k =
        ((cs.filter fun e => (':' :: joinWith ':' (e.2.1.1.map upper)) == k).getLast?).map fun e => Val.conv e.2.2 := by
  obtain ⟨s, h1, h2⟩ := C25_typed_stream (some tekTypes) (cs.map fun e => (e.1, e.2.1.1.map upper, e.2.2)) n
    (by simpa [Function.comp_def] using hs)
    (by
      intro e he
      rw [← List.map_tail] at he
      obtain ⟨x, hx, rfl⟩ := List.mem_map.1 he
      exact habs x hx)
    (by
      intro e he
      obtain ⟨x, hx, rfl⟩ := List.mem_map.1 he
      obtain ⟨k1, k2, k3⟩ := h x hx
      exact ⟨_, C89_keys x.2.1 k1 _ k2, k3⟩)
  refine ⟨s, ?_, ?_⟩
  · rw [← h1]; simp [Function.comp_def]
  · intro k
    rw [h2 k, List.filter_map, List.getLast?_map, Option.map_map]
    rfl

/-- C89: a value that its kind cannot read raises that error. -/
theorem C89_error (s : St TekVal) (c : Cmd) (hc : c.Ok) (hroot : c.abs = true ∨ (s.parent = [':'] ∧ s.path = [] ∧ s.types = some tekTypes))
    (r : List Str × Kind) (hr : r ∈ known) (h : Abbrevs r.1 c.keys) (e : PyErr) (he : r.2.read c.value = .error e) :
    command true (some tekTypes) s c.text = .error e :=
  (C25_typed (some tekTypes) s c hc hroot _ _ (C89_keys r hr _ h)).2 e he

/-! ### Instances -/

/-- A reply with three settings in different abbreviations. -/
def exampleReply : List (Cmd × (List Str × Kind) × TekVal) :=
  [(⟨false, [lit "TRIG", lit "A", lit "EDGE", lit "SLO"], lit "RIS"⟩, ([lit "TRIGger", lit "A", lit "EDGE", lit "SLOpe"], .polarity), .pol (.val .rising)),
   (⟨true, [lit "TRIGGER", lit "A", lit "LEV", lit "CH3"], lit "TTL"⟩, ([lit "TRIGger", lit "A", lit "LEVel", lit "CH3"], .threshold), .num (7 / 5)),
   (⟨true, [lit "WFMO", lit "NR_PT"], lit "1000"⟩, ([lit "WFMOutpre", lit "NR_Pt"], .integer), .int 1000)]

/-- The hypotheses of `C89_reply` are met. -/
example : Sendable (exampleReply.map Prod.fst) 0 ∧ (∀ e ∈ exampleReply.tail, e.1.abs = true) ∧
    ∀ e ∈ exampleReply, e.2.1 ∈ known ∧ Abbrevs e.2.1.1 e.1.keys ∧ e.2.1.2.read e.1.value = .ok e.2.2 := by
  have ab : ∀ (ps ks : List Str), ps.length = ks.length → (ps.zip ks).all (fun e => abbrevMatch e.1 e.2) = true → Abbrevs ps ks := by
    intro ps
    induction ps with
    | nil => intro ks h _; cases ks with
      | nil => exact .nil
      | cons => simp at h
    | cons p ps ih => intro ks h h2; cases ks with
      | nil => simp at h
      | cons k ks =>
        rw [List.zip_cons_cons, List.all_cons, Bool.and_eq_true] at h2
        exact .cons ((abbrevMatch_iff _ _).1 h2.1) (ih ks (by simpa using h) h2.2)
  refine ⟨⟨by decide, ?_, by decide +kernel⟩, by decide, ?_⟩
  · intro c hc
    simp only [exampleReply, List.map_cons, List.map_nil, List.mem_cons, List.not_mem_nil, or_false] at hc
    rcases hc with rfl | rfl | rfl
    all_goals
      refine ⟨by decide, ?_, quoted_of_scan _ (by decide +kernel) (by decide +kernel), by decide +kernel⟩
      unfold KeyOk
      decide +kernel
  · intro e he
    simp only [exampleReply, List.mem_cons, List.not_mem_nil, or_false] at he
    rcases he with rfl | rfl | rfl
    all_goals exact ⟨by decide +kernel, ab _ _ rfl (by decide +kernel), by decide +kernel⟩

end Verif.Props.TekTypes
