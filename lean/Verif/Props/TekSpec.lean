import Verif.Model.Tek
import Verif.Props.Decimal
import Verif.Props.Scpi

/-!
An ideal instrument, as a specification against which the Tektronix drivers are judged: it understands texts
`header value`, keeps one value per header, and answers queries with the value.  The header texts are those of the model
(`Hdr.text`); that different settings have different header texts is proved here, not assumed.
-/

namespace Verif.Props.Tek

open Verif Verif.Scpi Verif.Decimal Verif.Tek Verif.Props.Decimal

/-! ### Header texts -/

/-- A channel name: the name contains a digit, no colon and no blank (`CH1`, `D15`). -/
def AliasOk (a : Str) : Prop := (∀ c ∈ a, c ≠ ':' ∧ c ≠ ' ') ∧ ∃ c ∈ a, isDig c = true

/-- Well formed headers: channel names in the channel headers, a word as the source of a trigger level. -/
def Wf : Hdr → Prop
  | .position a | .label a | .active a | .scale a | .bandwidth a | .coupling a | .deskew a | .invert a | .offset a
  | .termination a | .probeGain a | .threshold a => AliasOk a
  | .tLevel s => ∀ c ∈ s, c ≠ ':' ∧ c ≠ ' '
  | _ => True

theorem AliasOk.ne {a : Str} (h : AliasOk a) (k : Str) (hk : k.all (fun c => !isDig c) = true) : a ≠ k := by
  rintro rfl
  obtain ⟨-, c, hc, hd⟩ := h
  have := List.all_eq_true.1 hk c hc
  simp [hd] at this

theorem alias_ch (n : ℕ) : AliasOk (lit "CH" ++ digitsText 1 n) := by
  refine ⟨?_, ?_⟩
  · intro c hc
    rcases List.mem_append.1 hc with hc | hc
    · exact (by decide : ∀ c ∈ lit "CH", c ≠ ':' ∧ c ≠ ' ') c hc
    · have h := digitsText_dig 1 n c hc
      constructor <;> rintro rfl <;> exact absurd h (by decide)
  · obtain ⟨c, hc⟩ := List.exists_mem_of_ne_nil _ (digitsText_ne_nil 1 n (by norm_num))
    exact ⟨c, List.mem_append.2 (Or.inr hc), digitsText_dig 1 n c hc⟩

theorem alias_d (n : ℕ) : AliasOk (lit "D" ++ digitsText 1 n) := by
  refine ⟨?_, ?_⟩
  · intro c hc
    rcases List.mem_append.1 hc with hc | hc
    · exact (by decide : ∀ c ∈ lit "D", c ≠ ':' ∧ c ≠ ' ') c hc
    · have h := digitsText_dig 1 n c hc
      constructor <;> rintro rfl <;> exact absurd h (by decide)
  · obtain ⟨c, hc⟩ := List.exists_mem_of_ne_nil _ (digitsText_ne_nil 1 n (by norm_num))
    exact ⟨c, List.mem_append.2 (Or.inr hc), digitsText_dig 1 n c hc⟩

/-- The first of a list of choices whose word is the given one. -/
def pick (k : Str) : List (String × Hdr) → Option Hdr
  | [] => none
  | (w, h) :: r => if k = lit w then some h else pick k r

/-- Reading a path back. -/
def ofPath : List Str → Option Hdr
  | [x] => pick x [("HEADER", .header), ("VERBOSE", .verbose)]
  | [x, y] =>
    if x = lit "SELECT" then some (.active y)
    else if x = lit "DATA" then pick y [("SOURCE", .dataSource), ("START", .dataStart), ("STOP", .dataStop),
      ("WIDTH", .dataWidth), ("ENCDG", .dataEncdg)]
    else if x = lit "ACQUIRE" then pick y [("MODE", .acqMode), ("NUMAVG", .numAvg), ("NUMENV", .numEnv)]
    else if x = lit "HORIZONTAL" then pick y [("MODE", .horMode), ("SCALE", .horScale), ("RECORDLENGTH", .horRecord),
      ("SAMPLERATE", .horRate)]
    else if x = lit "TRIGGER" then some .tAuxLevel
    else pick y [("POSITION", .position x), ("LABEL", .label x), ("SCALE", .scale x), ("BANDWIDTH", .bandwidth x),
      ("COUPLING", .coupling x), ("DESKEW", .deskew x), ("INVERT", .invert x), ("OFFSET", .offset x),
      ("TERMINATION", .termination x), ("THRESHOLD", .threshold x)]
  | [x, y, z] =>
    if x = lit "TRIGGER" then some .tType
    else if x = lit "HORIZONTAL" then pick z [("MODE", .horDelayMode), ("TIME", .horDelayTime)]
    else pick y [("LABEL", .label x), ("PROBE", .probeGain x)]
  | [x, _, y, z] =>
    if x = lit "DISPLAY" then some (.active y)
    else if x = lit "HORIZONTAL" then some .horManualConfigure
    else if y = lit "LEVEL" then some (.tLevel z)
    else if y = lit "EDGE" then pick z [("SOURCE", .edgeSource), ("SLOPE", .edgeSlope), ("COUPLING", .edgeCoupling)]
    else if y = lit "PULSE" then some .pulseClass
    else if y = lit "HOLDOFF" then some .tHoldoff
    else if y = lit "TIMEOUT" then pick z [("SOURCE", .timeoutSource), ("TIME", .timeoutTime),
      ("POLARITY", .timeoutPolarity)]
    else pick z [("SOURCE", .widthSource), ("LOWLIMIT", .widthLow), ("HIGHLIMIT", .widthHigh), ("WIDTH", .widthWidth),
      ("WHEN", .widthWhen), ("POLARITY", .widthPolarity)]
  | _ => none

theorem ofPath_path (f : Family) (h : Hdr) (hw : Wf h) : ofPath (h.path f) = some h := by
  cases h <;> cases f <;> first
    | rfl
    | (have e := AliasOk.ne (show AliasOk _ from hw)
       have e1 := e (lit "SELECT") (by decide)
       have e2 := e (lit "DATA") (by decide)
       have e3 := e (lit "ACQUIRE") (by decide)
       have e4 := e (lit "HORIZONTAL") (by decide)
       have e5 := e (lit "TRIGGER") (by decide)
       have e6 := e (lit "DISPLAY") (by decide)
       simp only [Hdr.path, ofPath, if_neg e1, if_neg e2, if_neg e3, if_neg e4, if_neg e5]
       first | rfl | (simp only [pick]; rfl))

theorem splitOn_word (w : Str) (h : ':' ∉ w) : splitOn ':' w = [w] := by
  induction w with
  | nil => rfl
  | cons a w ih =>
    simp only [List.mem_cons, not_or] at h
    have ha : a ≠ ':' := fun e => h.1 e.symm
    simp [splitOn, ih h.2, ha]

theorem splitOn_cons (w r : Str) (h : ':' ∉ w) : splitOn ':' (w ++ ':' :: r) = w :: splitOn ':' r := by
  induction w with
  | nil => simp [splitOn]
  | cons a w ih =>
    simp only [List.mem_cons, not_or] at h
    have ha : a ≠ ':' := fun e => h.1 e.symm
    simp [splitOn, ih h.2, ha]

theorem splitOn_intercalate (p : List Str) (hp : p ≠ []) (h : ∀ w ∈ p, ':' ∉ w) :
    splitOn ':' (List.intercalate [':'] p) = p := by
  induction p with
  | nil => exact absurd rfl hp
  | cons w p ih =>
    cases p with
    | nil => simpa [List.intercalate] using splitOn_word w (h w (by simp))
    | cons w' p =>
      have := ih (by simp) (fun x hx => h x (by simp [hx]))
      have e : List.intercalate [':'] (w :: w' :: p) = w ++ ':' :: List.intercalate [':'] (w' :: p) := by
        simp [List.intercalate, List.intersperse]
      rw [e, splitOn_cons w _ (h w (by simp)), this]

theorem path_ok (f : Family) (h : Hdr) (hw : Wf h) :
    h.path f ≠ [] ∧ ∀ w ∈ h.path f, ∀ c ∈ w, c ≠ ':' ∧ c ≠ ' ' := by
  cases h <;> cases f <;> first
    | exact ⟨by decide, by decide⟩
    | (have e := (show AliasOk _ from hw).1
       refine ⟨by simp [Hdr.path], ?_⟩
       intro w hm
       simp only [Hdr.path, List.mem_cons, List.not_mem_nil, or_false] at hm
       rcases hm with rfl | rfl | rfl | rfl <;> first | exact e | decide)
    | (have e := (show AliasOk _ from hw).1
       refine ⟨by simp [Hdr.path], ?_⟩
       intro w hm
       simp only [Hdr.path, List.mem_cons, List.not_mem_nil, or_false] at hm
       rcases hm with rfl | rfl | rfl <;> first | exact e | decide)
    | (have e := (show AliasOk _ from hw).1
       refine ⟨by simp [Hdr.path], ?_⟩
       intro w hm
       simp only [Hdr.path, List.mem_cons, List.not_mem_nil, or_false] at hm
       rcases hm with rfl | rfl <;> first | exact e | decide)
    | (refine ⟨by simp [Hdr.path], ?_⟩
       intro w hm
       simp only [Hdr.path, List.mem_cons, List.not_mem_nil, or_false] at hm
       rcases hm with rfl | rfl | rfl | rfl <;> first | exact hw | decide)

/-- Different settings have different header texts. -/
theorem text_inj (f : Family) {h h' : Hdr} (hw : Wf h) (hw' : Wf h') : h.text f = h'.text f ↔ h = h' := by
  constructor
  · intro e
    obtain ⟨n1, w1⟩ := path_ok f h hw
    obtain ⟨n2, w2⟩ := path_ok f h' hw'
    have := congrArg (splitOn ':') e
    unfold Hdr.text at this
    rw [splitOn_intercalate _ n1 (fun w hm hc => (w1 w hm _ hc).1 rfl),
      splitOn_intercalate _ n2 (fun w hm hc => (w2 w hm _ hc).1 rfl)] at this
    have h1 := ofPath_path f h hw
    rw [this, ofPath_path f h' hw'] at h1
    exact (Option.some.inj h1).symm
  · rintro rfl; rfl

theorem intercalate_noBlank (p : List Str) (h : ∀ w ∈ p, ' ' ∉ w) : ' ' ∉ List.intercalate [':'] p := by
  induction p with
  | nil => simp [List.intercalate]
  | cons w p ih =>
    cases p with
    | nil => simpa [List.intercalate] using h w (by simp)
    | cons w' p =>
      have e : List.intercalate [':'] (w :: w' :: p) = w ++ ':' :: List.intercalate [':'] (w' :: p) := by
        simp [List.intercalate, List.intersperse]
      rw [e]
      simp only [List.mem_append, List.mem_cons, not_or]
      exact ⟨h w (by simp), by decide, ih (fun x hx => h x (by simp [hx]))⟩

theorem text_noBlank (f : Family) (h : Hdr) (hw : Wf h) : ' ' ∉ h.text f :=
  intercalate_noBlank _ fun w hm hc => ((path_ok f h hw).2 w hm _ hc).2 rfl

/-! ### The device -/

/-- The settings of a device, by header text. -/
abbrev Dev := Str → Str

/-- One message: header up to the first blank, then the value; what the device will answer later to a query of that
header is decided by `store`. -/
def step (store : Str → Str → Str) (d : Dev) (msg : Str) : Dev :=
  let h := msg.takeWhile (· ≠ ' ')
  Function.update d h (store h ((msg.dropWhile (· ≠ ' ')).drop 1))

/-- Several messages. -/
def run (f : Family) (store : Str → Str → Str) (d : Dev) (cs : List Cmd) : Dev :=
  (cs.map (Cmd.text f)).foldl (step store) d

/-- The replies of the device as the drivers see them. -/
def regs (f : Family) (d : Dev) : Regs := fun h => d (h.text f)

/-- The value of the last command for a setting. -/
def final : List Cmd → Hdr → Option Str
  | [], _ => none
  | c :: cs, h => match final cs h with
    | some v => some v
    | none => if c.1 = h then some c.2 else none

theorem step_text (f : Family) (store : Str → Str → Str) (d : Dev) (c : Cmd) (hw : Wf c.1) :
    step store d (Cmd.text f c) = Function.update d (c.1.text f) (store (c.1.text f) c.2) := by
  have hb := text_noBlank f c.1 hw
  have h1 : (Cmd.text f c).takeWhile (· ≠ ' ') = c.1.text f := by
    unfold Cmd.text
    rw [List.takeWhile_append_of_pos (by intro x hx; simp; rintro rfl; exact hb hx)]
    simp
  have h2 : (Cmd.text f c).dropWhile (· ≠ ' ') = ' ' :: c.2 := by
    unfold Cmd.text
    rw [List.dropWhile_append_of_pos (by intro x hx; simp; rintro rfl; exact hb hx)]
    simp
  unfold step
  simp only [h1, h2, List.drop_succ_cons, List.drop_zero]

theorem run_cons (f : Family) (store : Str → Str → Str) (d : Dev) (c : Cmd) (cs : List Cmd) :
    run f store d (c :: cs) = run f store (step store d (Cmd.text f c)) cs := rfl

theorem run_append (f : Family) (store : Str → Str → Str) (d : Dev) (cs cs' : List Cmd) :
    run f store d (cs ++ cs') = run f store (run f store d cs) cs' := by
  simp [run]

/-- What a query returns after some commands. -/
theorem regs_run (f : Family) (store : Str → Str → Str) (d : Dev) (cs : List Cmd) (hcs : ∀ c ∈ cs, Wf c.1) (h : Hdr)
    (hw : Wf h) : regs f (run f store d cs) h = match final cs h with
      | some v => store (h.text f) v
      | none => d (h.text f) := by
  induction cs generalizing d with
  | nil => rfl
  | cons c cs ih =>
    have hc := hcs c (by simp)
    rw [run_cons, step_text f store d c hc, ih _ (fun x hx => hcs x (by simp [hx]))]
    simp only [final]
    cases hfin : final cs h with
    | some v => rfl
    | none =>
      simp only
      by_cases e : c.1 = h
      · subst e; simp
      · rw [if_neg e]
        simp only
        rw [Function.update_of_ne]
        intro e'
        exact e ((text_inj f hc hw).1 e'.symm)

/-- Settings whose header occurs in no command keep their value, whatever the header is. -/
theorem run_frame (f : Family) (store : Str → Str → Str) (d : Dev) (cs : List Cmd) (hcs : ∀ c ∈ cs, Wf c.1) (t : Str)
    (ht : ∀ c ∈ cs, c.1.text f ≠ t) : run f store d cs t = d t := by
  induction cs generalizing d with
  | nil => rfl
  | cons c cs ih =>
    rw [run_cons, step_text f store d c (hcs c (by simp)), ih _ (fun x hx => hcs x (by simp [hx]))
      (fun x hx => ht x (by simp [hx])), Function.update_of_ne]
    exact (ht c (by simp)).symm

/-! ### Ideal devices -/

/-- Settings that hold a real number. -/
def Numeric : Hdr → Prop
  | .position _ | .scale _ | .bandwidth _ | .deskew _ | .offset _ | .termination _ | .probeGain _ | .threshold _
  | .horScale | .horDelayTime | .horRate | .tHoldoff | .tLevel _ | .tAuxLevel | .timeoutTime | .widthLow | .widthHigh
  | .widthWidth => True
  | _ => False

/-- Settings that hold an integer. -/
def Integer : Hdr → Prop
  | .numAvg | .numEnv | .horRecord => True
  | _ => False

/-- Settings that hold one of some words. -/
def Wordy : Hdr → Prop
  | .coupling _ | .acqMode | .tType | .pulseClass | .edgeSlope | .edgeCoupling | .timeoutPolarity | .widthWhen
  | .widthPolarity => True
  | _ => False

/-- The words and their SCPI abbreviations, from the programmer manuals. -/
def abbreviations : List (Str × Str) :=
  [("EDGE", "EDG"), ("PULSE", "PULS"), ("TIMEOUT", "TIMEO"), ("WIDTH", "WID"), ("RISE", "RIS"), ("EITHER", "EIT"),
   ("STAYSHIGH", "STAYSH"), ("STAYSLOW", "STAYSL"), ("LESSTHAN", "LESS"), ("MORETHAN", "MORE"), ("EQUAL", "EQ"),
   ("UNEQUAL", "UNE"), ("WITHIN", "WIT"), ("OUTSIDE", "OUT"), ("POSITIVE", "POS"), ("NEGATIVE", "NEG"),
   ("SAMPLE", "SAM"), ("AVERAGE", "AVE"), ("ENVELOPE", "ENV")].map fun p => (p.1.toList, p.2.toList)

/-- A device may answer with the word or its abbreviation. -/
def Form (v w : Str) : Prop := w = v ∨ (v, w) ∈ abbreviations

/-- No blanks. -/
def NoBlank (v : Str) : Prop := ∀ c ∈ v, c ≠ ' ' ∧ c ≠ '\t' ∧ c ≠ '\n' ∧ c ≠ '\r'

/-- A device that answers a query with the value set before, in any of the notations that the standard allows: numbers
in any notation of the same value, words in the long or the short form, switches as `1`/`0` or `ON`/`OFF`, texts in
double quotes; and with any blanks around it. -/
structure Ideal (f : Family) (store : Str → Str → Str) : Prop where
  num : ∀ h, Wf h → Numeric h → ∀ q, pyFloat (strip (store (h.text f) (fmtE6 q))) = pyFloat (fmtE6 q)
  int : ∀ h, Wf h → Integer h → ∀ n, pyInt (strip (store (h.text f) (fmtInt n))) = pyInt (fmtInt n)
  word : ∀ h, Wf h → Wordy h → ∀ v, NoBlank v → '\'' ∉ v → Form v (strip (store (h.text f) v))
  source : ∀ h ∈ [Hdr.edgeSource, Hdr.timeoutSource, Hdr.widthSource], ∀ v, NoBlank v → '\'' ∉ v →
    strip (store (h.text f) v) = v ∨
      (f = .mso456 ∧ h = .edgeSource ∧ v = lit "AUX" ∧ strip (store (h.text f) v) = lit "AUXILIARY")
  switch : ∀ a, AliasOk a → ∀ h ∈ [Hdr.active a, Hdr.invert a],
    strip (store (h.text f) (lit "1")) ∈ [lit "1", lit "ON"] ∧
    strip (store (h.text f) (lit "0")) ∈ [lit "0", lit "OFF"]
  text : ∀ a, AliasOk a → ∀ v, '\'' ∉ v → '\n' ∉ v →
    strip (store ((Hdr.label a).text f) ('\'' :: v ++ ['\''])) = '"' :: v ++ ['"']

/-- A simple ideal device: values are kept as they are, single quotes become double quotes. -/
def plainStore (_ v : Str) : Str :=
  match v with
  | '\'' :: r => '"' :: r.dropLast ++ ['"']
  | v => v

theorem fmtE6_chars (q : ℚ) : ∀ c ∈ fmtE6 q, (c ≠ ' ' ∧ c ≠ '\t' ∧ c ≠ '\n' ∧ c ≠ '\r') ∧ c ≠ '\'' := by
  have dig : ∀ c, isDig c = true → (c ≠ ' ' ∧ c ≠ '\t' ∧ c ≠ '\n' ∧ c ≠ '\r') ∧ c ≠ '\'' := by
    intro c h
    refine ⟨⟨?_, ?_, ?_, ?_⟩, ?_⟩ <;> rintro rfl <;> revert h <;> decide
  intro c hc
  unfold fmtE6 at hc
  simp only [List.mem_append, List.mem_cons] at hc
  rcases hc with ((hc | hc) | hc | hc) | hc | hc | hc
  · split at hc
    · rw [List.mem_singleton] at hc; subst hc; decide
    · simp at hc
  · exact dig c (digitsText_dig _ _ c (List.mem_of_mem_take hc))
  · subst hc; decide
  · exact dig c (digitsText_dig _ _ c (List.mem_of_mem_drop hc))
  · subst hc; decide
  · have : ∀ (p : Prop) [Decidable p], c = (if p then '-' else '+') →
        (c ≠ ' ' ∧ c ≠ '\t' ∧ c ≠ '\n' ∧ c ≠ '\r') ∧ c ≠ '\'' := by
      intro p _ h
      split at h <;> subst h <;> decide
    exact this _ hc
  · exact dig c (digitsText_dig _ _ c hc)

theorem fmtInt_chars (n : ℤ) : ∀ c ∈ fmtInt n, (c ≠ ' ' ∧ c ≠ '\t' ∧ c ≠ '\n' ∧ c ≠ '\r') ∧ c ≠ '\'' := by
  have dig : ∀ c, isDig c = true → (c ≠ ' ' ∧ c ≠ '\t' ∧ c ≠ '\n' ∧ c ≠ '\r') ∧ c ≠ '\'' := by
    intro c h
    refine ⟨⟨?_, ?_, ?_, ?_⟩, ?_⟩ <;> rintro rfl <;> revert h <;> decide
  intro c hc
  unfold fmtInt at hc
  simp only [List.mem_append] at hc
  rcases hc with hc | hc
  · split at hc
    · rw [List.mem_singleton] at hc; subst hc; decide
    · simp at hc
  · exact dig c (digitsText_dig _ _ c hc)

theorem plain_id (t v : Str) (h : '\'' ∉ v) : plainStore t v = v := by
  unfold plainStore
  split
  · simp at h
  · rfl

theorem strip_quoted (v : Str) : strip ('"' :: v ++ ['"']) = '"' :: v ++ ['"'] := by
  unfold strip
  simp

/-- Ideal devices exist. -/
theorem ideal_plain (f : Family) : Ideal f plainStore where
  num h _ _ q := by
    rw [plain_id _ _ (fun hm => (fmtE6_chars q _ hm).2 rfl), strip_id _ (fun c hc => (fmtE6_chars q c hc).1)]
  int h _ _ n := by
    rw [plain_id _ _ (fun hm => (fmtInt_chars n _ hm).2 rfl), strip_id _ (fun c hc => (fmtInt_chars n c hc).1)]
  word h _ _ v hb hq := by rw [plain_id _ _ hq, strip_id _ hb]; exact Or.inl rfl
  source h _ v hb hq := by rw [plain_id _ _ hq, strip_id _ hb]; exact Or.inl rfl
  switch a _ h _ := by
    rw [plain_id _ _ (by decide), plain_id _ _ (by decide)]
    decide
  text a _ v _ _ := by
    have : plainStore ((Hdr.label a).text f) ('\'' :: v ++ ['\'']) = '"' :: v ++ ['"'] := by
      simp [plainStore]
    rw [this, strip_quoted]

end Verif.Props.Tek
