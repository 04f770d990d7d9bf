import Verif.Props.Wfm

/-!
C37: what a waveform file decodes to.
-/

namespace Verif.Props.Wfm

open Verif Verif.Scpi Verif.Wave Verif.Wfm Verif.Props.Wave
open Verif.Tek (lit)

/-! ### Specification -/

/-- One frame: trigger offset in samples, trigger time, and the samples before, in and after the record. -/
structure Shot where
  tt : ℚ
  sec : ℤ
  frac : ℚ
  pre : List ℤ
  codes : List ℤ
  post : List ℤ

/-- What was recorded. -/
structure Recording where
  fmt : ℕ
  width : ℕ
  signed : Bool
  label : Str
  xUnit : Str
  yUnit : Str
  xScale : ℚ
  xOffset : ℚ
  yScale : ℚ
  yOffset : ℚ
  nPre : ℕ
  n : ℕ
  nPost : ℕ
  first : Shot
  others : List Shot

/-- All frames. -/
def Recording.shots (r : Recording) : List Shot := r.first :: r.others

/-- The codes of the number formats: signedness and bytes. -/
def kindOf : ℕ → Option (Bool × ℕ)
  | 0 => some (true, 2)
  | 1 => some (true, 4)
  | 2 => some (false, 4)
  | 3 => some (false, 8)
  | 6 => some (false, 1)
  | 7 => some (true, 1)
  | _ => none

/-- The largest code of a format. -/
def Recording.hi (r : Recording) : ℤ := if r.signed then 2 ^ (8 * r.width - 1) - 1 else 2 ^ (8 * r.width) - 1

/-- The smallest code that counts as in range. -/
def Recording.lo (r : Recording) : ℤ := if r.signed then -(2 ^ (8 * r.width - 1) - 1) else 0

/-- A text field of twenty bytes that ends at the first zero. -/
def TextAt (dec : List UInt8 → Option Str) (data : List UInt8) (o : ℕ) (s : Str) : Prop :=
  ∃ bs pad, (data.drop o).take 20 = bs ++ pad ∧ (0 : UInt8) ∉ bs ∧ (pad = [] ∨ pad.head? = some 0) ∧ dec bs = some s

/-- The trigger offset and the time of a frame are at the given offsets; the time is in the years 1 to 9999. -/
def TriggerAt (data : List UInt8) (o : ℕ) (s : Shot) : Prop :=
  DoubleAt data o s.tt ∧ DoubleAt data (o + 8) s.frac ∧ IntAt data (o + 16) s.sec ∧
  -62135596800 + 1 ≤ (s.sec + s.frac : ℚ) ∧ (s.sec + s.frac : ℚ) ≤ 253402300800 - 1

/-- A well formed file of a recording: `lead` bytes before the precharge samples in each frame and `trail` bytes after the
postcharge samples. -/
structure Holds (dec : List UInt8 → Option Str) (data : List UInt8) (r : Recording) (lead trail : ℕ) : Prop where
  start : At data 0 2 0x0F0F
  version : (data.drop 7).take 3 = ascii "003"
  width : At data 0x0F 1 r.width
  format : At data 0xF0 4 r.fmt
  kind : kindOf r.fmt = some (r.signed, r.width)
  dims : At data 0x72 4 1 ∧ At data 0x76 4 1 ∧ At data 0x7A 4 2
  storage : At data 0xF4 4 0
  label : TextAt dec data 0x28 r.label
  yUnit : TextAt dec data 0xBC r.yUnit
  xUnit : TextAt dec data 0x1FC r.xUnit
  yScale : DoubleAt data 0xA8 r.yScale
  yOffset : DoubleAt data 0xB0 r.yOffset
  xScale : DoubleAt data 0x1E8 r.xScale
  xOffset : DoubleAt data 0x1F0 r.xOffset
  frames : At data 0x48 4 r.others.length
  first : TriggerAt data 0x314 r.first
  others : ∀ (i : ℕ) (s : Shot), r.others[i]? = some s → TriggerAt data (0x346 + i * 24 + 4) s
  counts : ∀ s ∈ r.shots, s.pre.length = r.nPre ∧ s.codes.length = r.n ∧ s.post.length = r.nPost
  fits : ∀ s ∈ r.shots, ∀ c ∈ s.pre ++ s.codes ++ s.post, Fits r.signed r.width c
  offsets : At data 0x332 4 lead ∧ At data 0x336 4 (lead + r.nPre * r.width) ∧
    At data 0x33A 4 (lead + (r.nPre + r.n) * r.width) ∧ At data 0x33E 4 (lead + (r.nPre + r.n + r.nPost) * r.width) ∧
    At data 0x342 4 (lead + (r.nPre + r.n + r.nPost) * r.width + trail)
  payload : ∃ junk : ℕ → List UInt8 × List UInt8, (∀ i, (junk i).1.length = lead ∧ (junk i).2.length = trail) ∧
    ∃ rest, data.drop (0x346 + 54 * r.others.length) =
      (r.shots.mapIdx fun i s => (junk i).1 ++ (s.pre ++ s.codes ++ s.post).flatMap (encode false r.width) ++ (junk i).2).flatten
        ++ rest
  long : 0x346 + 54 * r.others.length +
    (lead + (r.nPre + r.n + r.nPost) * r.width + trail) * (r.others.length + 1) + 8 ≤ data.length
  checksum : At data (0x346 + 54 * r.others.length + (lead + (r.nPre + r.n + r.nPost) * r.width + trail) * (r.others.length + 1)) 8
    ((data.take (0x346 + 54 * r.others.length +
      (lead + (r.nPre + r.n + r.nPost) * r.width + trail) * (r.others.length + 1))).map UInt8.toNat).sum

/-- The value of a sample. -/
def Recording.value (r : Recording) (raw : Bool) (y : ℚ) : Option ℚ := some (if raw then y else y * r.yScale + r.yOffset)

/-- What a frame looks like: sample `k` of the record is at `(k + tt) * scale + offset`. -/
def Recording.frame (r : Recording) (raw prepost : Bool) (s : Shot) (ys : List ℚ) : Frame :=
  if prepost then
    { t := (List.range (r.nPre + r.n + r.nPost)).map fun k : ℕ => some (((k : ℚ) - r.nPre + s.tt) * r.xScale + r.xOffset)
      y := ys.map (r.value raw) }
  else
    { t := (List.range r.n).map fun k : ℕ => some (((k : ℚ) + s.tt) * r.xScale + r.xOffset)
      y := ((ys.drop r.nPre).take r.n).map (r.value raw) }

/-- All codes of all frames in order. -/
def Recording.codes (r : Recording) : List ℤ := r.shots.flatMap fun s => s.pre ++ s.codes ++ s.post

/-- The information. -/
def Recording.info (r : Recording) (raw prepost : Bool) (times : List ℤ) : FileInfo :=
  { config := lit "Label: " ++ r.label ++ lit ", " ++
      (toString (if prepost then r.nPre + r.n + r.nPost else r.n)).toList ++ lit " points, " ++
      (toString r.shots.length).toList ++ (if r.others = [] then lit " frame" else lit " frames")
    xUnit := r.xUnit
    yUnit := if raw then lit "ADC Counts" else r.yUnit
    xIncr := some r.xScale
    yIncr := if raw then some 1 else some r.yScale
    clipMin := r.value raw r.lo
    clipMax := r.value raw r.hi
    top := decide (∃ c ∈ r.codes, r.hi ≤ c)
    bottom := decide (∃ c ∈ r.codes, c ≤ r.lo)
    times := times }

/-- The time of a frame to the nearest microsecond, to the even one if it is between two. -/
def Nearest (s : Shot) (t : ℤ) : Prop :=
  |(t : ℚ) - (s.sec + s.frac) * 1000000| ≤ 1 / 2 ∧ (|(t : ℚ) - (s.sec + s.frac) * 1000000| = 1 / 2 → Even t)

/-- The times of the frames. -/
def Times (shots : List Shot) (times : List ℤ) : Prop := List.Forall₂ Nearest shots times

/-! ### The header -/

theorem text_at (dec : List UInt8 → Option Str) (data : List UInt8) (o : ℕ) (s : Str) (h : TextAt dec data o s) :
    Wfm.text dec data o 20 = .ok s := by
  obtain ⟨bs, pad, e, h0, hp, hd⟩ := h
  have htw : (bs ++ pad).takeWhile (· ≠ 0) = bs := by
    have hnil : pad.takeWhile (· ≠ 0) = [] := by
      rcases hp with rfl | hp
      · rfl
      · cases pad with
        | nil => rfl
        | cons x p => simp at hp; simp [hp]
    rw [List.takeWhile_append_of_pos, hnil, List.append_nil]
    intro a ha
    simp only [ne_eq, decide_not, Bool.not_eq_eq_eq_not, Bool.not_true, decide_eq_false_iff_not]
    rintro rfl
    exact h0 ha
  unfold Wfm.text
  rw [e, htw, hd]

theorem time_at (data : List UInt8) (o : ℕ) (s : Shot) (h : TriggerAt data o s) :
    ∃ t : ℤ, timestamp (s32 data (o + 16)) (dbl data (o + 8)) = .ok t ∧ Nearest s t := by
  obtain ⟨-, h1, h2, h3, h4⟩ := h
  rw [s32_at _ _ _ h2, dbl_at _ _ _ h1]
  refine ⟨roundEven ((s.sec + s.frac) * 1000000), ?_, roundEven_near _, roundEven_even _⟩
  have hn := roundEven_near ((s.sec + s.frac) * 1000000)
  unfold timestamp
  simp only
  generalize roundEven ((s.sec + s.frac) * 1000000) = us at hn
  rw [abs_le] at hn
  have l1 : (-62135596800 * 1000000 : ℤ) ≤ us := by
    have : (-62135596800 * 1000000 : ℚ) ≤ us := by linarith
    exact_mod_cast this
  have l2 : us < 253402300800 * 1000000 := by
    have : (us : ℚ) < 253402300800 * 1000000 := by linarith
    exact_mod_cast this
  rw [if_neg (by omega), if_neg (by omega), if_neg (by omega)]

theorem kind_formats (fmt : ℕ) (s : Bool) (w : ℕ) (h : kindOf fmt = some (s, w)) : ∃ a b : ℤ,
    formats fmt = some (s, 8 * w, a, b) ∧ 0 < w ∧ w ≤ 8 ∧
    b = (if s then 2 ^ (8 * w - 1) - 1 else 2 ^ (8 * w) - 1) ∧ a = (if s then -(2 ^ (8 * w - 1) - 1) else 0) := by
  unfold kindOf at h
  split at h
  all_goals first
    | (simp only [Option.some.injEq, Prod.mk.injEq] at h
       obtain ⟨rfl, rfl⟩ := h
       refine ⟨_, _, rfl, by norm_num, by norm_num, by norm_num, by norm_num⟩)
    | cases h

/-- The header that is read. -/
def headOf (r : Recording) (time : ℤ) : Head :=
  { bytes := r.width, signed := r.signed, minV := r.lo, maxV := r.hi, label := r.label, ff := r.others.length,
    yScale := some r.yScale, yOffset := some r.yOffset, yUnit := r.yUnit, xScale := some r.xScale, xOffset := some r.xOffset,
    xUnit := r.xUnit, tt := some r.first.tt, time := time, pre := r.nPre, samples := r.n, post := r.nPost }

theorem head_holds (dec : List UInt8 → Option Str) (data : List UInt8) (r : Recording) (lead trail : ℕ)
    (h : Holds dec data r lead trail) :
    ∃ t : ℤ, head dec data = .ok (headOf r t) ∧ Nearest r.first t := by
  obtain ⟨t, ht, hn⟩ := time_at data 0x314 r.first h.first
  refine ⟨t, ?_, hn⟩
  obtain ⟨a, b, hf, hw0, hw8, hb, ha⟩ := kind_formats _ _ _ h.kind
  have hlong := h.long
  have hl : 0x346 ≤ data.length := by omega
  have c1 : checkStart data = .ok () := by
    unfold checkStart lenHeader
    have hs : data.take 2 = [0x0F, 0x0F] := by
      have := h.start.1
      rw [List.drop_zero] at this
      rw [this]; decide +kernel
    rw [if_neg (by omega), if_neg (by simp [hs]), if_neg]
    rw [h.version]
    decide +kernel
  have c2 : checkDims data = .ok () := by
    unfold checkDims u32
    rw [uN_at _ _ _ _ h.dims.1, uN_at _ _ _ _ h.dims.2.1, uN_at _ _ _ _ h.dims.2.2]
    rfl
  have c3 : checkStorage data = .ok () := by
    unfold checkStorage u32
    rw [uN_at _ _ _ _ h.storage]
    rfl
  have c4 : checkFormat data = .ok (r.signed, 8 * r.width, a, b) := by
    unfold checkFormat u32
    rw [uN_at _ _ _ _ h.format, hf]
    have e : s8 data 0x0F = r.width := by
      unfold s8
      rw [h.width.1]
      have : leBytes 1 r.width = encode false 1 (r.width : ℤ) := by
        unfold encode
        simp only [Bool.false_eq_true, if_false]
        rw [Int.emod_eq_of_lt (by omega) (by norm_num; omega), Int.toNat_natCast]
      rw [this]
      exact word_encode _ _ _ (by norm_num) _ (by unfold Fits; simp; omega)
    simp only [e]
    rw [if_neg]
    push_cast
    push Not
    ring
  have e1 : u32 data 0x48 = r.others.length := uN_at _ _ _ _ h.frames
  obtain ⟨o1, o2, o3, o4, o5⟩ := h.offsets
  have e2 : u32 data 0x342 = _ := uN_at _ _ _ _ o5
  have c5 : checkSum data = .ok () := by
    unfold checkSum
    have : lenExpected data = 0x346 + 54 * r.others.length +
        (lead + (r.nPre + r.n + r.nPost) * r.width + trail) * (r.others.length + 1) + 8 := by
      unfold lenExpected lenHeader
      rw [e1, e2]
    simp only [this, Nat.add_sub_cancel]
    rw [if_neg (by omega), uN_at _ _ _ _ h.checksum, if_neg]
    push Not
    rfl
  unfold head
  simp only [c1, c2, c3, c4, c5, text_at _ _ _ _ h.label, text_at _ _ _ _ h.xUnit, text_at _ _ _ _ h.yUnit, bind, Except.bind,
    pure, Except.pure, dbl_at _ _ _ h.yScale, dbl_at _ _ _ h.yOffset, dbl_at _ _ _ h.xScale, dbl_at _ _ _ h.xOffset,
    dbl_at _ _ _ h.first.1, Dbl.val, e1]
  rw [show s32 data 0x324 = s32 data (0x314 + 16) from rfl, show dbl data 0x31C = dbl data (0x314 + 8) from rfl, ht]
  simp only
  congr 1
  unfold headOf
  have hw : (0 : ℤ) < r.width := by exact_mod_cast hw0
  have d1 : ((u32 data 0x336 : ℤ) - u32 data 0x332) / ((8 * r.width / 8 : ℕ) : ℤ) = r.nPre := by
    rw [show u32 data 0x336 = _ from uN_at _ _ _ _ o2, show u32 data 0x332 = _ from uN_at _ _ _ _ o1,
      Nat.mul_div_cancel_left _ (by norm_num)]
    push_cast
    rw [show (lead : ℤ) + r.nPre * r.width - lead = r.nPre * r.width by ring, Int.mul_ediv_cancel _ hw.ne']
  have d2 : ((u32 data 0x33A : ℤ) - u32 data 0x336) / ((8 * r.width / 8 : ℕ) : ℤ) = r.n := by
    rw [show u32 data 0x33A = _ from uN_at _ _ _ _ o3, show u32 data 0x336 = _ from uN_at _ _ _ _ o2,
      Nat.mul_div_cancel_left _ (by norm_num)]
    push_cast
    rw [show (lead : ℤ) + (r.nPre + r.n) * r.width - (lead + r.nPre * r.width) = r.n * r.width by ring,
      Int.mul_ediv_cancel _ hw.ne']
  have d3 : ((u32 data 0x33E : ℤ) - u32 data 0x33A) / ((8 * r.width / 8 : ℕ) : ℤ) = r.nPost := by
    rw [show u32 data 0x33E = _ from uN_at _ _ _ _ o4, show u32 data 0x33A = _ from uN_at _ _ _ _ o3,
      Nat.mul_div_cancel_left _ (by norm_num)]
    push_cast
    rw [show (lead : ℤ) + (r.nPre + r.n + r.nPost) * r.width - (lead + (r.nPre + r.n) * r.width) = r.nPost * r.width by ring,
      Int.mul_ediv_cancel _ hw.ne']
  rw [d1, d2, d3, Nat.mul_div_cancel_left _ (by norm_num), ha, hb]
  rfl

/-! ### The frames -/

/-- All samples of a frame. -/
def Shot.all (s : Shot) : List ℤ := s.pre ++ s.codes ++ s.post

theorem flat_const {α β : Type} (f : α → List β) (k : ℕ) (l : List α) (h : ∀ a ∈ l, (f a).length = k) :
    (l.flatMap f).length = l.length * k := by
  induction l with
  | nil => simp
  | cons a l ih =>
    rw [List.flatMap_cons, List.length_append, h a (by simp), ih (fun b hb => h b (by simp [hb])), List.length_cons]
    ring

theorem flat_chunk {α β : Type} (f : α → List β) (k : ℕ) (l : List α) (h : ∀ a ∈ l, (f a).length = k) (i : ℕ)
    (hi : i < l.length) : ((l.flatMap f).drop (i * k)).take k = f l[i] := by
  induction l generalizing i with
  | nil => simp at hi
  | cons a l ih =>
    have ha := h a (by simp)
    cases i with
    | zero =>
      simp only [Nat.zero_mul, List.drop_zero, List.flatMap_cons, List.getElem_cons_zero]
      rw [← ha, List.take_left]
    | succ i =>
      rw [List.flatMap_cons, Nat.succ_mul, Nat.add_comm, ← List.drop_drop]
      rw [show (f a ++ l.flatMap f).drop k = l.flatMap f by rw [← ha, List.drop_left]]
      simpa using ih (fun b hb => h b (by simp [hb])) i (by simpa using hi)

theorem all_length (dec : List UInt8 → Option Str) (data : List UInt8) (r : Recording) (lead trail : ℕ)
    (h : Holds dec data r lead trail) : ∀ s ∈ r.shots, s.all.length = r.nPre + r.n + r.nPost := by
  intro s hs
  obtain ⟨h1, h2, h3⟩ := h.counts s hs
  simp only [Shot.all, List.length_append, h1, h2, h3]

theorem codes_length (dec : List UInt8 → Option Str) (data : List UInt8) (r : Recording) (lead trail : ℕ)
    (h : Holds dec data r lead trail) : r.codes.length = (r.others.length + 1) * (r.nPre + r.n + r.nPost) := by
  unfold Recording.codes
  rw [flat_const (fun s : Shot => s.pre ++ s.codes ++ s.post) (r.nPre + r.n + r.nPost) _ (all_length dec data r lead trail h)]
  simp [Recording.shots]

/-- Where the samples of all frames are read from is where they are, when nothing is between them. -/
theorem payload_prefix (dec : List UInt8 → Option Str) (data : List UInt8) (r : Recording) (trail : ℕ)
    (h : Holds dec data r 0 trail) (ht : r.others = [] ∨ trail = 0) :
    ∃ rest, data.drop (0x346 + 54 * r.others.length) = r.codes.flatMap (encode false r.width) ++ rest := by
  obtain ⟨junk, hj, rest, e⟩ := h.payload
  rcases ht with ht | ht
  · refine ⟨(junk 0).2 ++ rest, ?_⟩
    rw [e]
    have : (junk 0).1 = [] := List.eq_nil_of_length_eq_zero (hj 0).1
    simp [Recording.shots, Recording.codes, ht, this]
  · refine ⟨rest, ?_⟩
    rw [e]
    congr 1
    have hz : ∀ i, (junk i).1 = [] ∧ (junk i).2 = [] := fun i =>
      ⟨List.eq_nil_of_length_eq_zero (hj i).1, List.eq_nil_of_length_eq_zero (by rw [(hj i).2, ht])⟩
    have : (r.shots.mapIdx fun i s => (junk i).1 ++ (s.pre ++ s.codes ++ s.post).flatMap (encode false r.width) ++ (junk i).2)
        = r.shots.map fun s => (s.pre ++ s.codes ++ s.post).flatMap (encode false r.width) := by
      apply List.ext_getElem
      · simp
      · intro i h1 h2
        simp [hz i]
    rw [this, Recording.codes, List.flatMap_assoc, List.flatMap_def]

theorem buffer_holds (dec : List UInt8 → Option Str) (data : List UInt8) (r : Recording) (trail : ℕ)
    (h : Holds dec data r 0 trail) (ht : r.others = [] ∨ trail = 0) (t : ℤ) : (headOf r t).buffer data = .ok r.codes := by
  obtain ⟨rest, e⟩ := payload_prefix dec data r trail h ht
  obtain ⟨-, -, -, hw0, -, -, -⟩ := kind_formats _ _ _ h.kind
  have hlong := h.long
  have hcl := codes_length dec data r 0 trail h
  have hbl := flat_length (encode false r.width) r.width (encode_length false r.width) r.codes
  have hcount : (headOf r t).all * ((headOf r t).ff + 1) = (r.codes.length : ℤ) := by
    rw [hcl]; simp only [Head.all, headOf]; push_cast; ring
  have g1 : lenHeader + 54 * (headOf r t).ff = 0x346 + 54 * r.others.length := rfl
  have g2 : (headOf r t).bytes = r.width := rfl
  have g3 : (headOf r t).signed = r.signed := rfl
  unfold Head.buffer
  simp only [hcount, g1, g2, g3]
  rw [if_neg (by omega), if_neg (by omega : ¬ ((r.codes.length : ℤ) < 0)), Int.toNat_natCast, e]
  rw [if_neg (by rw [List.length_append, hbl]; omega), ← hbl, List.take_left]
  apply fromBuffer_encode _ _ _ hw0
  intro c hc
  obtain ⟨s, hs, hcs⟩ := List.mem_flatMap.1 hc
  exact h.fits s hs c hcs

theorem heads_holds (data : List UInt8) (l : List Shot)
    (h : ∀ (i : ℕ) (s : Shot), l[i]? = some s → TriggerAt data (0x346 + i * 24 + 4) s) :
    ∃ ts : List ℤ, (List.range l.length).mapM (frameHead data) = .ok (List.zipWith (fun (s : Shot) t => (some s.tt, t)) l ts) ∧
      Times l ts := by
  induction l using List.reverseRecOn with
  | nil => exact ⟨[], rfl, List.Forall₂.nil⟩
  | append_singleton l s ih =>
    obtain ⟨ts, h1, h2⟩ := ih (by
      intro i x hx
      have hi := (List.getElem?_eq_some_iff.1 hx).1
      exact h i x (by rw [List.getElem?_append_left hi]; exact hx))
    have hs := h l.length s (by simp)
    obtain ⟨t, ht1, ht2⟩ := time_at _ _ _ hs
    have hlen := h2.length_eq
    refine ⟨ts ++ [t], ?_, ?_⟩
    · rw [List.length_append, List.length_singleton, List.range_succ, List.mapM_append, h1]
      rw [List.zipWith_append hlen]
      have e : frameHead data l.length = .ok (some s.tt, t) := by
        unfold frameHead
        have e1 : s32 data (0x346 + l.length * 24 + 20) = s32 data (0x346 + l.length * 24 + 4 + 16) := rfl
        have e2 : dbl data (0x346 + l.length * 24 + 12) = dbl data (0x346 + l.length * 24 + 4 + 8) := rfl
        simp only [e1, e2, ht1, bind, Except.bind, pure, Except.pure, dbl_at _ _ _ hs.1, Dbl.val]
      simp only [bind, Except.bind, List.mapM_cons, List.mapM_nil, e, pure, Except.pure]
      rfl
    · exact List.rel_append h2 (List.Forall₂.cons ht2 List.Forall₂.nil)

/-- The samples before conversion. -/
def Recording.wave (r : Recording) (noise : Bool) (u : ℕ → ℚ) : List ℚ :=
  if noise then dither r.lo r.hi (8 * r.width) r.codes u else r.codes.map fun c : ℤ => (c : ℚ)

/-- What is returned for samples `ys` (of all frames together). -/
def Recording.result (r : Recording) (raw prepost : Bool) (ys : List ℚ) (times : List ℤ) : List Frame × FileInfo :=
  (r.shots.mapIdx fun i s => r.frame raw prepost s
    ((ys.drop (i * (r.nPre + r.n + r.nPost))).take (r.nPre + r.n + r.nPost)), r.info raw prepost times)

theorem times_eq (r : Recording) (t : ℤ) (s : Shot) (hpp : r.nPre = r.nPost) :
    (headOf r t).times (some s.tt) =
      (List.range (r.nPre + r.n + r.nPost)).map fun k : ℕ => some (((k : ℚ) - r.nPre + s.tt) * r.xScale + r.xOffset) := by
  unfold Head.times
  have : ((headOf r t).samples + (headOf r t).post - -(headOf r t).post).toNat = r.nPre + r.n + r.nPost := by
    simp only [headOf]; omega
  rw [this]
  apply List.map_congr_left
  intro k _
  simp only [headOf, oadd, omul, Option.bind_eq_bind, Option.bind_some, Option.pure_def, Option.some.injEq]
  push_cast
  rw [hpp]
  ring

theorem slice_mid {α : Type} (l : List α) (a n c : ℕ) (h : l.length = a + n + c) :
    slice l (a : ℤ) ((a : ℤ) + n) = (l.drop a).take n := by
  unfold slice sliceIndex
  rw [if_neg (by omega), if_neg (by omega)]
  have e1 : ((a : ℤ) + n).toNat = a + n := by omega
  rw [e1, Int.toNat_natCast, Nat.min_eq_left (by omega), Nat.min_eq_left (by omega), List.drop_take]
  congr 1
  omega

theorem trim_frame (r : Recording) (t : ℤ) (raw prepost : Bool) (s : Shot) (hpp : r.nPre = r.nPost) (ys : List ℚ)
    (hl : ys.length = r.nPre + r.n + r.nPost) :
    (headOf r t).trim prepost ⟨(headOf r t).times (some s.tt), ys.map (r.value raw)⟩ = r.frame raw prepost s ys := by
  unfold Head.trim Recording.frame
  rw [times_eq r t s hpp]
  cases prepost with
  | true => rfl
  | false =>
    simp only [Bool.false_eq_true, if_false, Frame.mk.injEq]
    have hp : (headOf r t).pre = (r.nPre : ℤ) := rfl
    have hs : (headOf r t).samples = (r.n : ℤ) := rfl
    rw [hp, hs, slice_mid _ r.nPre r.n r.nPost (by simp), slice_mid _ r.nPre r.n r.nPost (by simpa using hl)]
    constructor
    · apply List.ext_getElem
      · simp; omega
      · intro i h1 h2
        simp only [List.getElem_take, List.getElem_drop, List.getElem_map, List.getElem_range, Option.some.injEq]
        push_cast
        ring
    · rw [List.map_take, List.map_drop]

theorem conv_value (r : Recording) (t : ℤ) (raw : Bool) : (headOf r t).conv raw = r.value raw := by
  funext y
  unfold Head.conv Recording.value
  cases raw <;> simp [headOf, oadd, omul]

theorem wave_length (r : Recording) (noise : Bool) (u : ℕ → ℚ) : (r.wave noise u).length = r.codes.length := by
  unfold Recording.wave; cases noise <;> simp [dither]

theorem info_eq (r : Recording) (t : ℤ) (raw prepost : Bool) (times : List ℤ) :
    (headOf r t).info raw prepost r.codes times = r.info raw prepost times := by
  have hs : r.shots.length = r.others.length + 1 := by simp [Recording.shots]
  unfold Head.info Recording.info
  simp only [conv_value, FileInfo.mk.injEq]
  refine ⟨?_, rfl, rfl, rfl, ?_, rfl, rfl, ?_, ?_, trivial⟩
  · unfold Head.config
    have e1 : toString (if prepost = true then (headOf r t).all else (headOf r t).samples) =
        toString (if prepost = true then r.nPre + r.n + r.nPost else r.n) := by
      cases prepost with
      | true =>
        simp only [if_true]
        rw [show (headOf r t).all = ((r.nPre + r.n + r.nPost : ℕ) : ℤ) by simp only [Head.all, headOf]; push_cast; ring]
        rfl
      | false => rfl
    rw [e1, hs]
    have e2 : (headOf r t).ff = r.others.length := rfl
    have e3 : (headOf r t).label = r.label := rfl
    rw [e2, e3]
    by_cases ho : r.others = []
    · simp [ho]
    · have : 1 < r.others.length + 1 := by
        have := List.length_pos_of_ne_nil ho
        omega
      rw [if_pos this, if_neg ho]
      simp [List.append_assoc]
      decide
  · cases raw <;> rfl
  · rw [Bool.eq_iff_iff, decide_eq_true_iff, List.any_eq_true]
    exact exists_congr fun c => and_congr_right fun _ => decide_eq_true_iff
  · rw [Bool.eq_iff_iff, decide_eq_true_iff, List.any_eq_true]
    exact exists_congr fun c => and_congr_right fun _ => decide_eq_true_iff

theorem body_holds (dec : List UInt8 → Option Str) (data : List UInt8) (r : Recording) (trail : ℕ)
    (h : Holds dec data r 0 trail) (ht : r.others = [] ∨ trail = 0) (hpp : r.nPre = r.nPost) (raw noise prepost : Bool)
    (u : ℕ → ℚ) :
    ∃ times, Times r.shots times ∧
      parseWfm dec data raw noise prepost u = .ok (r.result raw prepost (r.wave noise u) times) := by
  obtain ⟨t, h1, h2⟩ := head_holds dec data r 0 trail h
  obtain ⟨ts, h3, h4⟩ := heads_holds data r.others h.others
  refine ⟨t :: ts, List.Forall₂.cons h2 h4, ?_⟩
  set N := r.nPre + r.n + r.nPost with hN
  have hcl := codes_length dec data r 0 trail h
  have hwl := wave_length r noise u
  have hnoisy : (headOf r t).noisy noise r.codes u = .ok (r.wave noise u) := by
    unfold Head.noisy Recording.wave
    cases noise with
    | false => rfl
    | true =>
      have : ¬ (headOf r t).all * ((headOf r t).ff + 1) < 0 := by
        have : (headOf r t).all * ((headOf r t).ff + 1) = (r.codes.length : ℤ) := by
          rw [hcl]; simp only [Head.all, headOf]; push_cast; ring
        omega
      simp only [if_true, if_neg this]
      rfl
  have hff : (headOf r t).ff = r.others.length := rfl
  have hlen : ((r.wave noise u).map (r.value raw)).length = (r.others.length + 1) * N := by
    rw [List.length_map, hwl, hcl]
  have hparts : splitEqual ((r.wave noise u).map (r.value raw)) (r.others.length + 1) =
      .ok ((List.range (r.others.length + 1)).map fun i : ℕ => (((r.wave noise u).drop (i * N)).take N).map (r.value raw)) := by
    unfold splitEqual
    rw [hlen, if_neg (by simp [Nat.mul_mod_right]), Nat.mul_div_cancel_left _ (by omega)]
    congr 1
    apply List.map_congr_left
    intro i _
    rw [List.map_take, List.map_drop]
  have hheads : (some r.first.tt, t) :: List.zipWith (fun (s : Shot) t => (some s.tt, t)) r.others ts =
      List.zipWith (fun (s : Shot) t => (some s.tt, t)) r.shots (t :: ts) := rfl
  have htl : (t :: ts).length = r.shots.length := by simp [Recording.shots, h4.length_eq]
  have hsl : r.shots.length = r.others.length + 1 := by simp [Recording.shots]
  have hframes : List.zipWith (fun (x : Option ℚ × ℤ) y => (⟨(headOf r t).times x.1, y⟩ : Frame))
      (List.zipWith (fun (s : Shot) t => (some s.tt, t)) r.shots (t :: ts))
      ((List.range (r.others.length + 1)).map fun i : ℕ => (((r.wave noise u).drop (i * N)).take N).map (r.value raw)) =
      r.shots.mapIdx fun i s =>
        (⟨(headOf r t).times (some s.tt), (((r.wave noise u).drop (i * N)).take N).map (r.value raw)⟩ : Frame) := by
    apply List.ext_getElem
    · simp only [List.length_zipWith, List.length_map, List.length_range, List.length_mapIdx, htl]; omega
    · intro i a1 a2
      simp
  have hylen : ∀ i, i < r.shots.length → (((r.wave noise u).drop (i * N)).take N).length = N := by
    intro i hi
    rw [List.length_take, List.length_drop, hwl, hcl, ← hN]
    have : (i + 1) * N ≤ (r.others.length + 1) * N := Nat.mul_le_mul (by omega) (le_refl _)
    have e : (i + 1) * N = i * N + N := by ring
    omega
  have htlen : ∀ s : Shot, ((headOf r t).times (some s.tt)).length = N := by
    intro s; rw [times_eq r t s hpp]; simp [hN]
  have hrect : rectangular (r.shots.mapIdx fun i s =>
        (⟨(headOf r t).times (some s.tt), (((r.wave noise u).drop (i * N)).take N).map (r.value raw)⟩ : Frame)) = .ok () := by
    unfold rectangular
    split
    · rfl
    · rename_i f fs e
      rw [if_pos]
      have hall : ∀ g ∈ (r.shots.mapIdx fun i s =>
        (⟨(headOf r t).times (some s.tt), (((r.wave noise u).drop (i * N)).take N).map (r.value raw)⟩ : Frame)),
          g.t.length = N ∧ g.y.length = N := by
        intro g hg
        obtain ⟨i, hi, rfl⟩ := List.mem_mapIdx.1 hg
        refine ⟨htlen _, ?_⟩
        simp only [List.length_map]
        exact hylen i hi
      rw [List.all_eq_true]
      intro g hg
      have h5 := hall g hg
      have h6 := hall f (by rw [e]; simp)
      simp [h5, h6]
  unfold parseWfm
  rw [h1]
  simp only [bind, Except.bind]
  unfold body
  simp only [bind, Except.bind, buffer_holds dec data r trail h ht t, hnoisy, conv_value, hff, hparts, h3]
  have htt : (headOf r t).tt = some r.first.tt := rfl
  have htime : (headOf r t).time = t := rfl
  rw [htt, htime, hheads, hframes, hrect]
  simp only [pure, Except.pure, Recording.result]
  congr 2
  · apply List.ext_getElem
    · simp
    · intro i a1 a2
      simp only [List.getElem_map, List.getElem_mapIdx]
      exact trim_frame r t raw prepost _ hpp _ (hylen i (by simpa using a2))
  · rw [info_eq]
    congr 1
    apply List.ext_getElem
    · simp only [List.length_map, List.length_zipWith, htl]; omega
    · intro i a1 a2
      simp

/-- `l[a:b]` for indices of any sign: negative ones count from the end, and what is beyond an end is cut off. -/
theorem C37_slice {α : Type} (l : List α) (a b : ℤ) :
    (0 ≤ a → a ≤ b → b ≤ l.length → slice l a b = (l.drop a.toNat).take (b - a).toNat) ∧
    (a < 0 → -(l.length : ℤ) ≤ a → slice l a b = slice l (l.length + a) b) ∧ (a < -(l.length : ℤ) → slice l a b = slice l 0 b) ∧
    (b < 0 → -(l.length : ℤ) ≤ b → slice l a b = slice l a (l.length + b)) ∧ (b < -(l.length : ℤ) → slice l a b = []) ∧
    (l.length ≤ a → slice l a b = []) ∧ (l.length ≤ b → slice l a b = slice l a l.length) := by
  refine ⟨fun h1 h2 h3 => ?_, fun h1 h2 => ?_, fun h => ?_, fun h1 h2 => ?_, fun h => ?_, fun h => ?_, fun h => ?_⟩
  · have e : (b - a).toNat = b.toNat - a.toNat := by omega
    unfold slice sliceIndex
    rw [if_neg (by omega), if_neg (by omega), List.drop_take, e, show min a.toNat l.length = a.toNat by omega,
      show min b.toNat l.length = b.toNat by omega]
  · have : sliceIndex l.length a = sliceIndex l.length (l.length + a) := by
      unfold sliceIndex; split <;> split <;> omega
    unfold slice; rw [this]
  · have : sliceIndex l.length a = sliceIndex l.length 0 := by
      unfold sliceIndex; split <;> simp <;> omega
    unfold slice; rw [this]
  · have : sliceIndex l.length b = sliceIndex l.length (l.length + b) := by
      unfold sliceIndex; split <;> split <;> omega
    unfold slice; rw [this]
  · have : sliceIndex l.length b = 0 := by
      unfold sliceIndex; split <;> omega
    unfold slice; rw [this]; simp
  · have : l.length ≤ sliceIndex l.length a := by
      unfold sliceIndex; split <;> omega
    unfold slice
    exact List.drop_eq_nil_of_le (by rw [List.length_take]; omega)
  · have : sliceIndex l.length b = sliceIndex l.length l.length := by
      unfold sliceIndex; split <;> split <;> omega
    unfold slice; rw [this]

/-- **C37** (partial: see the `_fails` theorems).  When the frames start with the precharge samples, with as many precharge as
postcharge samples, and (for several frames) end with them: the file is read as the frames in order, sample `k` of the record at
`(k + tt) * scale + offset` and, on request, the samples before and after it; times to the nearest microsecond. -/
theorem C37_frames_partial (dec : List UInt8 → Option Str) (data : List UInt8) (r : Recording) (trail : ℕ)
    (h : Holds dec data r 0 trail) (ht : r.others = [] ∨ trail = 0) (hpp : r.nPre = r.nPost) (raw prepost : Bool)
    (u : ℕ → ℚ) :
    ∃ times, Times r.shots times ∧ parseWfm dec data raw false prepost u =
      .ok (r.shots.map fun s => r.frame raw prepost s ((s.pre ++ s.codes ++ s.post).map fun c : ℤ => (c : ℚ)),
        r.info raw prepost times) := by
  obtain ⟨times, h1, h2⟩ := body_holds dec data r trail h ht hpp raw false prepost u
  refine ⟨times, h1, ?_⟩
  rw [h2]
  unfold Recording.result Recording.wave
  simp only [Bool.false_eq_true, if_false]
  congr 2
  apply List.ext_getElem
  · simp
  · intro i a1 a2
    simp only [List.getElem_map, List.getElem_mapIdx]
    congr 1
    rw [← List.map_drop, ← List.map_take]
    congr 1
    exact flat_chunk (fun s : Shot => s.pre ++ s.codes ++ s.post) _ r.shots (all_length dec data r 0 trail h) i (by simpa using a1)

/-- C38 for files: with noise the same file gives the same time axes and information, and the samples are the codes with noise
as described by `Dithered` (for all frames together). -/
theorem C38_file_partial (dec : List UInt8 → Option Str) (data : List UInt8) (r : Recording) (trail : ℕ)
    (h : Holds dec data r 0 trail) (ht : r.others = [] ∨ trail = 0) (hpp : r.nPre = r.nPost) (raw prepost : Bool)
    (u : ℕ → ℚ) (hu : ∀ k, -(1 / 2) ≤ u k ∧ u k < 1 / 2) (h0 : ∃ c ∈ r.codes, c ≠ 0)
    (hin : ∀ c ∈ r.codes, r.lo ≤ c ∧ c ≤ r.hi) :
    ∃ times ys, Times r.shots times ∧ Dithered r.lo r.hi r.codes ys ∧
      parseWfm dec data raw true prepost u = .ok (r.result raw prepost ys times) := by
  obtain ⟨times, h1, h2⟩ := body_holds dec data r trail h ht hpp raw true prepost u
  refine ⟨times, _, h1, ?_, h2⟩
  obtain ⟨-, -, -, hw0, -, -, -⟩ := kind_formats _ _ _ h.kind
  have hp1 : (2 : ℤ) ≤ 2 ^ (8 * r.width - 1) := by
    calc (2 : ℤ) = 2 ^ 1 := by norm_num
      _ ≤ 2 ^ (8 * r.width - 1) := pow_le_pow_right₀ (by norm_num) (by omega)
  have hp2 : (2 : ℤ) ^ (8 * r.width) = 2 * 2 ^ (8 * r.width - 1) := by
    rw [← pow_succ']; congr 1; omega
  unfold Recording.wave
  rw [if_pos rfl]
  apply C38_dither_partial _ _ _ _ _ _ h0 hin u hu
  · unfold Recording.lo Recording.hi; split <;> omega
  · unfold Recording.lo Recording.hi; split <;> omega

/-- **C37 fails** when there are more or fewer precharge than postcharge samples: the time axis is built with the number of
postcharge samples on both sides, does not fit to the samples, and the file is rejected. -/
theorem C37_unequal_fails (dec : List UInt8 → Option Str) (data : List UInt8) (r : Recording) (trail : ℕ)
    (h : Holds dec data r 0 trail) (ht : r.others = [] ∨ trail = 0) (hpp : r.nPre ≠ r.nPost) (raw prepost : Bool)
    (u : ℕ → ℚ) : parseWfm dec data raw false prepost u = .error .valueError := by
  obtain ⟨t, h1, h2⟩ := head_holds dec data r 0 trail h
  obtain ⟨ts, h3, h4⟩ := heads_holds data r.others h.others
  have hcl := codes_length dec data r 0 trail h
  set N := r.nPre + r.n + r.nPost with hN
  have hlen : ((r.codes.map fun c : ℤ => (c : ℚ)).map (r.value raw)).length = (r.others.length + 1) * N := by
    simp [hcl]
  unfold parseWfm
  rw [h1]
  simp only [bind, Except.bind]
  unfold body
  have hff : (headOf r t).ff = r.others.length := rfl
  have htt : (headOf r t).tt = some r.first.tt := rfl
  simp only [bind, Except.bind, buffer_holds dec data r trail h ht t, Head.noisy, Bool.false_eq_true, if_false, conv_value, hff, h3]
  unfold splitEqual
  rw [hlen, if_neg (by simp [Nat.mul_mod_right]), Nat.mul_div_cancel_left _ (by omega)]
  simp only [htt, List.range_succ_eq_map, List.map_cons, List.zipWith_cons_cons]
  unfold rectangular
  simp only
  rw [if_neg]
  simp only [List.all_cons, Bool.and_eq_true, decide_eq_true_eq, not_and]
  intro hx
  exfalso
  have := hx.2
  simp only [Nat.zero_mul, List.drop_zero, List.length_take, hlen, Head.times, List.length_map, List.length_range] at this
  have e : ((headOf r t).samples + (headOf r t).post - -(headOf r t).post).toNat = r.n + 2 * r.nPost := by
    simp only [headOf]; omega
  rw [e] at this
  have : N ≤ (r.others.length + 1) * N := Nat.le_mul_of_pos_left _ (by omega)
  omega

/-! ### Concrete files -/

/-- Two frames of two samples with one sample before and one after, two bytes each. -/
def exRec : Recording :=
  { fmt := 0, width := 2, signed := true, label := ['C', 'H', '1'], xUnit := ['s'], yUnit := ['V'], xScale := 2, xOffset := -10,
    yScale := 1 / 2, yOffset := 1, nPre := 1, n := 2, nPost := 1,
    first := ⟨1 / 4, 1600000000, 1 / 2, [1], [-2, 300], [4]⟩,
    others := [⟨1 / 2, 1600000001, 1 / 4, [5], [-600, 7], [8]⟩] }

/-- The description of the second frame. -/
def exFrame : List UInt8 :=
  place 0 [(4, leBytes 8 0x3FE0000000000000), (12, leBytes 8 0x3FD0000000000000), (20, leBytes 4 1600000001)] ++
    List.replicate 30 0

/-- The file of `exRec`, with `lead` bytes before and `trail` bytes after the samples of each frame. -/
def exTwo (lead trail : ℕ) : List UInt8 :=
  withSum (exHead 2 0 1 (leBytes 8 0x3FE0000000000000) lead (lead + 2) (lead + 6) (lead + 8) (lead + 8 + trail) ++ exFrame ++
    List.replicate lead 9 ++ [1, -2, 300, 4].flatMap (encode false 2) ++ List.replicate trail 9 ++
    List.replicate lead 9 ++ [5, -600, 7, 8].flatMap (encode false 2) ++ List.replicate trail 9)

theorem exTwo_payload (lead trail : ℕ) (h : (lead = 0 ∧ trail = 0) ∨ (lead = 2 ∧ trail = 0) ∨ (lead = 0 ∧ trail = 2)) :
    ∃ junk : ℕ → List UInt8 × List UInt8, (∀ i, (junk i).1.length = lead ∧ (junk i).2.length = trail) ∧
    ∃ rest, (exTwo lead trail).drop (0x346 + 54 * exRec.others.length) =
      (exRec.shots.mapIdx fun i s => (junk i).1 ++ (s.pre ++ s.codes ++ s.post).flatMap (encode false exRec.width) ++
        (junk i).2).flatten ++ rest := by
  refine ⟨fun _ => (List.replicate lead 9, List.replicate trail 9), fun _ => ⟨List.length_replicate, List.length_replicate⟩,
    leBytes 8 (byteSum ((exTwo lead trail).take ((exTwo lead trail).length - 8))), ?_⟩
  rcases h with ⟨rfl, rfl⟩ | ⟨rfl, rfl⟩ | ⟨rfl, rfl⟩
  all_goals decide +kernel

theorem exTwo_holds (lead trail : ℕ) (h : (lead = 0 ∧ trail = 0) ∨ (lead = 2 ∧ trail = 0) ∨ (lead = 0 ∧ trail = 2)) :
    Holds exDec (exTwo lead trail) exRec lead trail := by
  rcases h with ⟨rfl, rfl⟩ | ⟨rfl, rfl⟩ | ⟨rfl, rfl⟩
  all_goals exact
    { start := by unfold At; decide +kernel
      version := by decide +kernel
      width := by unfold At; decide +kernel
      format := by unfold At; decide +kernel
      kind := by decide +kernel
      dims := by unfold At; decide +kernel
      storage := by unfold At; decide +kernel
      label := ⟨ascii "CH1", List.replicate 17 0, by decide +kernel, by decide +kernel, by decide +kernel, by decide +kernel⟩
      yUnit := ⟨ascii "V", List.replicate 19 0, by decide +kernel, by decide +kernel, by decide +kernel, by decide +kernel⟩
      xUnit := ⟨ascii "s", List.replicate 19 0, by decide +kernel, by decide +kernel, by decide +kernel, by decide +kernel⟩
      yScale := ⟨0, 1022, 0, by norm_num, by norm_num, by norm_num, by unfold At; decide +kernel, by decide +kernel⟩
      yOffset := ⟨0, 1023, 0, by norm_num, by norm_num, by norm_num, by unfold At; decide +kernel, by decide +kernel⟩
      xScale := ⟨0, 1024, 0, by norm_num, by norm_num, by norm_num, by unfold At; decide +kernel, by decide +kernel⟩
      xOffset := ⟨1, 1026, 2 ^ 50, by norm_num, by norm_num, by norm_num, by unfold At; decide +kernel, by decide +kernel⟩
      frames := by unfold At; decide +kernel
      first := ⟨⟨0, 1021, 0, by norm_num, by norm_num, by norm_num, by unfold At; decide +kernel, by decide +kernel⟩,
        ⟨0, 1022, 0, by norm_num, by norm_num, by norm_num, by unfold At; decide +kernel, by decide +kernel⟩,
        ⟨by decide, by decide, by unfold At; decide +kernel⟩, by decide +kernel, by decide +kernel⟩
      others := by
        intro i s hs
        match i, hs with
        | 0, hs =>
          simp only [exRec, List.getElem?_cons_zero, Option.some.injEq] at hs
          subst hs
          exact ⟨⟨0, 1022, 0, by norm_num, by norm_num, by norm_num, by unfold At; decide +kernel, by decide +kernel⟩,
            ⟨0, 1021, 0, by norm_num, by norm_num, by norm_num, by unfold At; decide +kernel, by decide +kernel⟩,
            ⟨by decide, by decide, by unfold At; decide +kernel⟩, by decide +kernel, by decide +kernel⟩
        | i + 1, hs => simp [exRec] at hs
      counts := by decide +kernel
      fits := by unfold Fits; decide +kernel
      offsets := by unfold At; decide +kernel
      payload := exTwo_payload _ _ (by decide)
      long := by decide +kernel
      checksum := by unfold At; decide +kernel }

/-- The hypotheses of `C37_frames_partial` are met, and what it says about the first frame. -/
example : ∃ info, parseWfm exDec (exTwo 0 0) false false false (fun _ => 0) =
    .ok ([⟨[some (-19 / 2), some (-15 / 2)], [some 0, some 151]⟩, ⟨[some (-9), some (-7)], [some (-299), some (9 / 2)]⟩], info) := by
  obtain ⟨times, -, h⟩ := C37_frames_partial _ _ _ _ (exTwo_holds 0 0 (Or.inl ⟨rfl, rfl⟩)) (Or.inr rfl) rfl false false (fun _ => 0)
  refine ⟨_, h.trans (congrArg Except.ok (Prod.ext ?_ rfl))⟩
  simp only
  clear h
  decide +kernel

/-- The hypotheses of `C38_file_partial` are met. -/
example : ∃ times ys, Times exRec.shots times ∧ Dithered exRec.lo exRec.hi exRec.codes ys ∧
    parseWfm exDec (exTwo 0 0) false true true (fun _ => 1 / 4) = .ok (exRec.result false true ys times) :=
  C38_file_partial _ _ _ _ (exTwo_holds 0 0 (Or.inl ⟨rfl, rfl⟩)) (Or.inr rfl) rfl false true (fun _ => 1 / 4)
    (fun _ => by norm_num) (by decide +kernel) (by decide +kernel)

/-- One frame with one sample before and none after. -/
def exRecU : Recording :=
  { exRec with n := 3, nPost := 0, first := ⟨1 / 4, 1600000000, 1 / 2, [1], [-2, 300, 4], []⟩, others := [] }

/-- The file of `exRecU`. -/
def exOneU : List UInt8 :=
  withSum (exHead 2 0 0 (leBytes 8 0x3FE0000000000000) 0 2 8 8 8 ++ [1, -2, 300, 4].flatMap (encode false 2))

theorem exOneU_holds : Holds exDec exOneU exRecU 0 0 :=
    { start := by unfold At; decide +kernel
      version := by decide +kernel
      width := by unfold At; decide +kernel
      format := by unfold At; decide +kernel
      kind := by decide +kernel
      dims := by unfold At; decide +kernel
      storage := by unfold At; decide +kernel
      label := ⟨ascii "CH1", List.replicate 17 0, by decide +kernel, by decide +kernel, by decide +kernel, by decide +kernel⟩
      yUnit := ⟨ascii "V", List.replicate 19 0, by decide +kernel, by decide +kernel, by decide +kernel, by decide +kernel⟩
      xUnit := ⟨ascii "s", List.replicate 19 0, by decide +kernel, by decide +kernel, by decide +kernel, by decide +kernel⟩
      yScale := ⟨0, 1022, 0, by norm_num, by norm_num, by norm_num, by unfold At; decide +kernel, by decide +kernel⟩
      yOffset := ⟨0, 1023, 0, by norm_num, by norm_num, by norm_num, by unfold At; decide +kernel, by decide +kernel⟩
      xScale := ⟨0, 1024, 0, by norm_num, by norm_num, by norm_num, by unfold At; decide +kernel, by decide +kernel⟩
      xOffset := ⟨1, 1026, 2 ^ 50, by norm_num, by norm_num, by norm_num, by unfold At; decide +kernel, by decide +kernel⟩
      frames := by unfold At; decide +kernel
      first := ⟨⟨0, 1021, 0, by norm_num, by norm_num, by norm_num, by unfold At; decide +kernel, by decide +kernel⟩,
        ⟨0, 1022, 0, by norm_num, by norm_num, by norm_num, by unfold At; decide +kernel, by decide +kernel⟩,
        ⟨by decide, by decide, by unfold At; decide +kernel⟩, by decide +kernel, by decide +kernel⟩
      others := by intro i s hs; simp [exRecU] at hs
      counts := by decide +kernel
      fits := by unfold Fits; decide +kernel
      offsets := by unfold At; decide +kernel
      payload := ⟨fun _ => ([], []), fun _ => ⟨rfl, rfl⟩, leBytes 8 (byteSum (exOneU.take (exOneU.length - 8))), by decide +kernel⟩
      long := by decide +kernel
      checksum := by unfold At; decide +kernel }

/-- The hypotheses of `C37_unequal_fails` are met. -/
example : parseWfm exDec exOneU false false false (fun _ => 0) = .error .valueError :=
  C37_unequal_fails _ _ _ _ exOneU_holds (Or.inl rfl) (by decide) _ _ _

/-- **C37 fails** when the samples of the frames do not start at the beginning of a frame or do not reach to the end: samples
are taken from the wrong place. -/
theorem C37_misaligned_fails :
    (∃ data r lead, Holds exDec data r lead 0 ∧ r.nPre = r.nPost ∧
      ∃ fs info, parseWfm exDec data false false false (fun _ => 0) = .ok (fs, info) ∧
        fs ≠ r.shots.map fun s => r.frame false false s ((s.pre ++ s.codes ++ s.post).map fun c : ℤ => (c : ℚ))) ∧
    (∃ data r trail, Holds exDec data r 0 trail ∧ r.nPre = r.nPost ∧
      ∃ fs info, parseWfm exDec data false false false (fun _ => 0) = .ok (fs, info) ∧
        fs ≠ r.shots.map fun s => r.frame false false s ((s.pre ++ s.codes ++ s.post).map fun c : ℤ => (c : ℚ))) :=
  ⟨⟨exTwo 2 0, exRec, 2, exTwo_holds 2 0 (Or.inr (Or.inl ⟨rfl, rfl⟩)), rfl,
    [⟨[some (-19 / 2), some (-15 / 2)], [some (3 / 2), some 0]⟩, ⟨[some (-9), some (-7)], [some (2315 / 2), some (7 / 2)]⟩],
    exRec.info false false [1600000000500000, 1600000001250000], by decide +kernel, by decide +kernel⟩,
   ⟨exTwo 0 2, exRec, 2, exTwo_holds 0 2 (Or.inr (Or.inr ⟨rfl, rfl⟩)), rfl,
    [⟨[some (-19 / 2), some (-15 / 2)], [some 0, some 151]⟩, ⟨[some (-9), some (-7)], [some (7 / 2), some (-299)]⟩],
    exRec.info false false [1600000000500000, 1600000001250000], by decide +kernel, by decide +kernel⟩⟩

end Verif.Props.Wfm
