import Verif.Props.Tek

/-!
C88: the texts that the Tektronix drivers send.
-/

namespace Verif.Props.TekText

open Verif Verif.Scpi Verif.Decimal Verif.Tek

/-- The texts that are sent. -/
def sent (f : Family) (o : Out) : List Str := o.1.map (Cmd.text f)

/-- The text of a query. -/
def query (f : Family) (h : Hdr) : Str := h.text f ++ ['?']


/-- **C88.** The queries of both drivers. -/
theorem C88_queries (f : Family) (ch src : Str) :
    query f (.position ch) = ch ++ lit ":POSITION?" ∧
    query f (.scale ch) = ch ++ lit ":SCALE?" ∧
    query f (.bandwidth ch) = ch ++ lit ":BANDWIDTH?" ∧
    query f (.coupling ch) = ch ++ lit ":COUPLING?" ∧
    query f (.deskew ch) = ch ++ lit ":DESKEW?" ∧
    query f (.invert ch) = ch ++ lit ":INVERT?" ∧
    query f (.offset ch) = ch ++ lit ":OFFSET?" ∧
    query f (.termination ch) = ch ++ lit ":TERMINATION?" ∧
    query f (.probeGain ch) = ch ++ lit ":PROBE:GAIN?" ∧
    query f .dataSource = lit "DATA:SOURCE?" ∧
    query f .dataStart = lit "DATA:START?" ∧
    query f .dataStop = lit "DATA:STOP?" ∧
    query f .dataWidth = lit "DATA:WIDTH?" ∧
    query f .dataEncdg = lit "DATA:ENCDG?" ∧
    query f .header = lit "HEADER?" ∧
    query f .verbose = lit "VERBOSE?" ∧
    query f .acqMode = lit "ACQUIRE:MODE?" ∧
    query f .numAvg = lit "ACQUIRE:NUMAVG?" ∧
    query f .horScale = lit "HORIZONTAL:SCALE?" ∧
    query f .horDelayMode = lit "HORIZONTAL:DELAY:MODE?" ∧
    query f .horDelayTime = lit "HORIZONTAL:DELAY:TIME?" ∧
    query f .horRecord = lit "HORIZONTAL:RECORDLENGTH?" ∧
    query f .horRate = lit "HORIZONTAL:SAMPLERATE?" ∧
    query f .tType = lit "TRIGGER:A:TYPE?" ∧
    query f .tHoldoff = lit "TRIGGER:A:HOLDOFF:TIME?" ∧
    query f .edgeSource = lit "TRIGGER:A:EDGE:SOURCE?" ∧
    query f .edgeSlope = lit "TRIGGER:A:EDGE:SLOPE?" ∧
    query f .edgeCoupling = lit "TRIGGER:A:EDGE:COUPLING?" ∧
    query f .timeoutSource = lit "TRIGGER:A:TIMEOUT:SOURCE?" ∧
    query f .timeoutTime = lit "TRIGGER:A:TIMEOUT:TIME?" ∧
    query f .timeoutPolarity = lit "TRIGGER:A:TIMEOUT:POLARITY?" ∧
    query f .widthSource = lit "TRIGGER:A:PULSEWIDTH:SOURCE?" ∧
    query f .widthLow = lit "TRIGGER:A:PULSEWIDTH:LOWLIMIT?" ∧
    query f .widthHigh = lit "TRIGGER:A:PULSEWIDTH:HIGHLIMIT?" ∧
    query f .widthWidth = lit "TRIGGER:A:PULSEWIDTH:WIDTH?" ∧
    query f .widthWhen = lit "TRIGGER:A:PULSEWIDTH:WHEN?" ∧
    query f .widthPolarity = lit "TRIGGER:A:PULSEWIDTH:POLARITY?" ∧
    query f (.tLevel src) = lit "TRIGGER:A:LEVEL:" ++ src ++ ['?'] := by
  refine ⟨?_, ?_, ?_, ?_, ?_, ?_, ?_, ?_, ?_, ?_, ?_, ?_, ?_, ?_, ?_, ?_, ?_, ?_, ?_, ?_, ?_, ?_, ?_, ?_, ?_, ?_, ?_, ?_, ?_, ?_, ?_, ?_, ?_, ?_, ?_, ?_, ?_, ?_⟩ <;> cases f <;> simp [lit, query, Hdr.text, Hdr.path]

/-- **C88.** The queries that only one of the drivers uses, or that differ. -/
theorem C88_queries_family (ch : Str) :
    query .mso4000 (.label ch) = ch ++ lit ":LABEL?" ∧
    query .mso456 (.label ch) = ch ++ lit ":LABEL:NAME?" ∧
    query .mso4000 (.active ch) = lit "SELECT:" ++ ch ++ ['?'] ∧
    query .mso456 (.active ch) = lit "DISPLAY:GLOBAL:" ++ ch ++ lit ":STATE?" ∧
    query .mso4000 (.threshold ch) = ch ++ lit ":THRESHOLD?" ∧
    query .mso4000 .numEnv = lit "ACQUIRE:NUMENV?" ∧
    query .mso4000 .pulseClass = lit "TRIGGER:A:PULSE:CLASS?" ∧
    query .mso456 .tAuxLevel = lit "TRIGGER:AUXLEVEL?" := by
  refine ⟨?_, ?_, ?_, ?_, ?_, ?_, ?_, ?_⟩ <;> simp [lit, query, Hdr.text, Hdr.path]

/-- **C88.** What the setters of a channel send. -/
theorem C88_channel (f : Family) (ch : Str) (q : ℚ) (on : Bool) :
    sent f (setNum (.position ch) q) = [ch ++ lit ":POSITION " ++ fmtE6 q] ∧
    sent f (setNum (.scale ch) q) = [ch ++ lit ":SCALE " ++ fmtE6 q] ∧
    sent f (setNum (.bandwidth ch) q) = [ch ++ lit ":BANDWIDTH " ++ fmtE6 q] ∧
    sent f (setNum (.deskew ch) q) = [ch ++ lit ":DESKEW " ++ fmtE6 q] ∧
    sent f (setNum (.offset ch) q) = [ch ++ lit ":OFFSET " ++ fmtE6 q] ∧
    sent f (setNum (.termination ch) q) = [ch ++ lit ":TERMINATION " ++ fmtE6 q] ∧
    sent f (setNum (.probeGain ch) q) = [ch ++ lit ":PROBE:GAIN " ++ fmtE6 q] ∧
    sent .mso4000 (setNum (.threshold ch) q) = [ch ++ lit ":THRESHOLD " ++ fmtE6 q] ∧
    sent f (setCoupling ch on) = [ch ++ if on then lit ":COUPLING DC" else lit ":COUPLING AC"] ∧
    sent f (setInverted ch on) = [ch ++ if on then lit ":INVERT 1" else lit ":INVERT 0"] ∧
    sent .mso4000 (setActive ch on) = [lit "SELECT:" ++ ch ++ if on then lit " 1" else lit " 0"] ∧
    sent .mso456 (setActive ch on) = [lit "DISPLAY:GLOBAL:" ++ ch ++ if on then lit ":STATE 1" else lit ":STATE 0"] := by
  refine ⟨?_, ?_, ?_, ?_, ?_, ?_, ?_, ?_, ?_, ?_, ?_, ?_⟩ <;> cases f <;> cases on <;>
    simp [lit, sent, Cmd.text, setNum, setCoupling, setInverted, setActive, bit, Hdr.text, Hdr.path]

/-- **C88.** What the setter of a label sends: at most 30 characters, in apostrophes. -/
theorem C88_label (ch value : Str) (h : ∀ c ∈ value, c.toNat < 128) (hl : value.length ≤ 30) :
    sent .mso4000 (setLabel ch value) = [ch ++ lit ":LABEL '" ++ value ++ lit "'"] ∧
    sent .mso456 (setLabel ch value) = [ch ++ lit ":LABEL:NAME '" ++ value ++ lit "'"] := by
  have e : (value.filter fun c => decide (c.toNat < 128)).take 30 = value := by
    rw [List.filter_eq_self.2 (by simpa using h), List.take_of_length_le hl]
  constructor <;> simp [lit, sent, Cmd.text, setLabel, Hdr.text, Hdr.path, e]

/-- **C88.** What the setters of the acquisition and of the time base send. -/
theorem C88_acquire (f : Family) (q : ℚ) (n : ℤ) :
    sent f (setSampleMode (some .sample)) = [lit "ACQUIRE:MODE SAMPLE"] ∧
    sent f (setSampleMode (some .average)) = [lit "ACQUIRE:MODE AVERAGE"] ∧
    sent f (setSampleMode (some .envelope)) = [lit "ACQUIRE:MODE ENVELOPE"] ∧
    sent .mso4000 (setSampleModeN .mso4000 n) = [lit "ACQUIRE:NUMAVG " ++ fmtInt n, lit "ACQUIRE:NUMENV " ++ fmtInt n] ∧
    sent .mso456 (setSampleModeN .mso456 n) = [lit "ACQUIRE:NUMAVG " ++ fmtInt n] ∧
    sent .mso4000 (setTimeScale .mso4000 q) = [lit "HORIZONTAL:SCALE " ++ fmtE6 q] ∧
    sent .mso456 (setTimeScale .mso456 q) = [lit "HORIZONTAL:MODE MANUAL", lit "HORIZONTAL:SCALE " ++ fmtE6 q] ∧
    sent .mso4000 (setTimeOffset .mso4000 q) = [lit "HORIZONTAL:DELAY:MODE ON", lit "HORIZONTAL:DELAY:TIME " ++ fmtE6 q] ∧
    sent .mso456 (setTimeOffset .mso456 q) =
      [lit "HORIZONTAL:MODE MANUAL", lit "HORIZONTAL:DELAY:MODE ON", lit "HORIZONTAL:DELAY:TIME " ++ fmtE6 q] ∧
    sent .mso4000 (setTimePoints .mso4000 n) = [lit "HORIZONTAL:RECORDLENGTH " ++ fmtInt n] ∧
    sent .mso456 (setTimePoints .mso456 n) = [lit "HORIZONTAL:MODE MANUAL", lit "HORIZONTAL:RECORDLENGTH " ++ fmtInt n] := by
  refine ⟨?_, ?_, ?_, ?_, ?_, ?_, ?_, ?_, ?_, ?_, ?_⟩ <;>
    simp [lit, sent, Cmd.text, setSampleMode, setSampleModeN, setTimeScale, setTimeOffset, setTimePoints, Hdr.text, Hdr.path]

/-- **C88.** What the setter of the sample rate sends: the 4000 family sets the time per division from the record length that it was asked for. -/
theorem C88_sample_rate (r : Regs) (q : ℚ) (n : ℤ) (hq : q ≠ 0) (hr : pyInt (ask r .horRecord) = .ok n) :
    sent .mso4000 (setSampleRate .mso4000 r q) = [lit "HORIZONTAL:SCALE " ++ fmtE6 (n / q / 10)] ∧
    sent .mso456 (setSampleRate .mso456 r q) =
      [lit "HORIZONTAL:MODE MANUAL", lit "HORIZONTAL:MODE:MANUAL:CONFIGURE RECORDLENGTH", lit "HORIZONTAL:SAMPLERATE " ++ fmtE6 q] := by
  constructor <;> simp [lit, sent, Cmd.text, setSampleRate, hr, hq, setTimeScale, Hdr.text, Hdr.path]

/-- The word of an edge direction. -/
def edgeWord : Polarity → String
  | .rising => "RISE" | .falling => "FALL" | .both => "EITHER"

/-- The word of the level at which a timeout trigger waits. -/
def stayWord : Polarity → String
  | .rising => "STAYSHIGH" | .falling => "STAYSLOW" | .both => "EITHER"

/-- The word of a comparison. -/
def whenWord : Comparison → String
  | .less | .lessEqual => "LESSTHAN" | .more | .moreEqual => "MORETHAN" | .equal => "EQUAL" | .unequal => "UNEQUAL"
  | .within | .withinInc => "WITHIN" | .outside | .outsideInc => "OUTSIDE"

/-- The comparisons with two limits. -/
def TwoLimits (c : Comparison) : Prop := c = .within ∨ c = .withinInc ∨ c = .outside ∨ c = .outsideInc

/-- **C88.** What an edge trigger sends; the scopes of the 456 family have a separate level for the auxiliary input and none for the line. -/
theorem C88_edge (sc : Scope) (src : Str) (l h : ℚ) (p : Polarity) (dc : Bool) (hs : src ∈ sources sc true) :
    (sc.family = .mso4000 → sent .mso4000 (setTrigger sc (.edge src l (.val p) dc h)) =
      [lit "TRIGGER:A:TYPE EDGE", lit "TRIGGER:A:EDGE:SOURCE " ++ src, lit "TRIGGER:A:LEVEL:" ++ src ++ lit " " ++ fmtE6 l,
       lit "TRIGGER:A:EDGE:SLOPE " ++ lit (edgeWord p), if dc then lit "TRIGGER:A:EDGE:COUPLING DC" else lit "TRIGGER:A:EDGE:COUPLING AC",
       lit "TRIGGER:A:HOLDOFF:TIME " ++ fmtE6 h]) ∧
    (sc.family = .mso456 → sent .mso456 (setTrigger sc (.edge src l (.val p) dc h)) =
      [lit "TRIGGER:A:TYPE EDGE", lit "TRIGGER:A:EDGE:SOURCE " ++ src] ++
      (if src ∈ analogSources sc then [lit "TRIGGER:A:LEVEL:" ++ src ++ lit " " ++ fmtE6 l]
       else if src = lit "AUX" then [lit "TRIGGER:AUXLEVEL " ++ fmtE6 l] else []) ++
      [lit "TRIGGER:A:EDGE:SLOPE " ++ lit (edgeWord p), if dc then lit "TRIGGER:A:EDGE:COUPLING DC" else lit "TRIGGER:A:EDGE:COUPLING LFREJ",
       lit "TRIGGER:A:HOLDOFF:TIME " ++ fmtE6 h]) := by
  have e : edgeSlopeText (.val p) = .ok (lit (edgeWord p)) := by cases p <;> rfl
  constructor <;> intro hf
  · cases dc <;>
      simp [lit, sent, setTrigger, seqOut, hs, levelCmd, hf, e, couplingText, holdoffOut, Cmd.text, Hdr.text, Hdr.path]
  · by_cases h1 : src ∈ analogSources sc
    · cases dc <;>
        simp [lit, sent, setTrigger, seqOut, hs, levelCmd, hf, h1, e, couplingText, holdoffOut, Cmd.text, Hdr.text, Hdr.path]
    · by_cases h2 : src = lit "AUX"
      · have hl : levelCmd sc src l = [(.tAuxLevel, fmtE6 l)] := by unfold levelCmd; simp only [hf, if_neg h1, if_pos h2]
        rw [if_neg h1, if_pos h2]
        cases dc <;> simp [lit, sent, setTrigger, seqOut, hs, hl, hf, e, couplingText, holdoffOut, Cmd.text, Hdr.text, Hdr.path]
      · have h2' : src ≠ ['A', 'U', 'X'] := h2
        cases dc <;>
          simp [lit, sent, setTrigger, seqOut, hs, levelCmd, hf, h1, h2', e, couplingText, holdoffOut, Cmd.text, Hdr.text, Hdr.path]

/-- **C88.** A slope that is not one of `EdgePolarity`, for example one that the scope answered and that is not known: type, source and level are sent, then
KeyError is raised. -/
theorem C88_slope_unknown (sc : Scope) (src : Str) (l t h : ℚ) (w : Str) (dc : Bool) :
    (src ∈ sources sc true → setTrigger sc (.edge src l (.text w) dc h) =
      ([(.tType, lit "EDGE"), (.edgeSource, src)] ++ levelCmd sc src l, .error .keyError)) ∧
    (src ∈ sources sc false → setTrigger sc (.timeout src l t (.text w) h) =
      (timeoutHead sc.family ++ [(.timeoutSource, src)] ++ levelCmd sc src l ++ [(.timeoutTime, fmtE6 t)], .error .keyError)) := by
  constructor <;> intro hs <;> simp [setTrigger, seqOut, hs, edgeSlopeText, timeoutSlopeText]

/-- Sources of timeout and pulse width triggers of the 456 family are analog channels. -/
theorem source_456 {sc : Scope} {src : Str} (hs : src ∈ sources sc false) (hf : sc.family = .mso456) : src ∈ analogSources sc := by
  unfold sources at hs
  rw [hf] at hs
  simpa using hs

/-- **C88.** What a timeout trigger sends. -/
theorem C88_timeout (sc : Scope) (src : Str) (l t h : ℚ) (p : Polarity) (hs : src ∈ sources sc false) :
    sent sc.family (setTrigger sc (.timeout src l t (.val p) h)) =
      (match sc.family with
       | .mso4000 => [lit "TRIGGER:A:TYPE PULSE", lit "TRIGGER:A:PULSE:CLASS TIMEOUT"]
       | .mso456 => [lit "TRIGGER:A:TYPE TIMEOUT"]) ++
      [lit "TRIGGER:A:TIMEOUT:SOURCE " ++ src, lit "TRIGGER:A:LEVEL:" ++ src ++ lit " " ++ fmtE6 l, lit "TRIGGER:A:TIMEOUT:TIME " ++ fmtE6 t,
       lit "TRIGGER:A:TIMEOUT:POLARITY " ++ lit (stayWord p), lit "TRIGGER:A:HOLDOFF:TIME " ++ fmtE6 h] := by
  have e : timeoutSlopeText (.val p) = .ok (lit (stayWord p)) := by cases p <;> rfl
  rcases hf : sc.family with _ | _
  · simp [lit, sent, setTrigger, seqOut, hs, levelCmd, hf, e, timeoutHead, holdoffOut, Cmd.text, Hdr.text, Hdr.path]
  · have h1 := source_456 hs hf
    simp [lit, sent, setTrigger, seqOut, hs, levelCmd, hf, h1, e, timeoutHead, holdoffOut, Cmd.text, Hdr.text, Hdr.path]

/-- **C88.** What a pulse width trigger sends: one width or two limits, depending on the comparison. -/
theorem C88_pulse (sc : Scope) (src : Str) (l lo hi h : ℚ) (c : Comparison) (positive : Bool) (hs : src ∈ sources sc false) :
    let head := (match sc.family with
       | .mso4000 => [lit "TRIGGER:A:TYPE PULSE", lit "TRIGGER:A:PULSE:CLASS WIDTH"]
       | .mso456 => [lit "TRIGGER:A:TYPE WIDTH"]) ++
      [lit "TRIGGER:A:PULSEWIDTH:SOURCE " ++ src, lit "TRIGGER:A:LEVEL:" ++ src ++ lit " " ++ fmtE6 l]
    let tail := [lit "TRIGGER:A:PULSEWIDTH:WHEN " ++ lit (whenWord c),
      if positive then lit "TRIGGER:A:PULSEWIDTH:POLARITY POSITIVE" else lit "TRIGGER:A:PULSEWIDTH:POLARITY NEGATIVE",
      lit "TRIGGER:A:HOLDOFF:TIME " ++ fmtE6 h]
    (TwoLimits c → sent sc.family (setTrigger sc (.pulse src l (.pair lo hi) (.val c) positive h)) =
      head ++ [lit "TRIGGER:A:PULSEWIDTH:LOWLIMIT " ++ fmtE6 lo, lit "TRIGGER:A:PULSEWIDTH:HIGHLIMIT " ++ fmtE6 hi] ++ tail) ∧
    (¬ TwoLimits c → sent sc.family (setTrigger sc (.pulse src l (.one lo) (.val c) positive h)) =
      head ++ [lit "TRIGGER:A:PULSEWIDTH:WIDTH " ++ fmtE6 lo] ++ tail) := by
  have e : whenText (.val c) = .ok (lit (whenWord c)) := by cases c <;> rfl
  have e2 : TwoLimits c ↔ isRange (.val c) = true := by cases c <;> simp [TwoLimits, isRange]
  intro head tail
  rw [e2]
  rcases hf : sc.family with _ | _
  · constructor <;> intro hc <;> cases positive <;>
      simp [lit, sent, setTrigger, seqOut, hs, levelCmd, hf, e, widthHead, widthOut, hc, pulseTail, holdoffOut, Cmd.text, Hdr.text, Hdr.path, head, tail]
  · have h1 := source_456 hs hf
    constructor <;> intro hc <;> cases positive <;>
      simp [lit, sent, setTrigger, seqOut, hs, levelCmd, hf, h1, e, widthHead, widthOut, hc, pulseTail, holdoffOut, Cmd.text, Hdr.text, Hdr.path, head, tail]

/-- The text of an action of `read_waveform`; reading the reply has none. -/
def ioText (f : Family) : Io → Option Str
  | .cmd h v => some (Cmd.text f (h, v))
  | .waveform => some (lit "WAVFRM?")
  | .receive => none

/-- **C88.** What `read_waveform` sends: all points of the channel, as one byte per point for the 4000 family and two for the 456 family; the headers
are on while the reply is read (`none`) and off afterwards. -/
theorem C88_waveform (ch : Str) (d : List UInt8) :
    (readWaveform .mso4000 ch (.ok d)).1.map (ioText .mso4000) =
      [some (lit "SELECT:" ++ ch ++ lit " 1"), some (lit "DATA:SOURCE " ++ ch), some (lit "DATA:START 1"), some (lit "DATA:STOP 1E9"),
       some (lit "DATA:WIDTH 1"), some (lit "DATA:ENCDG FASTEST"), some (lit "HEADER 1"), some (lit "WAVFRM?"), none, some (lit "HEADER 0")] ∧
    (readWaveform .mso456 ch (.ok d)).1.map (ioText .mso456) =
      [some (lit "DISPLAY:GLOBAL:" ++ ch ++ lit ":STATE 1"), some (lit "DATA:SOURCE " ++ ch), some (lit "DATA:START 1"), some (lit "DATA:STOP 1E9"),
       some (lit "DATA:WIDTH 2"), some (lit "DATA:ENCDG RIBINARY"), some (lit "HEADER 1"), some (lit "WAVFRM?"), none, some (lit "HEADER 0")] := by
  constructor <;> simp [lit, readWaveform, ioText, Cmd.text, bit, Hdr.text, Hdr.path]

/-! ### A case -/

/-- A scope with two channels; the edge trigger on its second channel. -/
example : (sent .mso4000 (setTrigger ⟨.mso4000, [1, 2], [], true⟩ (.edge (lit "CH2") (3 / 2) (.val .falling) true 0))).map String.ofList =
    ["TRIGGER:A:TYPE EDGE", "TRIGGER:A:EDGE:SOURCE CH2", "TRIGGER:A:LEVEL:CH2 1.500000E+00", "TRIGGER:A:EDGE:SLOPE FALL",
     "TRIGGER:A:EDGE:COUPLING DC", "TRIGGER:A:HOLDOFF:TIME 0.000000E+00"] := by decide +kernel

/-- The sources of that scope, a record length that was read, a short label: the hypotheses of the theorems. -/
example : lit "CH2" ∈ sources ⟨.mso4000, [1, 2], [], true⟩ true ∧ lit "CH1" ∈ sources ⟨.mso456, [1, 2], [], false⟩ false ∧
    pyInt (ask (fun _ => lit "10000\n") .horRecord) = .ok 10000 ∧ (∀ c ∈ lit "clock", c.toNat < 128) ∧ TwoLimits .within ∧ ¬ TwoLimits .less := by
  refine ⟨by decide +kernel, by decide +kernel, by decide +kernel, by decide +kernel, Or.inl rfl, ?_⟩
  simp [TwoLimits]

end Verif.Props.TekText
