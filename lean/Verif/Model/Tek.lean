import Verif.Model.Decimal

/-!
Model of the Tektronix drivers: `hardware_tools/equipment/tektronix/common.py` (enumeration parsing),
`family_mso4000.py` and `family_mso456.py` (channel settings, sample mode, trigger, waveform request).

A setter is modelled by the list of commands that it sends and its outcome; a getter is a function of the replies.
A command is a header and a value; `Hdr.text` gives the text of the header, the command text being
`header ++ " " ++ value`, the query text `header ++ "?"`.
-/

namespace Verif.Tek

open Verif Verif.Scpi Verif.Decimal

/-- A string literal as a list of characters. -/
abbrev lit (s : String) : Str := s.toList

/-! ### Enumerations -/

/-- `Comparison`, math/stats.py:14-37. -/
inductive Comparison where
  | less | lessEqual | more | moreEqual | equal | unequal | within | withinInc | outside | outsideInc
  deriving DecidableEq, Repr

/-- `EdgePolarity`, math/lines.py:23-32. -/
inductive Polarity where
  | rising | falling | both
  deriving DecidableEq, Repr

/-- `SampleMode`, equipment/scope.py:18-28. -/
inductive SampleMode where
  | sample | average | envelope
  deriving DecidableEq, Repr

/-- The result of the enumeration parsers: a member, or the text itself when nothing matches. -/
inductive Parsed (α : Type) where
  | val (a : α)
  | text (s : Str)
  deriving DecidableEq, Repr

/-- `re.sub(r"[a-z]+$", "", kd)`, common.py:42, 64, 90. -/
def shortForm (kd : Str) : Str := (kd.reverse.dropWhile isLower).reverse

/-- The loops of common.py:40-45, 62-67, 88-93. -/
def parseTable {α : Type} (table : List (Str × α)) (v : Str) : Parsed α :=
  match table.find? fun e => (shortForm e.1).isPrefixOf v with
  | some e => .val e.2
  | none => .text v

/-- common.py:28-39. -/
def comparisonTable : List (Str × Comparison) :=
  [(lit "LESSthan", .less), (lit "MOREthan", .more), (lit "EQual", .equal), (lit "UNEqual", .unequal),
   (lit "LESSEQual", .lessEqual), (lit "MOREEQual", .moreEqual), (lit "WIThin", .within), (lit "INrange", .within),
   (lit "OUTside", .outside), (lit "OUTrange", .outside)]

/-- common.py:57-61. -/
def sampleModeTable : List (Str × SampleMode) :=
  [(lit "SAMple", .sample), (lit "AVErage", .average), (lit "ENVelope", .envelope)]

/-- common.py:79-87. -/
def polarityTable : List (Str × Polarity) :=
  [(lit "RISe", .rising), (lit "POSitive", .rising), (lit "STAYSHigh", .rising), (lit "FALL", .falling),
   (lit "NEGative", .falling), (lit "STAYSLow", .falling), (lit "EITher", .both)]

/-- `parse_comparison`, common.py:19-45. -/
def parseComparison : Str → Parsed Comparison := parseTable comparisonTable

/-- `parse_sample_mode`, common.py:48-67. -/
def parseSampleMode : Str → Parsed SampleMode := parseTable sampleModeTable

/-- `parse_polarity`, common.py:70-93. -/
def parsePolarity : Str → Parsed Polarity := parseTable polarityTable

/-- `parse_threshold`, common.py:96-110. -/
def parseThreshold (v : Str) : Except PyErr ℚ :=
  if v = lit "ECL" then .ok (-(13 / 10)) else if v = lit "TTL" then .ok (14 / 10) else pyFloat v

/-! ### Commands -/

/-- The two driver families. -/
inductive Family where
  | mso4000 | mso456
  deriving DecidableEq

/-- The settings of the instrument that the drivers use. -/
inductive Hdr where
  | position (a : Str) | label (a : Str) | active (a : Str) | scale (a : Str) | bandwidth (a : Str) | coupling (a : Str)
  | deskew (a : Str) | invert (a : Str) | offset (a : Str) | termination (a : Str) | probeGain (a : Str)
  | threshold (a : Str)
  | dataSource | dataStart | dataStop | dataWidth | dataEncdg | header | verbose
  | acqMode | numAvg | numEnv
  | horMode | horManualConfigure | horScale | horDelayMode | horDelayTime | horRecord | horRate
  | tType | tHoldoff | tLevel (src : Str) | tAuxLevel
  | edgeSource | edgeSlope | edgeCoupling | pulseClass
  | timeoutSource | timeoutTime | timeoutPolarity
  | widthSource | widthLow | widthHigh | widthWidth | widthWhen | widthPolarity
  deriving DecidableEq

/-- The path of a header; family_mso4000.py / family_mso456.py lines in the comments. -/
def Hdr.path (f : Family) : Hdr → List Str
  | .position a => [a, lit "POSITION"]                                       -- 4000:29,33   456:33,37
  | .label a => match f with
    | .mso4000 => [a, lit "LABEL"]                                           -- 4000:37,42
    | .mso456 => [a, lit "LABEL", lit "NAME"]                                -- 456:41,46
  | .active a => match f with
    | .mso4000 => [lit "SELECT", a]                                          -- 4000:46,50
    | .mso456 => [lit "DISPLAY", lit "GLOBAL", a, lit "STATE"]               -- 456:50,55
  | .scale a => [a, lit "SCALE"]                                             -- 4000:80,84   456:91,95
  | .bandwidth a => [a, lit "BANDWIDTH"]                                     -- 4000:88,92   456:99,103
  | .coupling a => [a, lit "COUPLING"]                                       -- 4000:96-103  456:107-114
  | .deskew a => [a, lit "DESKEW"]                                           -- 4000:107,111 456:118,122
  | .invert a => [a, lit "INVERT"]                                           -- 4000:115,119 456:126,130
  | .offset a => [a, lit "OFFSET"]                                           -- 4000:123,127 456:134,138
  | .termination a => [a, lit "TERMINATION"]                                 -- 4000:131,135 456:142,146
  | .probeGain a => [a, lit "PROBE", lit "GAIN"]                             -- 4000:139,143 456:150,154
  | .threshold a => [a, lit "THRESHOLD"]                                     -- 4000:153,157
  | .dataSource => [lit "DATA", lit "SOURCE"]                                -- 4000:57      456:62
  | .dataStart => [lit "DATA", lit "START"]                                  -- 4000:58      456:63
  | .dataStop => [lit "DATA", lit "STOP"]                                    -- 4000:59      456:64
  | .dataWidth => [lit "DATA", lit "WIDTH"]                                  -- 4000:60      456:65
  | .dataEncdg => [lit "DATA", lit "ENCDG"]                                  -- 4000:61      456:66
  | .header => [lit "HEADER"]                                                -- 4000:63,68   456:68,76
  | .verbose => [lit "VERBOSE"]                                              -- 4000:185     456:186
  | .acqMode => [lit "ACQUIRE", lit "MODE"]                                  -- 4000:211-228 456:213-230
  | .numAvg => [lit "ACQUIRE", lit "NUMAVG"]                                 -- 4000:236,243 456:238,243
  | .numEnv => [lit "ACQUIRE", lit "NUMENV"]                                 -- 4000:238,244
  | .horMode => [lit "HORIZONTAL", lit "MODE"]                               -- 456:207,251,261,271
  | .horManualConfigure => [lit "HORIZONTAL", lit "MODE", lit "MANUAL", lit "CONFIGURE"] -- 456:208
  | .horScale => [lit "HORIZONTAL", lit "SCALE"]                             -- 4000:248,252 456:247,253
  | .horDelayMode => [lit "HORIZONTAL", lit "DELAY", lit "MODE"]             -- 4000:260     456:262
  | .horDelayTime => [lit "HORIZONTAL", lit "DELAY", lit "TIME"]             -- 4000:256,261 456:257,263
  | .horRecord => [lit "HORIZONTAL", lit "RECORDLENGTH"]                     -- 4000:265,269 456:267,273
  | .horRate => [lit "HORIZONTAL", lit "SAMPLERATE"]                         -- 4000:202     456:203,209
  | .tType => [lit "TRIGGER", lit "A", lit "TYPE"]                           -- 4000:273,317 456:277,326
  | .tHoldoff => [lit "TRIGGER", lit "A", lit "HOLDOFF", lit "TIME"]         -- 4000:274,420 456:278,404
  | .tLevel s => [lit "TRIGGER", lit "A", lit "LEVEL", s]                    -- 4000:279,331 456:285,333
  | .tAuxLevel => [lit "TRIGGER", lit "AUXLEVEL"]                            -- 456:284,335
  | .edgeSource => [lit "TRIGGER", lit "A", lit "EDGE", lit "SOURCE"]        -- 4000:278,327 456:289,331
  | .edgeSlope => [lit "TRIGGER", lit "A", lit "EDGE", lit "SLOPE"]          -- 4000:280,338 456:293,342
  | .edgeCoupling => [lit "TRIGGER", lit "A", lit "EDGE", lit "COUPLING"]    -- 4000:281,341 456:294,345
  | .pulseClass => [lit "TRIGGER", lit "A", lit "PULSE", lit "CLASS"]        -- 4000:284,346
  | .timeoutSource => [lit "TRIGGER", lit "A", lit "TIMEOUT", lit "SOURCE"]  -- 4000:286,356 456:297,353
  | .timeoutTime => [lit "TRIGGER", lit "A", lit "TIMEOUT", lit "TIME"]      -- 4000:288,362 456:299,356
  | .timeoutPolarity => [lit "TRIGGER", lit "A", lit "TIMEOUT", lit "POLARITY"]   -- 4000:289,368 456:300,362
  | .widthSource => [lit "TRIGGER", lit "A", lit "PULSEWIDTH", lit "SOURCE"] -- 4000:292,381 456:303,368
  | .widthLow => [lit "TRIGGER", lit "A", lit "PULSEWIDTH", lit "LOWLIMIT"]  -- 4000:302,392 456:313,376
  | .widthHigh => [lit "TRIGGER", lit "A", lit "PULSEWIDTH", lit "HIGHLIMIT"]     -- 4000:303,394 456:314,378
  | .widthWidth => [lit "TRIGGER", lit "A", lit "PULSEWIDTH", lit "WIDTH"]   -- 4000:307,400 456:318,384
  | .widthWhen => [lit "TRIGGER", lit "A", lit "PULSEWIDTH", lit "WHEN"]     -- 4000:295,413 456:305,397
  | .widthPolarity => [lit "TRIGGER", lit "A", lit "PULSEWIDTH", lit "POLARITY"]  -- 4000:297,415 456:307,399

/-- The header text, `:` between the words. -/
def Hdr.text (f : Family) (h : Hdr) : Str := List.intercalate [':'] (h.path f)

/-- A command `header value`. -/
abbrev Cmd := Hdr × Str

/-- The text that is sent for a command, e.g. 4000:33. -/
def Cmd.text (f : Family) (c : Cmd) : Str := c.1.text f ++ ' ' :: c.2

/-- What a setter did: the commands sent, in order, and how it ended. -/
abbrev Out := List Cmd × Except PyErr Unit

/-- The replies of the instrument, by header. -/
abbrev Regs := Hdr → Str

/-- `ask(header?)`: the reply without surrounding blanks, equipment.py:82-91. -/
def ask (r : Regs) (h : Hdr) : Str := strip (r h)

/-! ### Channels -/

/-- `f"{ch}:LABEL '{value[:30]}'"` after `encode("ascii", errors="ignore")`, 4000:40-42, 456:44-46. -/
def setLabel (ch value : Str) : Out :=
  let v := (value.filter fun c => c.toNat < 128).take 30
  ([(.label ch, '\'' :: v ++ ['\''])], .ok ())

/-- `ask(...).strip('"')`, 4000:36-37, 456:40-41. -/
def getLabel (r : Regs) (ch : Str) : Str :=
  (((ask r (.label ch)).dropWhile (· = '"')).reverse.dropWhile (· = '"')).reverse

/-- The numeric channel setters, e.g. 4000:31-33. -/
def setNum (h : Hdr) (v : ℚ) : Out := ([(h, fmtE6 v)], .ok ())

/-- The numeric getters, e.g. 4000:27-29. -/
def getNum (r : Regs) (h : Hdr) : Except PyErr ℚ := pyFloat (ask r h)

/-- `int(bool)` as text. -/
def bit (b : Bool) : Str := if b then lit "1" else lit "0"

/-- 4000:48-50, 456:53-55. -/
def setActive (ch : Str) (on : Bool) : Out := ([(.active ch, bit on)], .ok ())

/-- 4000:44-46, 456:48-51. -/
def getActive (r : Regs) (ch : Str) : Bool := ask r (.active ch) ∈ [lit "ON", lit "1"]

/-- 4000:98-103, 456:109-114. -/
def setCoupling (ch : Str) (dc : Bool) : Out := ([(.coupling ch, if dc then lit "DC" else lit "AC")], .ok ())

/-- 4000:94-96, 456:105-107. -/
def getCoupling (r : Regs) (ch : Str) : Bool := ask r (.coupling ch) = lit "DC"

/-- 4000:117-119, 456:128-130. -/
def setInverted (ch : Str) (b : Bool) : Out := ([(.invert ch, bit b)], .ok ())

/-- `bool(text)`: true unless empty, 4000:113-115, 456:124-126. -/
def getInverted (r : Regs) (ch : Str) : Bool := !(ask r (.invert ch)).isEmpty

/-! ### Sample mode and time base -/

/-- 4000:221-230, 456:223-232; `none` is anything that is not a `SampleMode`. -/
def setSampleMode : Option SampleMode → Out
  | some .sample => ([(.acqMode, lit "SAMPLE")], .ok ())
  | some .average => ([(.acqMode, lit "AVERAGE")], .ok ())
  | some .envelope => ([(.acqMode, lit "ENVELOPE")], .ok ())
  | none => ([], .error .valueError)

/-- 4000:209-219, 456:211-221. -/
def getSampleMode (r : Regs) : Option SampleMode :=
  let mode := ask r .acqMode
  if (lit "SAM").isPrefixOf mode then some .sample
  else if (lit "AVE").isPrefixOf mode then some .average
  else if (lit "ENV").isPrefixOf mode then some .envelope
  else none

/-- 4000:241-244, 456:241-243; the argument is `int(value)`. -/
def setSampleModeN (f : Family) (n : ℤ) : Out :=
  match f with
  | .mso4000 => ([(.numAvg, fmtInt n), (.numEnv, fmtInt n)], .ok ())
  | .mso456 => ([(.numAvg, fmtInt n)], .ok ())

/-- 4000:232-239, 456:234-239. -/
def getSampleModeN (f : Family) (r : Regs) : Except PyErr ℤ :=
  match getSampleMode r, f with
  | some .average, _ => pyInt (ask r .numAvg)
  | some .envelope, .mso4000 => pyInt (ask r .numEnv)
  | _, _ => .ok 1

/-- `time_scale` setter, 4000:250-252, 456:249-253. -/
def setTimeScale (f : Family) (v : ℚ) : Out :=
  match f with
  | .mso4000 => ([(.horScale, fmtE6 v)], .ok ())
  | .mso456 => ([(.horMode, lit "MANUAL"), (.horScale, fmtE6 v)], .ok ())

/-- `time_offset` setter, 4000:258-261, 456:259-263. -/
def setTimeOffset (f : Family) (v : ℚ) : Out :=
  match f with
  | .mso4000 => ([(.horDelayMode, lit "ON"), (.horDelayTime, fmtE6 v)], .ok ())
  | .mso456 => ([(.horMode, lit "MANUAL"), (.horDelayMode, lit "ON"), (.horDelayTime, fmtE6 v)], .ok ())

/-- `time_points` setter, 4000:267-269, 456:269-273; the argument is `int(value)`. -/
def setTimePoints (f : Family) (n : ℤ) : Out :=
  match f with
  | .mso4000 => ([(.horRecord, fmtInt n)], .ok ())
  | .mso456 => ([(.horMode, lit "MANUAL"), (.horRecord, fmtInt n)], .ok ())

/-- `sample_rate` setter, 4000:204-207 (from the present record length, into `time_scale`) and 456:205-209. -/
def setSampleRate (f : Family) (r : Regs) (v : ℚ) : Out :=
  match f with
  | .mso4000 =>
    match pyInt (ask r .horRecord) with
    | .error e => ([], .error e)
    | .ok n => if v = 0 then ([], .error .zeroDivision) else setTimeScale .mso4000 ((n : ℚ) / v / 10)
  | .mso456 => ([(.horMode, lit "MANUAL"), (.horManualConfigure, lit "RECORDLENGTH"), (.horRate, fmtE6 v)], .ok ())

/-! ### Trigger -/

/-- The `width` of a pulse width trigger: a number or limits (scope.py:364-394). -/
inductive Width where
  | one (w : ℚ)
  | pair (lower upper : ℚ)
  deriving DecidableEq

/-- The trigger classes, scope.py:293-394.  Slope and comparison are texts when a getter could not parse them. -/
inductive Trigger where
  | edge (src : Str) (level : ℚ) (slope : Parsed Polarity) (dc : Bool) (holdoff : ℚ)
  | timeout (src : Str) (level timeout : ℚ) (slope : Parsed Polarity) (holdoff : ℚ)
  | pulse (src : Str) (level : ℚ) (width : Width) (comparison : Parsed Comparison) (positive : Bool) (holdoff : ℚ)
  | other
  deriving DecidableEq

/-- The channels found at construction (`_channels`, `_digitals`, `_aux`), 4000:187-196, 456:189-195. -/
structure Scope where
  family : Family
  channels : List ℕ
  digitals : List ℕ
  aux : Bool

/-- `[f"CH{i}" for i in self._channels]`, 4000:314, 456:324. -/
def analogSources (sc : Scope) : List Str := sc.channels.map fun i => lit "CH" ++ digitsText 1 i

/-- `[f"D{i}" for i in self._digitals]`, 4000:315. -/
def digitalSources (sc : Scope) : List Str := sc.digitals.map fun i => lit "D" ++ digitsText 1 i

/-- The `sources` lists: 4000:318-324, 347-353, 372-378 (all triggers alike), 456:327-328 (edge), 350, 365. -/
def sources (sc : Scope) (edge : Bool) : List Str :=
  match sc.family with
  | .mso4000 => lit "LINE" :: analogSources sc ++ digitalSources sc ++ (if sc.aux then [lit "AUX"] else [])
  | .mso456 => if edge then lit "LINE" :: lit "AUX" :: analogSources sc else analogSources sc

/-- The level command: 4000:331, 360, 385; 456:332-335 (edge), 354, 369. -/
def levelCmd (sc : Scope) (src : Str) (level : ℚ) : List Cmd :=
  match sc.family with
  | .mso4000 => [(.tLevel src, fmtE6 level)]
  | .mso456 =>
    if src ∈ analogSources sc then [(.tLevel src, fmtE6 level)]
    else if src = lit "AUX" then [(.tAuxLevel, fmtE6 level)]
    else []

/-- `polarities[value.slope]` for edges, 4000:333-338, 456:337-342; anything but an `EdgePolarity` is a KeyError. -/
def edgeSlopeText : Parsed Polarity → Except PyErr Str
  | .val .rising => .ok (lit "RISE")
  | .val .falling => .ok (lit "FALL")
  | .val .both => .ok (lit "EITHER")
  | .text _ => .error .keyError

/-- `polarities[value.slope]` for timeouts, 4000:363-368, 456:357-362. -/
def timeoutSlopeText : Parsed Polarity → Except PyErr Str
  | .val .rising => .ok (lit "STAYSHIGH")
  | .val .falling => .ok (lit "STAYSLOW")
  | .val .both => .ok (lit "EITHER")
  | .text _ => .error .keyError

/-- `comparison in [WITHIN, WITHININC, OUTSIDE, OUTSIDEINC]`, 4000:298-301, 387-390. -/
def isRange : Parsed Comparison → Bool
  | .val .within | .val .withinInc | .val .outside | .val .outsideInc => true
  | _ => false

/-- `whens[value.comparison]`, 4000:401-413, 456:385-397. -/
def whenText : Parsed Comparison → Except PyErr Str
  | .val .less => .ok (lit "LESSTHAN")
  | .val .lessEqual => .ok (lit "LESSTHAN")
  | .val .more => .ok (lit "MORETHAN")
  | .val .moreEqual => .ok (lit "MORETHAN")
  | .val .equal => .ok (lit "EQUAL")
  | .val .unequal => .ok (lit "UNEQUAL")
  | .val .within => .ok (lit "WITHIN")
  | .val .withinInc => .ok (lit "WITHIN")
  | .val .outside => .ok (lit "OUTSIDE")
  | .val .outsideInc => .ok (lit "OUTSIDE")
  | .text _ => .error .keyError

/-- Commands, then more unless there was an exception. -/
def seqOut (cs : List Cmd) (o : Out) : Out := (cs ++ o.1, o.2)

/-- The tail of the setter, 4000:420, 456:404. -/
def holdoffOut (holdoff : ℚ) : Out := ([(.tHoldoff, fmtE6 holdoff)], .ok ())

/-- 4000:387-400, 456:371-384: the width.  A number where limits are needed is a TypeError turned into a ValueError,
limits where a number is needed are the TypeError of `float(tuple)`. -/
def widthOut (cmp : Parsed Comparison) (w : Width) : List Cmd × Except PyErr Unit :=
  if isRange cmp then
    match w with
    | .pair lo hi => ([(.widthLow, fmtE6 lo), (.widthHigh, fmtE6 hi)], .ok ())
    | .one _ => ([], .error .valueError)
  else
    match w with
    | .one w => ([(.widthWidth, fmtE6 w)], .ok ())
    | .pair _ _ => ([], .error .typeError)

/-- 4000:401-420, 456:385-404: what follows the width. -/
def pulseTail (cmp : Parsed Comparison) (positive : Bool) (holdoff : ℚ) : Out :=
  match whenText cmp with
  | .error e => ([], .error e)
  | .ok t =>
    seqOut [(.widthWhen, t), (.widthPolarity, if positive then lit "POSITIVE" else lit "NEGATIVE")] (holdoffOut holdoff)

/-- The coupling of edge triggers: 4000:340-343, 456:344-347. -/
def couplingText (f : Family) (dc : Bool) : Str :=
  if dc then lit "DC"
  else match f with
    | .mso4000 => lit "AC"
    | .mso456 => lit "LFREJ"

/-- The type of a timeout trigger: 4000:345-346, 456:349. -/
def timeoutHead : Family → List Cmd
  | .mso4000 => [(.tType, lit "PULSE"), (.pulseClass, lit "TIMEOUT")]
  | .mso456 => [(.tType, lit "TIMEOUT")]

/-- The type of a pulse width trigger: 4000:370-371, 456:364. -/
def widthHead : Family → List Cmd
  | .mso4000 => [(.tType, lit "PULSE"), (.pulseClass, lit "WIDTH")]
  | .mso456 => [(.tType, lit "WIDTH")]

/-- The `trigger` setter, 4000:312-420, 456:322-404. -/
def setTrigger (sc : Scope) : Trigger → Out
  | .edge src level slope dc holdoff =>
    seqOut [(.tType, lit "EDGE")] <|
    if src ∉ sources sc true then ([], .error .valueError)
    else
      seqOut ((.edgeSource, src) :: levelCmd sc src level) <|
      match edgeSlopeText slope with
      | .error e => ([], .error e)
      | .ok t =>
        seqOut [(.edgeSlope, t), (.edgeCoupling, couplingText sc.family dc)] (holdoffOut holdoff)
  | .timeout src level timeout slope holdoff =>
    seqOut (timeoutHead sc.family) <|
    if src ∉ sources sc false then ([], .error .valueError)
    else
      seqOut ((.timeoutSource, src) :: levelCmd sc src level ++ [(.timeoutTime, fmtE6 timeout)]) <|
      match timeoutSlopeText slope with
      | .error e => ([], .error e)
      | .ok t => seqOut [(.timeoutPolarity, t)] (holdoffOut holdoff)
  | .pulse src level width cmp positive holdoff =>
    seqOut (widthHead sc.family) <|
    if src ∉ sources sc false then ([], .error .valueError)
    else
      seqOut ((.widthSource, src) :: levelCmd sc src level) <|
      match widthOut cmp width with
      | (cs, .error e) => (cs, .error e)
      | (cs, .ok ()) => seqOut cs (pulseTail cmp positive holdoff)
  | .other => ([], .error .valueError)

/-- The level: 4000:279 (`float(ask(LEVEL:src?))`) and `get_level`, 456:280-285. -/
def getLevel (f : Family) (r : Regs) (src : Str) : Except PyErr ℚ :=
  match f with
  | .mso4000 => getNum r (.tLevel src)
  | .mso456 =>
    if src = lit "LINE" then .ok 0
    else if src = lit "AUX" then getNum r .tAuxLevel
    else getNum r (.tLevel src)

/-- The name of the source of an edge trigger: as it is in 4000:278, 456:290-291. -/
def edgeSrc (f : Family) (src : Str) : Str :=
  match f with
  | .mso4000 => src
  | .mso456 => if src = lit "AUXILIARY" then lit "AUX" else src

/-- 4000:277-282, 456:288-295. -/
def getEdge (f : Family) (r : Regs) (holdoff : ℚ) : Except PyErr Trigger := do
  let src := ask r .edgeSource
  let src := edgeSrc f src
  let level ← getLevel f r src
  return .edge src level (parsePolarity (ask r .edgeSlope)) (ask r .edgeCoupling = lit "DC") holdoff

/-- 4000:286-290, 456:297-301. -/
def getTimeout (f : Family) (r : Regs) (holdoff : ℚ) : Except PyErr Trigger := do
  let src := ask r .timeoutSource
  let level ← getLevel f r src
  let timeout ← getNum r .timeoutTime
  return .timeout src level timeout (parsePolarity (ask r .timeoutPolarity)) holdoff

/-- 4000:292-309, 456:303-319.  `.upper().startswith("POS")` with the ASCII upper case. -/
def getPulse (f : Family) (r : Regs) (holdoff : ℚ) : Except PyErr Trigger := do
  let src := ask r .widthSource
  let level ← getLevel f r src
  let cmp := parseComparison (ask r .widthWhen)
  let positive := (lit "POS").isPrefixOf (upper (ask r .widthPolarity))
  if isRange cmp then do
    let lo ← getNum r .widthLow
    let hi ← getNum r .widthHigh
    return .pulse src level (.pair lo hi) cmp positive holdoff
  else do
    let w ← getNum r .widthWidth
    return .pulse src level (.one w) cmp positive holdoff

/-- The `trigger` getter, 4000:271-310, 456:275-320; `none` is python's `None` for other trigger types. -/
def getTrigger (sc : Scope) (r : Regs) : Except PyErr (Option Trigger) := do
  let type := ask r .tType
  let holdoff ← getNum r .tHoldoff
  if type ∈ [lit "EDG", lit "EDGE"] then
    return some (← getEdge sc.family r holdoff)
  else
    match sc.family with
    | .mso4000 =>
      if type ∈ [lit "PULS", lit "PULSE"] then
        let cls := ask r .pulseClass
        if cls ∈ [lit "TIMEO", lit "TIMEOUT"] then return some (← getTimeout sc.family r holdoff)
        else if cls ∈ [lit "WID", lit "WIDTH"] then return some (← getPulse sc.family r holdoff)
        else return none
      else return none
    | .mso456 =>
      if type ∈ [lit "TIMEO", lit "TIMEOUT"] then return some (← getTimeout sc.family r holdoff)
      else if type ∈ [lit "WID", lit "WIDTH"] then return some (← getPulse sc.family r holdoff)
      else return none

/-! ### Waveform request -/

/-- What `read_waveform` does to the outside. -/
inductive Io where
  | cmd (h : Hdr) (v : Str)
  /-- the query `WAVFRM?` -/
  | waveform
  /-- reading the reply -/
  | receive
  deriving DecidableEq

/-- `read_waveform`, 4000:52-70, 456:57-78, up to the parsing of the reply: the actions and, when the transfer did not
raise, that the reply goes to the parser. -/
def readWaveform (f : Family) (ch : Str) (reply : Except PyErr (List UInt8)) :
    List Io × Except PyErr (List UInt8) :=
  let before : List Io :=
    [.cmd (.active ch) (bit true), .cmd .dataSource ch, .cmd .dataStart (lit "1"), .cmd .dataStop (lit "1E9")] ++
    (match f with
     | .mso4000 => [.cmd .dataWidth (lit "1"), .cmd .dataEncdg (lit "FASTEST")]
     | .mso456 => [.cmd .dataWidth (lit "2"), .cmd .dataEncdg (lit "RIBINARY")]) ++
    [.cmd .header (lit "1"), .waveform, .receive]
  match reply with
  | .error e => (before, .error e)
  | .ok d => (before ++ [.cmd .header (lit "0")], .ok d)

end Verif.Tek
