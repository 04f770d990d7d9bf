import Verif.Model.Pipeline

/-!
Model of the state of a PAM2 eye diagram over several calls of `calculate`, with settings that may change in between: the configuration is an
object that the user may modify, and that several eye diagrams may share.

The first calculation is that of `Pipeline`; here is what a calculation leaves behind, also if it raises.
-/

namespace Verif.Again

open Verif Verif.Lines Verif.Eye Verif.Pam2 Verif.Pipeline

/-- `CDR.run` of a clock recovery: data edges to clock edges.  It is run on a copy, pam2.py:325. -/
abbrev Recovery := List (Option ℚ) → Except PyErr (List (Option ℚ))

/-- What is given to the constructor except for clock edges and configuration, eyediagram.py:364-449.  `mask` converts the mask to units of
amplitude and symbol period and then samples it, eyediagram.py:771-792; `make` is `CDR(period)`, pam2.py:319. -/
structure Input where
  clocks : Option (List Wave)
  mask : Option (ℚ → ℚ → Except PyErr MaskFn)
  wfs : List Wave
  make : Option ℚ → Recovery

/-- Conversion and sampling, eyediagram.py:771-792. -/
def sampler (conv : ℚ → ℚ → Except PyErr MaskFn) : MaskFn := fun δ T z u ws => do
  let f ← conv u T
  f δ T z u ws

/-- The state: `_clock_edges`, whether `_mask_converted` is set, `_edge_dir`, `_calculated`, what the last completed calculation computed, and
`cdr` of the configuration. -/
structure State where
  edges : Option (List (List (Option ℚ)))
  maskSet : Bool
  dirs : Option (List (List ℤ))
  calculated : Bool
  result : Option Analysis
  cdr : Option Recovery

/-- After construction, eyediagram.py:420-449, pam2.py:191-210. -/
def State.new (given : Option (List (List (Option ℚ)))) (cdr : Option Recovery) : State := ⟨given, false, none, false, none, cdr⟩

/-- A loop that appends its results to a list: what it has appended, and the exception that ended it. -/
def collect {α β : Type} (f : α → Except PyErr β) : List α → List β × Option PyErr
  | [] => ([], none)
  | a :: l =>
    match f a with
    | .error e => ([], some e)
    | .ok b => (b :: (collect f l).1, (collect f l).2)

/-- The fixed clock of one waveform, eyediagram.py:550-553. -/
def fixedClock (period : Option ℚ) (w : Wave) : Except PyErr (List (Option ℚ)) :=
  match period with
  | none => .error .typeError
  | some t => do return (← fallbackEdges w.1 t).map some

/-- The recovered clock of one waveform, pam2.py:322-328, 856-875. -/
def recovered (r : Recovery) (l : Levels ℚ) (p : Polarity) (w : Wave) : Except PyErr (List (Option ℚ)) := do r (← selectedEdges w l p)

/-- `PAM2._step2_clock` with the first part of `EyeDiagram._step2_clock`, pam2.py:300-330, eyediagram.py:545-554: `_clock_edges` is set before
the loop and grows with it; a missing recovery is entered in the configuration, pam2.py:318-319. -/
def clockStep (x : Input) (s : Settings) (l : Levels ℚ) (w : State) : State × Option PyErr :=
  match w.edges with
  | some _ => (w, none)
  | none =>
    match x.clocks with
    | some c =>
      let r := collect (fun v => selectedEdges v l s.polarity) c
      ({ w with edges := some r.1 }, r.2)
    | none =>
      if l.lowSnr then
        let r := collect (fixedClock s.period) x.wfs
        ({ w with edges := some r.1 }, r.2)
      else
        let rcv := w.cdr.getD (x.make s.period)
        let r := collect (recovered rcv l s.polarity) x.wfs
        ({ w with edges := some r.1, cdr := some rcv }, r.2)

/-- The symbol period and step 3, eyediagram.py:556-567, 622-641: IndexError if a waveform has no list of clock edges.  The edges are without nan,
see `Pipeline.finite`. -/
def sample (wfs : List Wave) (δ : ℚ) (edges : List (List (Option ℚ))) : Except PyErr (ℚ × List Wf) := do
  let e ← finite edges
  match ← symbolPeriod e with
  | none => .error .valueError
  | some T => do
    let ws ← (wfs.zip e).mapM fun p => sampled T δ p.1 p.2
    if edges.length < wfs.length then .error .indexError
    return (T, ws)

/-- Whether step 4 gets to `_mask_converted = ...`, pam2.py:461-546, eyediagram.py:771-772. -/
def converts (x : Input) (s : Settings) (T δ : ℚ) (ws : List Wf) (v : List VOut) (l : Option (Levels ℚ)) : Bool :=
  match x.mask, l.filter fun l => decide (l.ua ≠ 0) with
  | some conv, some l =>
    match (ws.zip v).mapM fun p => sampleHorizontal p.1.y p.1.centers p.2.edgeDir δ T l.zero l.ua (mean (v.flatMap (·.cross))) s.timeHeight
      s.edgeLower s.edgeUpper with
    | .ok _ => (conv l.ua T).toBool
    | .error _ => false
  | _, _ => false

/-- Steps 4 and 5 of a calculation without measures, pam2.py:351-370, eyediagram.py:835-905: a mask converted before is drawn with the margin
`None`, `adjust(None)` raises TypeError. -/
def skipStep (s : Settings) (T δ : ℚ) (ws : List Wf) (l : Levels ℚ) (w : State) : State × Option PyErr :=
  match skipPicture s T δ ws l with
  | .error e => (w, some e)
  | .ok p => if w.maskSet then (w, some .typeError) else ({ w with calculated := true, result := some ⟨T, ws, none, p⟩ }, none)

/-- Steps 4 and 5 with measures, pam2.py:372-560, eyediagram.py:835-905. -/
def measureStep (x : Input) (s : Settings) (T δ : ℚ) (ws : List Wf) (l : Levels ℚ) (w : State) : State × Option PyErr :=
  let r := collect (fun v : Wf => sampleVertical v.y v.centers δ T l.half s.levelWidth s.crossWidth) ws
  let w := { w with dirs := some (r.1.map (·.edgeDir)) }
  match r.2 with
  | some e => (w, some e)
  | none =>
    let l' := newLevels s.level (mean (r.1.flatMap (·.y0))) (mean (r.1.flatMap (·.y1))) l
    let w := { w with maskSet := w.maskSet || converts x s T δ ws r.1 l' }
    match finish s (x.mask.map sampler) T δ ws r.1 l' with
    | .error e => (w, some e)
    | .ok p => ({ w with calculated := true, result := some ⟨T, ws, some r.1, p⟩ }, none)

/-- `PAM2.calculate`, eyediagram.py:451-510, with the state it leaves.  `m` are the levels measured in step 1.  Simplification: a sample period
that is nan raises at once instead of in step 3. -/
def calculate (x : Input) (s : Settings) (m : Level ℚ × Level ℚ) (w : State) : State × Option PyErr :=
  match tDelta x.wfs with
  | .error e => (w, some e)
  | .ok δ =>
    let l := levels s.level m
    match clockStep x s l w with
    | (w, some e) => (w, some e)
    | (w, none) =>
      match sample x.wfs δ (w.edges.getD []) with
      | .error e => (w, some e)
      | .ok (T, ws) => if s.skip then skipStep s T δ ws l w else measureStep x s T δ ws l w

/-- `get_clock_edges`, eyediagram.py:993-1021. -/
def getClockEdges (w : State) : Except PyErr (Option (List (List (Option ℚ)))) := if w.calculated then .ok w.edges else .error .runtimeError

/-- `get_bit_stream`, pam2.py:750-782. -/
def getBits (w : State) (nrzm : Bool) : Except PyErr (List (List ℤ)) := bitStream w.calculated w.dirs nrzm

end Verif.Again
