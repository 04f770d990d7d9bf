import Verif.Model.Again
import Verif.Props.SquareWave

/-!
C85: calculating again.

Specification: `Pipeline.calculateAll` is the calculation of a new eye diagram.  `outcome` is what a call of `calculate` gives to its user.
-/

namespace Verif.Props.Again

open Verif Verif.Lines Verif.Pam2 Verif.Pipeline Verif.Again
open Verif.Eye hiding calculate clockStep

/-! ### Specification -/

/-- The exception of a call, or what it computed. -/
def outcome (r : State × Option PyErr) : Except PyErr (Option Analysis) :=
  match r.2 with
  | some e => .error e
  | none => .ok r.1.result

/-- A new eye diagram with these clock edges and this clock recovery. -/
def fresh (x : Input) (s : Settings) (m : Level ℚ × Level ℚ) (given : Option (List (List (Option ℚ)))) (cdr : Option Recovery) :
    Except PyErr Analysis :=
  calculateAll s m given x.clocks (cdr.getD (x.make s.period)) (x.mask.map sampler) x.wfs

/-- What the constructor checks: clocks and clock edges for every waveform, eyediagram.py:404-418. -/
def Fits (x : Input) (given : Option (List (List (Option ℚ)))) : Prop :=
  (∀ c, x.clocks = some c → c.length = x.wfs.length) ∧ ∀ e, given = some e → e.length = x.wfs.length

/-! ### Loops -/

theorem collect_mapM {α β : Type} (f : α → Except PyErr β) (l : List α) :
    l.mapM f = match (collect f l).2 with
      | none => .ok (collect f l).1
      | some e => .error e := by
  induction l with
  | nil => rfl
  | cons a l ih =>
    rw [List.mapM_cons, ih]
    simp only [collect, bind, Except.bind, pure, Except.pure]
    cases f a with
    | error e => rfl
    | ok b =>
      simp only
      cases (collect f l).2 <;> rfl

theorem collect_length {α β : Type} (f : α → Except PyErr β) (l : List α) :
    ((collect f l).2 = none → (collect f l).1.length = l.length) ∧ ((collect f l).2 ≠ none → (collect f l).1.length < l.length) := by
  induction l with
  | nil => simp [collect]
  | cons a l ih =>
    simp only [collect]
    cases f a with
    | error e => simp
    | ok b =>
      simp only [List.length_cons]
      exact ⟨fun h => by rw [ih.1 h], fun h => by have := ih.2 h; omega⟩

theorem finite_length (e : List (List (Option ℚ))) (r : List (List ℚ)) (h : finite e = .ok r) : r.length = e.length := by
  unfold finite at h
  rw [collect_mapM] at h
  have := (collect_length (fun l : List (Option ℚ) => l.mapM number) e).1
  generalize collect (fun l : List (Option ℚ) => l.mapM number) e = c at h this
  obtain ⟨a, b⟩ := c
  cases b with
  | some _ => cases h
  | none => injection h with h; rw [← h]; exact this rfl

/-! ### The clock -/

/-- The clock edges of a new eye diagram in the state `w`. -/
def edgesOf (x : Input) (s : Settings) (l : Levels ℚ) (w : State) : Except PyErr (List (List (Option ℚ))) :=
  clockEdges w.edges x.clocks x.wfs l s.polarity (w.cdr.getD (x.make s.period)) s.period

theorem clock_step (x : Input) (s : Settings) (l : Levels ℚ) (w : State) :
    (edgesOf x s l w = match (clockStep x s l w).2 with
      | none => .ok ((clockStep x s l w).1.edges.getD [])
      | some e => .error e) ∧
    ((clockStep x s l w).1 = { w with edges := (clockStep x s l w).1.edges, cdr := (clockStep x s l w).1.cdr }) ∧
    (clockStep x s l w).1.edges ≠ none := by
  unfold edgesOf clockEdges clockStep
  obtain ⟨edges, maskSet, dirs, calculated, result, cdr⟩ := w
  cases edges with
  | some e => simp
  | none =>
    cases hc : x.clocks with
    | some c =>
      exact ⟨(collect_mapM (fun v => selectedEdges v l s.polarity) c).trans rfl, rfl, by simp⟩
    | none =>
      simp only
      by_cases hl : l.lowSnr
      · rw [if_pos hl, if_pos hl]
        exact ⟨(collect_mapM (fixedClock s.period) x.wfs).trans rfl, rfl, by simp⟩
      · rw [if_neg hl, if_neg hl]
        exact ⟨(collect_mapM (recovered (cdr.getD (x.make s.period)) l s.polarity) x.wfs).trans rfl, rfl, by simp⟩

theorem clock_length (x : Input) (s : Settings) (l : Levels ℚ) (w : State) (hf : Fits x w.edges) (h : (clockStep x s l w).2 = none) :
    ((clockStep x s l w).1.edges.getD []).length = x.wfs.length := by
  unfold clockStep at h ⊢
  obtain ⟨edges, maskSet, dirs, calculated, result, cdr⟩ := w
  cases edges with
  | some e => exact hf.2 e rfl
  | none =>
    cases hc : x.clocks with
    | some c =>
      rw [hc] at h
      simp only at h ⊢
      rw [← hf.1 c hc]
      exact (collect_length _ _).1 h
    | none =>
      rw [hc] at h
      simp only at h ⊢
      by_cases hl : l.lowSnr
      · rw [if_pos hl] at h ⊢
        exact (collect_length _ _).1 h
      · rw [if_neg hl] at h ⊢
        exact (collect_length _ _).1 h

/-! ### Any calculation is one of a new eye diagram -/

/-- Steps 4 and 5 compute what they compute in a new eye diagram. -/
theorem steps_fresh (x : Input) (s : Settings) (T δ : ℚ) (ws : List Wf) (l : Levels ℚ) (w : State) (hs : s.skip = true → w.maskSet = false) :
    outcome (if s.skip then skipStep s T δ ws l w else measureStep x s T δ ws l w) =
      (Pipeline.measure s (x.mask.map sampler) T δ ws l).map some := by
  unfold Pipeline.measure
  by_cases hk : s.skip
  · rw [if_pos hk, if_pos hk]
    unfold skipStep
    simp only [bind, Except.bind, pure, Except.pure]
    cases skipPicture s T δ ws l with
    | error e => rfl
    | ok p =>
      simp only
      rw [hs hk]
      rfl
  · rw [if_neg hk, if_neg hk]
    unfold measureStep
    simp only [bind, Except.bind, pure, Except.pure]
    rw [collect_mapM]
    generalize collect (fun v : Wf => sampleVertical v.y v.centers δ T l.half s.levelWidth s.crossWidth) ws = c
    obtain ⟨v, e⟩ := c
    cases e with
    | some e => rfl
    | none =>
      simp only
      cases finish s (x.mask.map sampler) T δ ws v (newLevels s.level (mean (v.flatMap (·.y0))) (mean (v.flatMap (·.y1))) l) <;> rfl

/-- C85: in any state, whatever was calculated before, a calculation gives what a new eye diagram with the present settings gives that is given
the clock edges found so far; except for one that skips the measures after a mask was used. -/
theorem C85_as_new (x : Input) (s : Settings) (m : Level ℚ × Level ℚ) (w : State) (hf : Fits x w.edges)
    (hs : s.skip = true → w.maskSet = false) :
    outcome (calculate x s m w) = (fresh x s m w.edges w.cdr).map some := by
  unfold fresh calculateAll calculate
  cases hδ : tDelta x.wfs with
  | error e => rfl
  | ok δ =>
    obtain ⟨h1, h2, -⟩ := clock_step x s (levels s.level m) w
    have h3 := clock_length x s (levels s.level m) w hf
    unfold edgesOf at h1
    simp only [bind, Except.bind]
    rw [h1]
    generalize clockStep x s (levels s.level m) w = c at h1 h2 h3
    obtain ⟨w', e⟩ := c
    cases e with
    | some e => rfl
    | none =>
      simp only at h1 h2 h3 ⊢
      have hs' : s.skip = true → w'.maskSet = false := by
        intro h
        rw [h2]
        exact hs h
      have hlen := h3 trivial
      unfold sample
      simp only [bind, Except.bind, pure, Except.pure]
      cases finite (w'.edges.getD []) with
      | error e => rfl
      | ok e' =>
        simp only
        cases symbolPeriod e' with
        | error e => rfl
        | ok t =>
          cases t with
          | none => rfl
          | some T =>
            simp only
            cases (x.wfs.zip e').mapM fun p => sampled T δ p.1 p.2 with
            | error e => rfl
            | ok ws =>
              simp only [hlen, lt_irrefl, if_false]
              exact steps_fresh x s T δ ws _ w' hs'

/-! ### What a calculation leaves -/

theorem skip_leaves (s : Settings) (T δ : ℚ) (ws : List Wf) (l : Levels ℚ) (w : State) :
    (skipStep s T δ ws l w).1.edges = w.edges ∧ (skipStep s T δ ws l w).1.cdr = w.cdr ∧ (skipStep s T δ ws l w).1.dirs = w.dirs ∧
      (skipStep s T δ ws l w).1.maskSet = w.maskSet ∧
      ((skipStep s T δ ws l w).2 = none → w.maskSet = false ∧ (skipStep s T δ ws l w).1.calculated = true ∧
        ∃ a, (skipStep s T δ ws l w).1.result = some a ∧ a.v = none) := by
  unfold skipStep
  cases skipPicture s T δ ws l with
  | error e => simp
  | ok p =>
    by_cases h : w.maskSet
    · simp [h]
    · simp [h]

theorem skip_again (s : Settings) (T δ : ℚ) (ws : List Wf) (l : Levels ℚ) (w : State) (h : (skipStep s T δ ws l w).2 = none) :
    skipStep s T δ ws l (skipStep s T δ ws l w).1 = ((skipStep s T δ ws l w).1, none) := by
  unfold skipStep at h ⊢
  cases hp : skipPicture s T δ ws l with
  | error e => rw [hp] at h; cases h
  | ok p =>
    rw [hp] at h
    by_cases hm : w.maskSet
    · simp [hm] at h
    · simp [hm]

theorem measure_leaves (x : Input) (s : Settings) (T δ : ℚ) (ws : List Wf) (l : Levels ℚ) (w : State) :
    (measureStep x s T δ ws l w).1.edges = w.edges ∧ (measureStep x s T δ ws l w).1.cdr = w.cdr ∧
      ((measureStep x s T δ ws l w).2 = none → (measureStep x s T δ ws l w).1.calculated = true ∧
        (x.mask ≠ none → (measureStep x s T δ ws l w).1.maskSet = true) ∧
        ∃ a v, (measureStep x s T δ ws l w).1.result = some a ∧ a.v = some v ∧
          (measureStep x s T δ ws l w).1.dirs = some (v.map (·.edgeDir))) := by
  unfold measureStep
  generalize collect (fun v : Wf => sampleVertical v.y v.centers δ T l.half s.levelWidth s.crossWidth) ws = c
  obtain ⟨v, e⟩ := c
  cases e with
  | some e => simp
  | none =>
    simp only
    generalize newLevels s.level (mean (v.flatMap (·.y0))) (mean (v.flatMap (·.y1))) l = l'
    cases hf : finish s (x.mask.map sampler) T δ ws v l' with
    | error e => simp
    | ok p =>
      refine ⟨rfl, rfl, fun _ => ⟨rfl, fun hm => ?_, _, v, rfl, rfl, rfl⟩⟩
      obtain ⟨conv, hc⟩ := Option.ne_none_iff_exists'.1 hm
      have : converts x s T δ ws v l' = true := by
        unfold converts
        unfold finish at hf
        rw [hc] at hf ⊢
        cases hl : l'.filter fun l => decide (l.ua ≠ 0) with
        | none => rw [hl] at hf; simp at hf
        | some l0 =>
          rw [hl] at hf
          simp only [bind, Except.bind, pure, Except.pure] at hf ⊢
          generalize ((ws.zip v).mapM fun p => sampleHorizontal p.1.y p.1.centers p.2.edgeDir δ T l0.zero l0.ua (mean (v.flatMap (·.cross)))
            s.timeHeight s.edgeLower s.edgeUpper) = h at hf ⊢
          cases h with
          | error e => simp at hf
          | ok h =>
            simp only [Option.map_some, runMask, sampler, bind, Except.bind] at hf ⊢
            cases hcv : conv l0.ua T with
            | error e => rw [hcv] at hf; simp at hf
            | ok f => rfl
      simp [this]

theorem measure_again (x : Input) (s : Settings) (T δ : ℚ) (ws : List Wf) (l : Levels ℚ) (w : State)
    (h : (measureStep x s T δ ws l w).2 = none) :
    measureStep x s T δ ws l (measureStep x s T δ ws l w).1 = ((measureStep x s T δ ws l w).1, none) := by
  unfold measureStep at h ⊢
  generalize collect (fun v : Wf => sampleVertical v.y v.centers δ T l.half s.levelWidth s.crossWidth) ws = c at h ⊢
  obtain ⟨v, e⟩ := c
  cases e with
  | some e => cases h
  | none =>
    simp only at h ⊢
    generalize newLevels s.level (mean (v.flatMap (·.y0))) (mean (v.flatMap (·.y1))) l = l' at h ⊢
    cases hf : finish s (x.mask.map sampler) T δ ws v l' with
    | error e => rw [hf] at h; cases h
    | ok p => simp

/-- The state after a calculation that completed, and the steps that led to it. -/
theorem completed (x : Input) (s : Settings) (m : Level ℚ × Level ℚ) (w : State) (h : (calculate x s m w).2 = none) :
    ∃ δ T ws, tDelta x.wfs = .ok δ ∧ (clockStep x s (levels s.level m) w).2 = none ∧
      sample x.wfs δ ((clockStep x s (levels s.level m) w).1.edges.getD []) = .ok (T, ws) ∧
      calculate x s m w = (if s.skip then skipStep s T δ ws (levels s.level m) (clockStep x s (levels s.level m) w).1
        else measureStep x s T δ ws (levels s.level m) (clockStep x s (levels s.level m) w).1) := by
  unfold calculate at h ⊢
  cases hδ : tDelta x.wfs with
  | error e => rw [hδ] at h; cases h
  | ok δ =>
    rw [hδ] at h
    simp only at h ⊢
    generalize clockStep x s (levels s.level m) w = c at h ⊢
    obtain ⟨w', e⟩ := c
    cases e with
    | some e => cases h
    | none =>
      simp only at h ⊢
      cases hs : sample x.wfs δ (w'.edges.getD []) with
      | error e => rw [hs] at h; cases h
      | ok r => exact ⟨δ, r.1, r.2, rfl, trivial, hs, rfl⟩

/-- With clock edges, the first steps do not change the state. -/
theorem with_edges (x : Input) (s : Settings) (l : Levels ℚ) (w : State) (e : List (List (Option ℚ))) (h : w.edges = some e) :
    clockStep x s l w = (w, none) := by
  unfold clockStep
  rw [h]

/-- C85: calculating again with the same settings (and measured levels) gives the same and leaves the state as it is. -/
theorem C85_again (x : Input) (s : Settings) (m : Level ℚ × Level ℚ) (w : State) (h : (calculate x s m w).2 = none) :
    calculate x s m (calculate x s m w).1 = ((calculate x s m w).1, none) := by
  obtain ⟨δ, T, ws, h1, h2, h3, h4⟩ := completed x s m w h
  obtain ⟨-, -, hne⟩ := clock_step x s (levels s.level m) w
  obtain ⟨e, he⟩ := Option.ne_none_iff_exists'.1 hne
  generalize (clockStep x s (levels s.level m) w).1 = w1 at h3 h4 he
  have hcalc : ∀ w2 : State, w2.edges = w1.edges → calculate x s m w2 =
      if s.skip then skipStep s T δ ws (levels s.level m) w2 else measureStep x s T δ ws (levels s.level m) w2 := by
    intro w2 h
    unfold calculate
    rw [h1]
    simp only
    rw [with_edges x s _ w2 e (h.trans he)]
    simp only
    rw [h, h3]
  rw [h4] at h ⊢
  by_cases hk : s.skip
  · rw [if_pos hk] at h ⊢
    rw [hcalc _ (skip_leaves ..).1, if_pos hk]
    exact skip_again s T δ ws _ w1 h
  · rw [if_neg hk] at h ⊢
    rw [hcalc _ (measure_leaves ..).1, if_neg hk]
    exact measure_again x s T δ ws _ w1 h

/-- A completed calculation: its clock edges, its results. -/
theorem completed_state (x : Input) (s : Settings) (m : Level ℚ × Level ℚ) (w : State) (hf : Fits x w.edges) (h : (calculate x s m w).2 = none) :
    ∃ e a, (calculate x s m w).1.edges = some e ∧ Fits x (some e) ∧ (calculate x s m w).1.calculated = true ∧
      (calculate x s m w).1.result = some a ∧ edgesOf x s (levels s.level m) w = .ok e ∧ (s.skip = true → w.maskSet = false) ∧
      (s.skip = false → x.mask ≠ none → (calculate x s m w).1.maskSet = true) ∧
      (s.skip = true → (calculate x s m w).1.dirs = w.dirs ∧ (calculate x s m w).1.maskSet = w.maskSet) ∧
      (s.skip = false → ∃ v, a.v = some v ∧ (calculate x s m w).1.dirs = some (v.map (·.edgeDir))) := by
  obtain ⟨δ, T, ws, h1, h2, h3, h4⟩ := completed x s m w h
  obtain ⟨g1, g2, hne⟩ := clock_step x s (levels s.level m) w
  have hlen := clock_length x s (levels s.level m) w hf h2
  rw [h2] at g1
  obtain ⟨e, he⟩ := Option.ne_none_iff_exists'.1 hne
  rw [he] at g1 hlen g2
  have hms : (clockStep x s (levels s.level m) w).1.maskSet = w.maskSet := by rw [g2]
  have hds : (clockStep x s (levels s.level m) w).1.dirs = w.dirs := by rw [g2]
  generalize (clockStep x s (levels s.level m) w).1 = w1 at h3 h4 he hms hds
  have hf' : Fits x (some e) := ⟨hf.1, fun e' h' => by injection h' with h'; rw [← h']; exact hlen⟩
  rw [h4] at h ⊢
  by_cases hk : s.skip
  · rw [if_pos hk] at h ⊢
    obtain ⟨i1, i2, i3, i4, i5⟩ := skip_leaves s T δ ws (levels s.level m) w1
    obtain ⟨j1, j2, a, j3, j4⟩ := i5 h
    exact ⟨e, a, i1.trans he, hf', j2, j3, g1, fun _ => hms ▸ j1, fun h => (by rw [hk] at h; cases h),
      fun _ => ⟨i3.trans hds, i4.trans hms⟩, fun h => (by rw [hk] at h; cases h)⟩
  · rw [if_neg hk] at h ⊢
    obtain ⟨i1, i2, i3⟩ := measure_leaves x s T δ ws (levels s.level m) w1
    obtain ⟨j1, j2, a, v, j3, j4, j5⟩ := i3 h
    exact ⟨e, a, i1.trans he, hf', j1, j3, g1, fun h => absurd h hk, fun _ => j2, fun h => absurd h hk, fun _ => ⟨v, j4, j5⟩⟩

/-- C85: the clock edges of an eye diagram (`get_clock_edges`), given to a new one with the same waveforms and settings, give the same results. -/
theorem C85_handover (x : Input) (s : Settings) (m : Level ℚ × Level ℚ) (w : State) (hf : Fits x w.edges) (h : (calculate x s m w).2 = none) :
    ∃ e a, getClockEdges (calculate x s m w).1 = .ok (some e) ∧ Fits x (some e) ∧ (calculate x s m w).1.result = some a ∧
      ∀ cdr, fresh x s m (some e) cdr = .ok a := by
  obtain ⟨e, a, h1, h2, h3, h4, -, h6, h7, h8, -⟩ := completed_state x s m w hf h
  refine ⟨e, a, ?_, h2, h4, fun cdr => ?_⟩
  · unfold getClockEdges
    rw [h3, h1]
    rfl
  · have g := C85_as_new x s m (calculate x s m w).1 (by rw [h1]; exact h2) (fun hk => by rw [(h8 hk).2]; exact h6 hk)
    rw [C85_again x s m w h, h1] at g
    simp only [outcome, h4] at g
    have hcdr : fresh x s m (some e) (calculate x s m w).1.cdr = fresh x s m (some e) cdr := rfl
    rw [hcdr] at g
    cases hq : fresh x s m (some e) cdr with
    | error e => rw [hq] at g; cases g
    | ok b =>
      rw [hq] at g
      injection g with g
      injection g with g
      rw [g]

/-- C85, only part of the claim: after a completed calculation, one with other settings gives what a new eye diagram gives that is given the clock
edges found before; so it is that of a new eye diagram if this would find the same edges.  Missing: settings that lead to other edges
(`C85_settings_fails`) and skipping the measures after a mask was used (`C85_skip_raises`). -/
theorem C85_settings_partial (x : Input) (s s' : Settings) (m m' : Level ℚ × Level ℚ) (w : State) (hf : Fits x w.edges)
    (h : (calculate x s m w).2 = none) (hs : s'.skip = true → (calculate x s m w).1.maskSet = false) :
    ∃ e, getClockEdges (calculate x s m w).1 = .ok (some e) ∧
      (∀ cdr, outcome (calculate x s' m' (calculate x s m w).1) = (fresh x s' m' (some e) cdr).map some) ∧
      ∀ given cdr, clockEdges given x.clocks x.wfs (levels s'.level m') s'.polarity (cdr.getD (x.make s'.period)) s'.period = .ok e →
        outcome (calculate x s' m' (calculate x s m w).1) = (fresh x s' m' given cdr).map some := by
  obtain ⟨e, a, h1, h2, h3, h4, -⟩ := completed_state x s m w hf h
  have g := C85_as_new x s' m' (calculate x s m w).1 (by rw [h1]; exact h2) hs
  rw [h1] at g
  refine ⟨e, ?_, fun cdr => g, fun given cdr hc => g.trans ?_⟩
  · unfold getClockEdges
    rw [h3, h1]
    rfl
  · congr 1
    unfold fresh calculateAll
    simp only [hc]
    rfl

/-- C85: the bits that can be read after a completed calculation are those that it measured; if it skipped the measures they are still those of the
calculation before. -/
theorem C85_bits (x : Input) (s : Settings) (m : Level ℚ × Level ℚ) (w : State) (hf : Fits x w.edges) (h : (calculate x s m w).2 = none)
    (nrzm : Bool) :
    (s.skip = false → ∃ a, (calculate x s m w).1.result = some a ∧ getBits (calculate x s m w).1 nrzm = bits a nrzm) ∧
    (s.skip = true → w.calculated = true → getBits (calculate x s m w).1 nrzm = getBits w nrzm) := by
  obtain ⟨e, a, -, -, h3, h4, -, -, -, h8, h9⟩ := completed_state x s m w hf h
  constructor
  · intro hk
    obtain ⟨v, j1, j2⟩ := h9 hk
    refine ⟨a, h4, ?_⟩
    unfold getBits bits
    rw [h3, j1, j2]
    rfl
  · intro hk hc
    unfold getBits
    rw [h3, (h8 hk).1, hc]

/-! ### Where the claim fails -/

/-- Further calculations, with any settings. -/
def replay (x : Input) (l : List (Settings × (Level ℚ × Level ℚ))) (w : State) : State := l.foldl (fun w p => (calculate x p.1 p.2 w).1) w

theorem calculated_iff (x : Input) (s : Settings) (m : Level ℚ × Level ℚ) (w : State) :
    (calculate x s m w).1.calculated = (w.calculated || (calculate x s m w).2.isNone) := by
  have hc : ∀ l, (clockStep x s l w).1.calculated = w.calculated := by
    intro l
    unfold clockStep
    split
    · rfl
    · split
      · rfl
      · split <;> rfl
  unfold calculate
  cases tDelta x.wfs with
  | error e => simp
  | ok δ =>
    simp only
    have h := hc (levels s.level m)
    generalize clockStep x s (levels s.level m) w = c at h
    obtain ⟨w1, e⟩ := c
    simp only at h
    cases e with
    | some e => simp [h]
    | none =>
      simp only
      cases sample x.wfs δ (w1.edges.getD []) with
      | error e => simp [h]
      | ok r =>
        obtain ⟨T, ws⟩ := r
        simp only
        split
        · unfold skipStep
          cases skipPicture s T δ ws (levels s.level m) with
          | error e => simp [h]
          | ok p =>
            simp only
            split <;> simp [h]
        · unfold measureStep
          generalize collect (fun v : Wf => sampleVertical v.y v.centers δ T (levels s.level m).half s.levelWidth s.crossWidth) ws = c
          obtain ⟨v, e⟩ := c
          cases e with
          | some e => simp [h]
          | none =>
            simp only
            cases finish s (x.mask.map sampler) T δ ws v (newLevels s.level (mean (v.flatMap (·.y0))) (mean (v.flatMap (·.y1))) (levels s.level m)) <;>
              simp [h]

/-- C85: the results of a new eye diagram can be asked for as soon as one of its calculations has completed, and not before; a later one that raises
does not change that. -/
theorem C85_asked (x : Input) (given : Option (List (List (Option ℚ)))) (cdr : Option Recovery) (l : List (Settings × (Level ℚ × Level ℚ)))
    (nrzm : Bool) :
    (getClockEdges (replay x l (State.new given cdr)) = .error .runtimeError ↔
      ∀ l1 p l2, l = l1 ++ p :: l2 → (calculate x p.1 p.2 (replay x l1 (State.new given cdr))).2 ≠ none) ∧
    ((∀ l1 p l2, l = l1 ++ p :: l2 → (calculate x p.1 p.2 (replay x l1 (State.new given cdr))).2 ≠ none) →
      getBits (replay x l (State.new given cdr)) nrzm = .error .runtimeError) := by
  have key : ((replay x l (State.new given cdr)).calculated = false) ↔
      ∀ l1 p l2, l = l1 ++ p :: l2 → (calculate x p.1 p.2 (replay x l1 (State.new given cdr))).2 ≠ none := by
    induction l using List.reverseRecOn with
    | nil => simp [replay, State.new]
    | append_singleton l p ih =>
      have e : replay x (l ++ [p]) (State.new given cdr) = (calculate x p.1 p.2 (replay x l (State.new given cdr))).1 := by
        simp [replay, List.foldl_append]
      rw [e, calculated_iff, Bool.or_eq_false_iff, ih]
      constructor
      · rintro ⟨h1, h2⟩ l1 q l2 hl
        rcases List.eq_nil_or_concat l2 with rfl | ⟨l3, r, rfl⟩
        · obtain ⟨rfl, hq⟩ := List.append_inj' hl rfl
          obtain rfl := (List.cons.inj hq).1
          intro h
          rw [h] at h2
          cases h2
        · rw [List.concat_eq_append, ← List.cons_append, ← List.append_assoc] at hl
          exact h1 l1 q l3 (List.append_inj' hl rfl).1
      · intro h
        refine ⟨fun l1 q l2 hl => h l1 q (l2 ++ [p]) (by rw [hl]; simp), ?_⟩
        have := h l p [] rfl
        cases h' : (calculate x p.1 p.2 (replay x l (State.new given cdr))).2 with
        | none => exact absurd h' this
        | some e => rfl
  refine ⟨?_, fun h => ?_⟩
  · rw [← key]
    unfold getClockEdges
    cases (replay x l (State.new given cdr)).calculated <;> simp
  · unfold getBits
    rw [key.2 h]
    rfl

theorem short_raises (x : Input) (s : Settings) (m : Level ℚ × Level ℚ) (w : State) (e : List (List (Option ℚ))) (he : w.edges = some e)
    (hl : e.length < x.wfs.length) : (calculate x s m w).2 ≠ none ∧ (calculate x s m w).1 = w := by
  unfold calculate
  cases hδ : tDelta x.wfs with
  | error e => simp
  | ok δ =>
    simp only
    rw [with_edges x s _ w e he]
    simp only [he, Option.getD_some]
    have : ∃ err, sample x.wfs δ e = .error err := by
      unfold sample
      simp only [bind, Except.bind, pure, Except.pure]
      cases finite e with
      | error e => exact ⟨_, rfl⟩
      | ok e' =>
        simp only
        cases symbolPeriod e' with
        | error e => exact ⟨_, rfl⟩
        | ok t =>
          cases t with
          | none => exact ⟨_, rfl⟩
          | some T =>
            simp only
            cases (x.wfs.zip e').mapM fun p => sampled T δ p.1 p.2 with
            | error e => exact ⟨_, rfl⟩
            | ok ws => simp only [hl, if_true]; exact ⟨_, rfl⟩
    obtain ⟨err, herr⟩ := this
    rw [herr]
    simp

/-- What the code does instead: once the clock of an eye diagram could not be found (wrong threshold, period, polarity ...), every further calculation
raises, whatever is changed in the settings. -/
theorem C85_stuck (x : Input) (s : Settings) (m : Level ℚ × Level ℚ) (cdr : Option Recovery) (hf : Fits x none) (δ : ℚ) (hδ : tDelta x.wfs = .ok δ)
    (err : PyErr) (h : clockEdges none x.clocks x.wfs (levels s.level m) s.polarity (cdr.getD (x.make s.period)) s.period = .error err)
    (l : List (Settings × (Level ℚ × Level ℚ))) (s' : Settings) (m' : Level ℚ × Level ℚ) :
    (calculate x s m (State.new none cdr)).2 = some err ∧
      (calculate x s' m' (replay x l (calculate x s m (State.new none cdr)).1)).2 ≠ none := by
  have key : (calculate x s m (State.new none cdr)).2 = some err ∧
      ∃ e, (calculate x s m (State.new none cdr)).1.edges = some e ∧ e.length < x.wfs.length := by
    obtain ⟨g1, -, -⟩ := clock_step x s (levels s.level m) (State.new none cdr)
    have hlen : (clockStep x s (levels s.level m) (State.new none cdr)).2 ≠ none →
        ∃ e, (clockStep x s (levels s.level m) (State.new none cdr)).1.edges = some e ∧ e.length < x.wfs.length := by
      unfold clockStep State.new
      simp only
      cases hc : x.clocks with
      | some c =>
        simp only
        intro hn
        refine ⟨_, rfl, ?_⟩
        rw [← hf.1 c hc]
        exact (collect_length _ _).2 hn
      | none =>
        simp only
        by_cases hl : (levels s.level m).lowSnr
        · rw [if_pos hl]
          exact fun hn => ⟨_, rfl, (collect_length _ _).2 hn⟩
        · rw [if_neg hl]
          exact fun hn => ⟨_, rfl, (collect_length _ _).2 hn⟩
    unfold edgesOf at g1
    rw [show (State.new none cdr).edges = none from rfl, show (State.new none cdr).cdr = cdr from rfl, h] at g1
    unfold calculate
    rw [hδ]
    simp only
    generalize clockStep x s (levels s.level m) (State.new none cdr) = c at g1 hlen ⊢
    obtain ⟨w1, e⟩ := c
    cases e with
    | none => cases g1
    | some e =>
      injection g1 with g1
      exact ⟨by rw [g1], hlen (by simp)⟩
  obtain ⟨h1, e, he, hlt⟩ := key
  refine ⟨h1, ?_⟩
  have hr : ∀ (l : List (Settings × (Level ℚ × Level ℚ))) (w : State), w.edges = some e → replay x l w = w := by
    intro l
    induction l with
    | nil => intro w _; rfl
    | cons p l ih =>
      intro w hw
      show replay x l (calculate x p.1 p.2 w).1 = w
      rw [(short_raises x p.1 p.2 w e hw hlt).2]
      exact ih w hw
  rw [hr l _ he]
  exact (short_raises x s' m' _ e he hlt).1

theorem measure_mask (x : Input) (s : Settings) (T δ : ℚ) (ws : List Wf) (l : Levels ℚ) (w : State)
    (h : (measureStep x s T δ ws l w).1.maskSet = true) : w.maskSet = true ∨ ∃ conv u f, x.mask = some conv ∧ conv u T = .ok f := by
  unfold measureStep at h
  generalize collect (fun v : Wf => sampleVertical v.y v.centers δ T l.half s.levelWidth s.crossWidth) ws = c at h
  obtain ⟨v, e⟩ := c
  cases e with
  | some e => exact .inl h
  | none =>
    simp only at h
    generalize newLevels s.level (mean (v.flatMap (·.y0))) (mean (v.flatMap (·.y1))) l = l' at h
    have h' : (w.maskSet || converts x s T δ ws v l') = true := by
      cases hf : finish s (x.mask.map sampler) T δ ws v l' with
      | error e => rw [hf] at h; exact h
      | ok p => rw [hf] at h; exact h
    rcases Bool.or_eq_true_iff.1 h' with h1 | h1
    · exact .inl h1
    · right
      unfold converts at h1
      cases hm : x.mask with
      | none => rw [hm] at h1; cases h1
      | some conv =>
        rw [hm] at h1
        cases hl : l'.filter fun l => decide (l.ua ≠ 0) with
        | none => rw [hl] at h1; cases h1
        | some l0 =>
          rw [hl] at h1
          simp only at h1
          split at h1
          · refine ⟨conv, l0.ua, ?_⟩
            cases hc : conv l0.ua T with
            | error e => rw [hc] at h1; cases h1
            | ok f => exact ⟨f, rfl, rfl⟩
          · cases h1

theorem calculate_mask (x : Input) (s : Settings) (m : Level ℚ × Level ℚ) (w : State) (h : (calculate x s m w).1.maskSet = true) :
    w.maskSet = true ∨ ∃ conv u T f, x.mask = some conv ∧ conv u T = .ok f := by
  have hc : ∀ l, (clockStep x s l w).1.maskSet = w.maskSet := by
    intro l
    unfold clockStep
    split
    · rfl
    · split
      · rfl
      · split <;> rfl
  unfold calculate at h
  cases hδ : tDelta x.wfs with
  | error e => rw [hδ] at h; exact .inl h
  | ok δ =>
    rw [hδ] at h
    simp only at h
    have h0 := hc (levels s.level m)
    generalize clockStep x s (levels s.level m) w = c at h h0
    obtain ⟨w1, e⟩ := c
    simp only at h0
    cases e with
    | some e => exact .inl (h0 ▸ h)
    | none =>
      simp only at h
      cases hsm : sample x.wfs δ (w1.edges.getD []) with
      | error e => rw [hsm] at h; exact .inl (h0 ▸ h)
      | ok r =>
        obtain ⟨T, ws⟩ := r
        rw [hsm] at h
        simp only at h
        split at h
        · refine .inl (h0 ▸ ?_)
          unfold skipStep at h
          split at h
          · exact h
          · split at h
            · exact h
            · exact h
        · rcases measure_mask x s T δ ws _ w1 h with h1 | ⟨conv, u, f, h1, h2⟩
          · exact .inl (h0 ▸ h1)
          · exact .inr ⟨conv, u, T, f, h1, h2⟩

theorem replay_mask (x : Input) (hm : ∀ conv, x.mask = some conv → ∀ u T f, conv u T ≠ .ok f) (l : List (Settings × (Level ℚ × Level ℚ))) (w : State)
    (hw : w.maskSet = false) : (replay x l w).maskSet = false := by
  induction l generalizing w with
  | nil => exact hw
  | cons p l ih =>
    refine ih _ ?_
    by_contra h
    rcases calculate_mask x p.1 p.2 w (by simpa using h) with h1 | ⟨conv, u, T, f, h1, h2⟩
    · rw [hw] at h1; cases h1
    · exact hm conv h1 u T f h2

/-- C85: as long as no mask could be converted (none was given, or the conversion raises), every calculation gives what a new eye diagram with the
present settings gives that is given the clock edges found so far: with or without measures, after any calculations, completed or not. -/
theorem C85_no_mask (x : Input) (hm : ∀ conv, x.mask = some conv → ∀ u T f, conv u T ≠ .ok f) (given : Option (List (List (Option ℚ))))
    (cdr : Option Recovery) (l : List (Settings × (Level ℚ × Level ℚ))) (hf : Fits x (replay x l (State.new given cdr)).edges) (s : Settings)
    (m : Level ℚ × Level ℚ) :
    outcome (calculate x s m (replay x l (State.new given cdr))) =
      (fresh x s m (replay x l (State.new given cdr)).edges (replay x l (State.new given cdr)).cdr).map some :=
  C85_as_new x s m _ hf fun _ => replay_mask x hm l _ rfl

/-- What the code does instead: skipping the measures after a calculation with measures and a mask raises, although a new eye diagram does not. -/
theorem C85_skip_raises (x : Input) (s s' : Settings) (m m' : Level ℚ × Level ℚ) (w : State) (hf : Fits x w.edges)
    (h : (calculate x s m w).2 = none) (hm : x.mask ≠ none) (hk : s.skip = false) (hk' : s'.skip = true) :
    (calculate x s' m' (calculate x s m w).1).2 ≠ none := by
  obtain ⟨e, a, -, -, -, -, -, -, h7, -⟩ := completed_state x s m w hf h
  have hset := h7 hk hm
  intro hc
  obtain ⟨e', a', -, -, -, -, -, i6, -⟩ := completed_state x s' m' _ (by
    rw [(completed_state x s m w hf h).choose_spec.choose_spec.1]
    exact (completed_state x s m w hf h).choose_spec.choose_spec.2.1) hc
  rw [i6 hk'] at hset
  cases hset

/-- What the code does instead: a configuration without clock recovery keeps the one made for the first eye diagram that needs it, with the period
configured at that time.  It is used for every other eye diagram with this configuration (and `make`: the same class), whatever period is
configured then. -/
theorem C85_config (x y : Input) (s s' : Settings) (m m' : Level ℚ × Level ℚ) (δ : ℚ) (hδ : tDelta x.wfs = .ok δ) (hmk : y.make = x.make)
    (hc : x.clocks = none) (hl : (levels s.level m).lowSnr = false) :
    (calculate x s m (State.new none none)).1.cdr = some (x.make s.period) ∧
      fresh y s' m' none (calculate x s m (State.new none none)).1.cdr =
        calculateAll s' m' none y.clocks (y.make s.period) (y.mask.map sampler) y.wfs ∧
      (s'.period = s.period → fresh y s' m' none (calculate x s m (State.new none none)).1.cdr = fresh y s' m' none none) := by
  have key : (calculate x s m (State.new none none)).1.cdr = some (x.make s.period) := by
    have hcs : (clockStep x s (levels s.level m) (State.new none none)).1.cdr = some (x.make s.period) := by
      unfold clockStep State.new
      simp only [hc, hl]
      rfl
    unfold calculate
    rw [hδ]
    simp only
    generalize clockStep x s (levels s.level m) (State.new none none) = c at hcs ⊢
    obtain ⟨w1, e⟩ := c
    cases e with
    | some e => exact hcs
    | none =>
      simp only at hcs ⊢
      cases sample x.wfs δ (w1.edges.getD []) with
      | error e => exact hcs
      | ok r =>
        simp only
        by_cases hk : s.skip
        · rw [if_pos hk, (skip_leaves ..).2.1]
          exact hcs
        · rw [if_neg hk, (measure_leaves ..).2.1]
          exact hcs
  rw [key, ← hmk]
  refine ⟨rfl, rfl, fun h => ?_⟩
  unfold fresh
  rw [h]
  rfl

/-- C85: apart from that no calculation changes the clock recovery of the configuration: not with clock edges, with clock waveforms, with a low signal to
noise ratio, nor with a clock recovery configured. -/
theorem C85_config_kept (x : Input) (s : Settings) (m : Level ℚ × Level ℚ) (w : State)
    (h : w.edges ≠ none ∨ x.clocks ≠ none ∨ (levels s.level m).lowSnr = true ∨ w.cdr ≠ none) :
    (calculate x s m w).1.cdr = w.cdr := by
  have hcs : (clockStep x s (levels s.level m) w).1.cdr = w.cdr := by
    unfold clockStep
    cases he : w.edges with
    | some e => rfl
    | none =>
      cases hc : x.clocks with
      | some c => rfl
      | none =>
        simp only
        split
        · rfl
        · rename_i hl
          have hw : w.cdr ≠ none := by
            rcases h with h | h | h | h
            · exact absurd he h
            · exact absurd hc h
            · exact absurd h hl
            · exact h
          obtain ⟨r, hr⟩ := Option.ne_none_iff_exists'.1 hw
          simp [hr]
  unfold calculate
  cases tDelta x.wfs with
  | error e => rfl
  | ok δ =>
    simp only
    generalize clockStep x s (levels s.level m) w = c at hcs ⊢
    obtain ⟨w1, e⟩ := c
    cases e with
    | some e => exact hcs
    | none =>
      simp only at hcs ⊢
      cases sample x.wfs δ (w1.edges.getD []) with
      | error e => exact hcs
      | ok r =>
        simp only
        by_cases hk : s.skip
        · rw [if_pos hk, (skip_leaves ..).2.1]
          exact hcs
        · rw [if_neg hk, (measure_leaves ..).2.1]
          exact hcs

/-! ### Witnesses -/

/-- The signal of C71 without a clock, and the fallback implementation of the clock recovery. -/
def exInput : Input where
  clocks := none
  mask := none
  wfs := [SquareWave.exSquare.wave 10 10 (1 / 10) 0 1]
  make t := recover fun e => Cdr.runWith (·.mergeSort CdrSearch.byScore) Cdr.finerFb ⟨t, false⟩ e true

/-- A configuration with a symbol period. -/
def exPeriod (t : ℚ) : Settings := { Props.Pipeline.exSettings (4 / 5) with period := some t }

theorem ex_completes : ∃ a, fresh exInput (exPeriod (201 / 200)) (⟨0, 0⟩, ⟨0, 0⟩) none none = .ok a := by
  have hch : SquareWave.exSquare.changes 10 .falling = [2, 4, 8] := by decide +kernel
  obtain ⟨a, start, count, h1, -⟩ := SquareWave.C71_nrzm (·.mergeSort CdrSearch.byScore) Cdr.finerFb CdrSearch.mergeSort_sorts.1
    CdrSearch.mergeSort_sorts.2 (exPeriod (201 / 200)) (⟨0, 0⟩, ⟨0, 0⟩) none [SquareWave.exSquare] 10 10 (1 / 10) 0 1 (201 / 200)
    (by norm_num) (by norm_num) rfl rfl rfl (by norm_num [exPeriod, Props.Pipeline.exSettings]) (by
      intro q hq
      obtain rfl := List.mem_singleton.1 hq
      unfold SquareWave.Square.Recoverable
      rw [show (exPeriod (201 / 200)).polarity = .falling from rfl, hch]
      decide)
    ⟨SquareWave.exSquare, by simp, by rw [show (exPeriod (201 / 200)).polarity = .falling from rfl, hch]; decide⟩
    (by norm_num) (by norm_num) (by rw [abs_le]; norm_num) rfl (by decide) (by unfold Props.Pipeline.Drawable; decide +kernel) (by unfold Props.Pipeline.Drawable; decide +kernel)
    (by intro f hf; cases hf) (by decide +kernel)
  exact ⟨a, h1⟩

/-- Fits without a clock. -/
theorem fits_none (x : Input) (h : x.clocks = none) : Fits x none := ⟨fun c hc => (by rw [h] at hc; cases hc), fun e he => by cases he⟩

theorem ex_selected (t : ℚ) : selectedEdges (SquareWave.exSquare.wave 10 10 (1 / 10) 0 1) (levels (exPeriod t).level (⟨0, 0⟩, ⟨0, 0⟩))
    (exPeriod t).polarity = .ok [some (99 / 20), some (139 / 20), some (219 / 20)] := by
  have h : selectedEdges (SquareWave.exSquare.wave 10 10 (1 / 10) 0 1) (levels (exPeriod 0).level (⟨0, 0⟩, ⟨0, 0⟩)) (exPeriod 0).polarity =
    .ok [some (99 / 20), some (139 / 20), some (219 / 20)] := by decide +kernel
  exact h

theorem ex_clock (t u : ℚ) : clockEdges none exInput.clocks exInput.wfs (levels (exPeriod u).level (⟨0, 0⟩, ⟨0, 0⟩)) (exPeriod u).polarity
    (exInput.make (some t)) (some u) = ([[some (99 / 20), some (139 / 20), some (219 / 20)]].mapM (exInput.make (some t))) := by
  unfold clockEdges
  rw [show exInput.clocks = none from rfl]
  simp only
  rw [if_neg (by
    have h : ¬(levels (exPeriod 0).level (⟨0, 0⟩, ⟨0, 0⟩)).lowSnr = true := by decide +kernel
    exact h)]
  rw [show exInput.wfs = [SquareWave.exSquare.wave 10 10 (1 / 10) 0 1] from rfl, List.mapM_cons, ex_selected]
  rfl

theorem ex_wrong : clockEdges none exInput.clocks exInput.wfs (levels (exPeriod 100).level (⟨0, 0⟩, ⟨0, 0⟩)) (exPeriod 100).polarity
    (exInput.make (some 100)) (some 100) = .error .arithmeticError := by
  rw [ex_clock]
  decide +kernel

/-- **C85 fails**: the nominal symbol period is corrected after a calculation that did not find the clock.  However often it is calculated, with
whatever settings, it raises, although a new eye diagram with the corrected period completes. -/
theorem C85_retry_fails (l : List (Settings × (Level ℚ × Level ℚ))) (s : Settings) (m : Level ℚ × Level ℚ) :
    (calculate exInput (exPeriod 100) (⟨0, 0⟩, ⟨0, 0⟩) (State.new none none)).2 = some .arithmeticError ∧
    (calculate exInput s m (replay exInput l (calculate exInput (exPeriod 100) (⟨0, 0⟩, ⟨0, 0⟩) (State.new none none)).1)).2 ≠ none ∧
    ∃ a, fresh exInput (exPeriod (201 / 200)) (⟨0, 0⟩, ⟨0, 0⟩) none none = .ok a := by
  obtain ⟨h1, h2⟩ := C85_stuck exInput (exPeriod 100) (⟨0, 0⟩, ⟨0, 0⟩) none (fits_none _ rfl) (1 / 10) (by decide +kernel) .arithmeticError ex_wrong l s m
  exact ⟨h1, h2, ex_completes⟩

/-- **C85 fails**: the same with a new eye diagram that shares the configuration, whose period has been corrected.  It uses the clock recovery with
the wrong period; a new eye diagram with a new configuration completes. -/
theorem C85_config_fails :
    fresh exInput (exPeriod (201 / 200)) (⟨0, 0⟩, ⟨0, 0⟩) none
      (calculate exInput (exPeriod 100) (⟨0, 0⟩, ⟨0, 0⟩) (State.new none none)).1.cdr = .error .arithmeticError ∧
    ∃ a, fresh exInput (exPeriod (201 / 200)) (⟨0, 0⟩, ⟨0, 0⟩) none none = .ok a := by
  refine ⟨?_, ex_completes⟩
  rw [(C85_config exInput exInput (exPeriod 100) (exPeriod (201 / 200)) (⟨0, 0⟩, ⟨0, 0⟩) (⟨0, 0⟩, ⟨0, 0⟩) (1 / 10) (by decide +kernel) rfl rfl
    (by decide +kernel)).2.1]
  unfold calculateAll
  rw [show tDelta exInput.wfs = .ok (1 / 10) from by decide +kernel]
  simp only [bind, Except.bind]
  rw [show clockEdges none exInput.clocks exInput.wfs (levels (exPeriod (201 / 200)).level (⟨0, 0⟩, ⟨0, 0⟩)) (exPeriod (201 / 200)).polarity
    (exInput.make (exPeriod 100).period) (exPeriod (201 / 200)).period = .error .arithmeticError from by
      rw [show (exPeriod 100).period = some 100 from rfl, show (exPeriod (201 / 200)).period = some (201 / 200) from rfl, ex_clock]
      decide +kernel]

/-- A signal with 4 samples per symbol whose levels cannot be told apart from the noise: the clock has the configured period. -/
def exNoise : Input := ⟨none, none, [Props.Pipeline.exWave], fun _ _ => .error .arithmeticError⟩

/-- Automatic levels, measures skipped. -/
def exAuto (t : ℚ) : Settings := { Props.Pipeline.exSettings (4 / 5) with level := ⟨none, none, none, none, 1 / 10⟩, period := some t, skip := true }

/-- **C85 fails**: the symbol period is corrected from 8 to 4 after a calculation that completed.  The next one completes too and still reports 8; a
new eye diagram reports 4. -/
theorem C85_settings_fails :
    (calculate exNoise (exAuto 8) (⟨0, 1⟩, ⟨1, 1⟩) (State.new none none)).2 = none ∧
    (outcome (calculate exNoise (exAuto 4) (⟨0, 1⟩, ⟨1, 1⟩) (calculate exNoise (exAuto 8) (⟨0, 1⟩, ⟨1, 1⟩) (State.new none none)).1)).toOption.map
      (·.map (·.tSym)) = some (some 8) ∧
    (fresh exNoise (exAuto 4) (⟨0, 1⟩, ⟨1, 1⟩) none none).toOption.map (·.tSym) = some 4 := by decide +kernel

/-- A signal and a mask (a hexagon, tested without the other ones of its margin). -/
def exMasked : Input where
  clocks := none
  mask := some fun u T => do
    let c ← EyeMask.exHexZero.convert u T
    return fun δ T z u ws => do maskLoop δ T z u [← c.paths] ws ⟨[], [], 1, 0⟩
  wfs := [Props.Pipeline.exWave]
  make _ _ := .error .arithmeticError

/-- Manual levels, with or without measures. -/
def exSkip (b : Bool) : Settings := { Props.Pipeline.exSettings (4 / 5) with skip := b }

/-- Its clock edges are given. -/
def exGiven : List (List (Option ℚ)) := [[some 6, some 10, some 14]]

theorem ex_masked : (calculate exMasked (exSkip false) (⟨0, 0⟩, ⟨0, 0⟩) (State.new (some exGiven) none)).2 = none := by decide +kernel

/-- **C85 fails**: with measures and a mask, then without measures: TypeError, although a new eye diagram completes. -/
theorem C85_skip_fails :
    (calculate exMasked (exSkip false) (⟨0, 0⟩, ⟨0, 0⟩) (State.new (some exGiven) none)).2 = none ∧
    (calculate exMasked (exSkip true) (⟨0, 0⟩, ⟨0, 0⟩)
      (calculate exMasked (exSkip false) (⟨0, 0⟩, ⟨0, 0⟩) (State.new (some exGiven) none)).1).2 = some .typeError ∧
    (calculate exMasked (exSkip true) (⟨0, 0⟩, ⟨0, 0⟩) (State.new (some exGiven) none)).2 = none := by decide +kernel

/-- **C85 fails**: after a calculation that skipped the measures the bits of the one before can be read; those of a new eye diagram raise. -/
theorem C85_bits_fails :
    let w := (calculate exNoise (exSkip false) (⟨0, 0⟩, ⟨0, 0⟩) (State.new (some exGiven) none)).1
    (calculate exNoise (exSkip true) (⟨0, 0⟩, ⟨0, 0⟩) w).2 = none ∧
    getBits (calculate exNoise (exSkip true) (⟨0, 0⟩, ⟨0, 0⟩) w).1 false = .ok [[1, 0, 1]] ∧
    getBits (calculate exNoise (exSkip true) (⟨0, 0⟩, ⟨0, 0⟩) (State.new (some exGiven) none)).1 false = .error .typeError := by decide +kernel

/-! ### Examples -/

theorem fits_ex (x : Input) (h : x.clocks = none) (e : List (List (Option ℚ))) (he : e.length = x.wfs.length) : Fits x (some e) :=
  ⟨fun c hc => (by rw [h] at hc; cases hc), fun e' h' => by injection h' with h'; rw [← h', he]⟩

/-- The hypotheses of `C85_as_new`, `C85_again`, `C85_handover` and `C85_bits` are met, with measures and a mask. -/
example : Fits exMasked (State.new (some exGiven) none).edges ∧
    (calculate exMasked (exSkip false) (⟨0, 0⟩, ⟨0, 0⟩) (State.new (some exGiven) none)).2 = none ∧
    ((exSkip false).skip = true → (State.new (some exGiven) none).maskSet = false) :=
  ⟨fits_ex _ rfl _ rfl, ex_masked, fun h => by cases h⟩

/-- Those of `C85_no_mask`: a mask whose conversion raises, after calculations with and without measures. -/
example : (∀ conv, ({ exMasked with mask := some fun _ _ => .error .zeroDivision } : Input).mask = some conv → ∀ u T f, conv u T ≠ .ok f) ∧
    Fits { exMasked with mask := some fun _ _ => .error .zeroDivision }
      (replay { exMasked with mask := some fun _ _ => .error .zeroDivision } [(exSkip false, (⟨0, 0⟩, ⟨0, 0⟩)), (exSkip true, (⟨0, 0⟩, ⟨0, 0⟩))]
        (State.new (some exGiven) none)).edges := by
  refine ⟨?_, ?_⟩
  · rintro conv hc u T f
    obtain rfl := Option.some.inj hc
    simp
  · have : (replay { exMasked with mask := some fun _ _ => .error .zeroDivision } [(exSkip false, (⟨0, 0⟩, ⟨0, 0⟩)), (exSkip true, (⟨0, 0⟩, ⟨0, 0⟩))]
        (State.new (some exGiven) none)).edges = some exGiven := by decide +kernel
    rw [this]
    exact fits_ex _ rfl _ rfl

/-- Those of `C85_settings_partial`: the clock edges of a new eye diagram are the same with the same period. -/
example : ∃ w : State, (calculate exNoise (exAuto 8) (⟨0, 1⟩, ⟨1, 1⟩) w).2 = none ∧ Fits exNoise w.edges ∧
    (calculate exNoise (exAuto 8) (⟨0, 1⟩, ⟨1, 1⟩) w).1.maskSet = false ∧ ∃ e,
    clockEdges none exNoise.clocks exNoise.wfs (levels (exAuto 8).level (⟨0, 1⟩, ⟨1, 1⟩)) (exAuto 8).polarity (exNoise.make (some 8)) (some 8) = .ok e ∧
    getClockEdges (calculate exNoise (exAuto 8) (⟨0, 1⟩, ⟨1, 1⟩) w).1 = .ok (some e) :=
  ⟨State.new none none, by decide +kernel, fits_none _ rfl, by decide +kernel, [[some 8, some 16, some 24, some 32]], by decide +kernel,
    by decide +kernel⟩

/-- Those of `C85_skip_raises`. -/
example : (calculate exMasked (exSkip true) (⟨0, 0⟩, ⟨0, 0⟩)
    (calculate exMasked (exSkip false) (⟨0, 0⟩, ⟨0, 0⟩) (State.new (some exGiven) none)).1).2 ≠ none :=
  C85_skip_raises exMasked (exSkip false) (exSkip true) _ _ _ (fits_ex _ rfl _ rfl) ex_masked (by simp [exMasked]) rfl rfl

end Verif.Props.Again
