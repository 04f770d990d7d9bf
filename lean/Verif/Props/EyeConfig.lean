import Verif.Model.Eye
import Mathlib.Data.List.Nodup

/-!
C51: the configuration.  C52: the life cycle of an eye diagram.
-/

namespace Verif.Props.EyeConfig

open Verif Verif.Eye

/-! ### C51 -/

/-- The value that a list of settings leaves for a parameter: the last one, or the value from before. -/
def finally_ {α : Type} (before : Option α) (k : String) (kv : List (String × α)) : Option α :=
  match (kv.filter fun p => p.1 = k).getLast? with
  | some p => some p.2
  | none => before

theorem lookup_append {α : Type} (l : List (String × α)) (k : String) (h : k ∉ l.map Prod.fst) (n : String) (v : α) :
    (l ++ [(k, v)]).lookup n = if n = k then some v else l.lookup n := by
  induction l with
  | nil =>
    by_cases hn : n = k
    · subst hn; simp [List.lookup]
    · have : (n == k) = false := by simpa using hn
      simp [List.lookup, this, hn]
  | cons a l ih =>
    have hk : k ≠ a.1 := by intro h'; exact h (by simp [h'])
    have ih' := ih (by intro h'; exact h (by simp only [List.map_cons, List.mem_cons]; exact Or.inr h'))
    rw [List.cons_append, List.lookup_cons, List.lookup_cons]
    by_cases hna : n = a.1
    · subst hna; simp [Ne.symm hk]
    · have : (n == a.1) = false := by simpa using hna
      simp only [this]
      exact ih'

theorem lookup_map {α : Type} (l : List (String × α)) (k : String) (v : α) (n : String) (h : k ∈ l.map Prod.fst) :
    (l.map fun a => if a.1 = k then (k, v) else a).lookup n = if n = k then some v else l.lookup n := by
  induction l with
  | nil => simp at h
  | cons a l ih =>
    by_cases ha : a.1 = k
    · simp only [List.map_cons, ha, if_true]
      rw [List.lookup_cons]
      by_cases hn : n = k
      · subst hn; simp
      · have : (n == k) = false := by simpa using hn
        have e : (a :: l).lookup n = l.lookup n := by
          rw [List.lookup_cons]; simp [ha, this]
        simp only [this, hn, if_false, e]
        by_cases hk : k ∈ l.map Prod.fst
        · rw [ih hk, if_neg hn]
        · have : (l.map fun a => if a.1 = k then (k, v) else a) = l := by
            conv_rhs => rw [← List.map_id l]
            apply List.map_congr_left
            intro b hb
            rw [if_neg (fun h' => hk (List.mem_map.2 ⟨b, hb, h'⟩))]
            rfl
          rw [this]
    · simp only [List.map_cons, ha, if_false]
      have hk : k ∈ l.map Prod.fst := by
        rw [List.map_cons, List.mem_cons] at h
        exact h.resolve_left (fun h' => ha h'.symm)
      rw [List.lookup_cons, ih hk, List.lookup_cons]
      by_cases hna : n = a.1
      · subst hna; simp [ha]
      · have : (n == a.1) = false := by simpa using hna
        simp [this]

theorem set_get {α : Type} (c : Config α) (k n : String) (v : α) : (c.set k v).get? n = if n = k then some v else c.get? n := by
  unfold Config.set Config.get?
  by_cases h : (c.attrs.map Prod.fst).contains k = true
  · rw [if_pos h]
    exact lookup_map _ _ _ _ (by simpa using h)
  · rw [if_neg h]
    exact lookup_append _ _ (by simpa using h) _ _

theorem set_has {α : Type} (c : Config α) (k n : String) (v : α) (hk : c.has k = true) : (c.set k v).has n = c.has n := by
  unfold Config.set Config.has at *
  by_cases h : (c.attrs.map Prod.fst).contains k = true
  · rw [if_pos h]
    simp only [List.map_map]
    have : (Prod.fst ∘ fun a : String × α => if a.1 = k then (k, v) else a) = Prod.fst := by
      funext a
      simp only [Function.comp]
      split
      · rename_i e; exact e.symm
      · rfl
    rw [this]
  · rw [if_neg h]
    have h2 : classAttrs.contains k = true := by
      rcases (Bool.or_eq_true_iff).1 hk with h' | h'
      · exact absurd h' h
      · exact h'
    rw [Bool.eq_iff_iff]
    simp only [List.map_append, List.map_cons, List.map_nil, Bool.or_eq_true, List.contains_iff_mem, List.mem_append, List.mem_singleton]
    constructor
    · rintro ((h' | rfl) | h')
      · exact Or.inl h'
      · exact Or.inr (by simpa using h2)
      · exact Or.inr h'
    · rintro (h' | h')
      · exact Or.inl (Or.inl h')
      · exact Or.inr h'

theorem finally_cons {α : Type} (b : Option α) (k n : String) (v : α) (kv : List (String × α)) :
    finally_ b n ((k, v) :: kv) = finally_ (if n = k then some v else b) n kv := by
  unfold finally_
  rw [List.filter_cons]
  by_cases h : k = n
  · subst h
    simp only [decide_true, if_true]
    rw [List.getLast?_cons]
    cases h' : (kv.filter fun p => decide (p.1 = k)).getLast? with
    | none => simp
    | some p => simp
  · have : ¬ n = k := fun h' => h h'.symm
    simp [h, this]

theorem consume_known {α : Type} (kv : List (String × α)) (c : Config α) (h : ∀ p ∈ kv, c.has p.1 = true) :
    (c.consume kv).2 = none ∧ (∀ n, (c.consume kv).1.has n = c.has n) ∧ ∀ n, (c.consume kv).1.get? n = finally_ (c.get? n) n kv := by
  induction kv generalizing c with
  | nil => exact ⟨rfl, fun _ => rfl, fun _ => rfl⟩
  | cons p kv ih =>
    obtain ⟨k, v⟩ := p
    have hk := h (k, v) (by simp)
    obtain ⟨h1, h2, h3⟩ := ih (c.set k v) (fun p hp => by rw [set_has c k p.1 v hk]; exact h p (List.mem_cons_of_mem _ hp))
    unfold Config.consume
    simp only at hk
    rw [if_pos hk]
    refine ⟨h1, fun n => by rw [h2, set_has c k n v hk], fun n => ?_⟩
    rw [h3, set_get, finally_cons]

/-- The attributes of a new configuration before its arguments are consumed. -/
theorem start_get {α : Type} (names : List String) (d : String → α) (n : String) :
    (Config.mk (names.map fun m => (m, d m))).get? n = if n ∈ names then some (d n) else none := by
  unfold Config.get?
  induction names with
  | nil => rfl
  | cons m names ih =>
    rw [List.map_cons, List.lookup_cons]
    by_cases h : n = m
    · subst h; simp
    · have : (n == m) = false := by simpa using h
      simp only [this]
      rw [ih]
      simp [h]

theorem start_has {α : Type} (names : List String) (d : String → α) (n : String) :
    (Config.mk (names.map fun m => (m, d m))).has n = true ↔ n ∈ names ∨ n ∈ classAttrs := by
  unfold Config.has
  simp [List.mem_map]

/-- C51: known parameters are accepted; every parameter ends with the last value given for it, or its default. -/
theorem C51_known {α : Type} (names : List String) (d : String → α) (kw : List (String × α)) (h : ∀ p ∈ kw, p.1 ∈ names) :
    ∃ c, Config.new names d kw = .ok c ∧ ∀ n ∈ names, c.get? n = finally_ (some (d n)) n kw := by
  obtain ⟨h1, -, h3⟩ := consume_known kw ⟨names.map fun n => (n, d n)⟩ (fun p hp => (start_has names d p.1).2 (Or.inl (h p hp)))
  unfold Config.new
  generalize hc : Config.consume ⟨names.map fun n => (n, d n)⟩ kw = r at h1 h3
  obtain ⟨c, e⟩ := r
  simp only at h1
  subst h1
  refine ⟨c, rfl, fun n hn => ?_⟩
  have := h3 n
  rw [start_get, if_pos hn] at this
  exact this

/-- C51: nothing else appears in the configuration. -/
theorem C51_nothing_else {α : Type} (names : List String) (d : String → α) (kw : List (String × α)) (h : ∀ p ∈ kw, p.1 ∈ names) (n : String)
    (hn : n ∉ names) : ∃ c, Config.new names d kw = .ok c ∧ c.get? n = none := by
  obtain ⟨h1, -, h3⟩ := consume_known kw ⟨names.map fun n => (n, d n)⟩ (fun p hp => (start_has names d p.1).2 (Or.inl (h p hp)))
  unfold Config.new
  generalize hc : Config.consume ⟨names.map fun n => (n, d n)⟩ kw = r at h1 h3
  obtain ⟨c, e⟩ := r
  simp only at h1
  subst h1
  refine ⟨c, rfl, ?_⟩
  have := h3 n
  rw [start_get, if_neg hn] at this
  rw [this]
  unfold finally_
  have : kw.filter (fun p => decide (p.1 = n)) = [] := by
    rw [List.filter_eq_nil_iff]
    intro p hp he
    simp only [decide_eq_true_eq] at he
    exact hn (he ▸ h p hp)
  rw [this]
  rfl

theorem consume_unknown {α : Type} (pre : List (String × α)) (k : String) (v : α) (post : List (String × α)) (c : Config α)
    (h : ∀ p ∈ pre, c.has p.1 = true) (hk : c.has k = false) :
    c.consume (pre ++ (k, v) :: post) = ((c.consume pre).1, some .keyError) := by
  induction pre generalizing c with
  | nil =>
    simp only [List.nil_append]
    unfold Config.consume
    simp [hk]
  | cons p pre ih =>
    obtain ⟨k', v'⟩ := p
    have hk' := h (k', v') (by simp)
    simp only at hk'
    rw [List.cons_append]
    unfold Config.consume
    rw [if_pos hk', if_pos hk']
    exact ih _ (fun p hp => by rw [set_has c k' p.1 v' hk']; exact h p (List.mem_cons_of_mem _ hp)) (by rw [set_has c k' k v' hk']; exact hk)

/-- C51, except for the method `consume` (see `C51_method_fails`) and the attributes every python object has: an unknown parameter raises
KeyError. -/
theorem C51_unknown_partial {α : Type} (names : List String) (d : String → α) (kw : List (String × α)) (p : String × α) (hp : p ∈ kw)
    (hn : p.1 ∉ names) (hm : p.1 ≠ "consume") : Config.new names d kw = .error .keyError := by
  have key : ∀ (kw : List (String × α)) (c : Config α), p ∈ kw → c.has p.1 = false → ∃ c', c.consume kw = (c', some .keyError) := by
    intro kw
    induction kw with
    | nil => intro c h; simp at h
    | cons q kw ih =>
      intro c h hc
      obtain ⟨k, v⟩ := q
      unfold Config.consume
      by_cases hk : c.has k = true
      · rw [if_pos hk]
        rcases List.mem_cons.1 h with rfl | h
        · rw [hc] at hk; cases hk
        · exact ih _ h (by rw [set_has c k p.1 v hk]; exact hc)
      · rw [if_neg hk]
        exact ⟨c, rfl⟩
  have hs : (Config.mk (names.map fun m => (m, d m))).has p.1 = false := by
    rw [Bool.eq_false_iff]
    intro h
    rcases (start_has names d p.1).1 h with h | h
    · exact hn h
    · exact hm (by simpa [classAttrs] using h)
  obtain ⟨c', e⟩ := key kw _ hp hs
  unfold Config.new
  rw [e]

/-- C51: `consume` on an object: the settings before the first unknown parameter are made, the later ones are not. -/
theorem C51_consume_order {α : Type} (c : Config α) (pre post : List (String × α)) (k : String) (v : α)
    (h : ∀ p ∈ pre, c.has p.1 = true) (hk : c.has k = false) :
    (c.consume (pre ++ (k, v) :: post)).2 = some .keyError ∧
      ∀ n, (c.consume (pre ++ (k, v) :: post)).1.get? n = finally_ (c.get? n) n pre := by
  rw [consume_unknown pre k v post c h hk]
  exact ⟨rfl, (consume_known pre c h).2.2⟩

/-- **C51 fails** for the names of methods: they are taken for parameters. -/
theorem C51_method_fails : "consume" ∉ pam2Names ∧ ∃ c, Config.new pam2Names (fun _ => (0 : ℚ)) [("consume", 1)] = .ok c ∧ c.get? "consume" = some 1 := by
  refine ⟨by decide +kernel, ?_⟩
  refine ⟨⟨pam2Names.map (fun n => (n, (0 : ℚ))) ++ [("consume", 1)]⟩, ?_, ?_⟩
  · rfl
  · decide +kernel

/-- The parameters in the documentation of `Config`, eyediagram.py:289-309, and of `PAM2Config`, pam2.py:134-137. -/
def documented (pam2 : Bool) : List String :=
  ["hysteresis", "hysteresis_ua", "levels_n_max", "clock_polarity", "cdr", "fallback_period", "skip_measures", "level_width", "cross_width",
   "time_hight", "edge_lower", "edge_upper", "noise_floor", "point_cloud"] ++ if pam2 then ["y_0", "y_1", "y_th"] else []

/-- C51: the known parameters are the documented ones, with one spelled differently. -/
theorem C51_documented (pam2 : Bool) (n : String) :
    n ∈ (if pam2 then pam2Names else baseNames) ↔ (n ∈ documented pam2 ∧ n ≠ "time_hight") ∨ n = "time_height" := by
  cases pam2 <;> simp only [pam2Names, baseNames, documented, if_true, Bool.false_eq_true, if_false, List.append_nil, List.mem_append, List.mem_cons,
    List.not_mem_nil, or_false]
  · constructor
    · rintro (rfl | rfl | rfl | rfl | rfl | rfl | rfl | rfl | rfl | rfl | rfl | rfl | rfl | rfl) <;> simp
    · rintro (⟨(rfl | rfl | rfl | rfl | rfl | rfl | rfl | rfl | rfl | rfl | rfl | rfl | rfl | rfl), h⟩ | rfl) <;> simp at *
  · constructor
    · rintro ((rfl | rfl | rfl | rfl | rfl | rfl | rfl | rfl | rfl | rfl | rfl | rfl | rfl | rfl) | (rfl | rfl | rfl)) <;> simp
    · rintro (⟨((rfl | rfl | rfl | rfl | rfl | rfl | rfl | rfl | rfl | rfl | rfl | rfl | rfl | rfl) | (rfl | rfl | rfl)), h⟩ | rfl) <;> simp at *

/-- **C51 fails** for the documented `time_hight`: it raises KeyError. -/
theorem C51_documented_fails {α : Type} (pam2 : Bool) (d : String → α) (v : α) :
    "time_hight" ∈ documented pam2 ∧ Config.new (if pam2 then pam2Names else baseNames) d [("time_hight", v)] = .error .keyError := by
  refine ⟨by simp [documented], C51_unknown_partial _ d _ ("time_hight", v) (by simp) ?_ (by simp)⟩
  rw [C51_documented]
  simp

/-- The hypotheses of the C51 theorems are met. -/
example : (∀ p ∈ [("hysteresis", (1 : ℚ)), ("y_th", 2), ("hysteresis", 3)], p.1 ∈ pam2Names) ∧
    finally_ (some (0 : ℚ)) "hysteresis" [("hysteresis", (1 : ℚ)), ("y_th", 2), ("hysteresis", 3)] = some 3 ∧ "hysteresys" ∉ pam2Names := by
  decide +kernel

/-! ### C52 -/

/-- The shape of an array of waveforms: one waveform, or several. -/
def Shaped (s : List ℕ) (n points : ℕ) : Prop := (s = [2, points] ∧ n = 1) ∨ s = [n, 2, points]

/-- Valid clock edges: a list for every waveform. -/
def EdgesOk (n : ℕ) : Option EdgesArg → Prop
  | none => True
  | some .notList => False
  | some (.list l) => l.length = n ∧ ∃ e, l.head? = some (some e)

theorem shape3_ok (s t : List ℕ) : shape3 s = .ok t ↔ (∃ a b, s = [a, b] ∧ t = [1, a, b]) ∨ ∃ a b c, s = [a, b, c] ∧ t = [a, b, c] := by
  unfold shape3
  split
  · simp [eq_comm]
  · simp [eq_comm]
  · rename_i h1 h2
    constructor
    · intro h; cases h
    · rintro (⟨a, b, rfl, -⟩ | ⟨a, b, c, rfl, -⟩)
      · exact absurd rfl (h1 a b)
      · exact absurd rfl (h2 a b c)

theorem check3 (a b c : ℕ) : checkShape [a, b, c] = if b ≠ 2 ∨ a > c then .error .valueError else .ok () := rfl

/-- C52: construction succeeds exactly for one or more waveforms `[2, points]` or `[n, 2, points]`, not more than points, clocks of the same
shape and clock edges for every waveform.  Nothing is computed. -/
theorem C52_new {ρ : Type} (waveforms : List ℕ) (clocks : Option (List ℕ)) (edges : Option EdgesArg) (r : ρ) :
    ((∃ o, Obj.new waveforms clocks edges r = .ok o) ↔
      ∃ n points, Shaped waveforms n points ∧ 1 ≤ n ∧ n ≤ points ∧ (∀ c, clocks = some c → Shaped c n points) ∧ EdgesOk n edges) ∧
    ∀ o, Obj.new waveforms clocks edges r = .ok o → o.calculated = false ∧ o.rest = r ∧ (o.clockEdges = none ↔ edges = none) := by
  have key : ∀ o, Obj.new waveforms clocks edges r = .ok o ↔ ∃ n points e, Shaped waveforms n points ∧ 1 ≤ n ∧ n ≤ points ∧
      (∀ c, clocks = some c → Shaped c n points) ∧ checkEdges [n, 2, points] edges = .ok e ∧ o = ⟨[n, 2, points], e, false, r⟩ := by
    intro o
    unfold Obj.new
    constructor
    · intro h
      simp only [bind, Except.bind, pure, Except.pure] at h
      cases hs : shape3 waveforms with
      | error e => rw [hs] at h; cases h
      | ok s =>
        rw [hs] at h
        simp only at h
        obtain ⟨a, b, c, rfl⟩ : ∃ a b c, s = [a, b, c] := by
          rcases (shape3_ok _ _).1 hs with ⟨a, b, -, h⟩ | ⟨a, b, c, -, h⟩
          · exact ⟨_, _, _, h⟩
          · exact ⟨_, _, _, h⟩
        rw [check3] at h
        by_cases hb : b ≠ 2 ∨ a > c
        · simp [hb] at h
        · rw [if_neg hb] at h
          push Not at hb
          obtain ⟨rfl, hac⟩ := hb
          have hsh : ∀ s, shape3 s = .ok [a, 2, c] → Shaped s a c := by
            intro s hs
            rcases (shape3_ok _ _).1 hs with ⟨a', b', rfl, h⟩ | ⟨a', b', c', rfl, h⟩
            · simp only [List.cons.injEq, and_true] at h
              obtain ⟨rfl, rfl, rfl⟩ := h
              exact Or.inl ⟨rfl, rfl⟩
            · rw [← h]
              simp only [List.cons.injEq, and_true] at h
              obtain ⟨rfl, rfl, rfl⟩ := h
              exact Or.inr rfl
          have hcl : checkClocks [a, 2, c] clocks = .ok () := by
            cases hk : checkClocks [a, 2, c] clocks with
            | ok u => rfl
            | error e => rw [hk] at h; cases h
          rw [hcl] at h
          simp only at h
          cases he : checkEdges [a, 2, c] edges with
          | error e => rw [he] at h; cases h
          | ok e =>
            rw [he] at h
            simp only at h
            by_cases h0 : a = 0
            · simp [h0] at h
            · rw [if_neg (by simpa using h0)] at h
              refine ⟨a, c, e, hsh _ hs, by omega, hac, ?_, he, (Except.ok.inj h).symm⟩
              rintro k rfl
              unfold checkClocks at hcl
              simp only [bind, Except.bind] at hcl
              cases hk : shape3 k with
              | error e => rw [hk] at hcl; cases hcl
              | ok k' =>
                rw [hk] at hcl
                simp only at hcl
                by_cases hkk : k' = [a, 2, c]
                · exact hsh _ (hkk ▸ hk)
                · simp [hkk] at hcl
    · rintro ⟨n, points, e, hs, h1, hn, hc, he, rfl⟩
      have hsh : ∀ s, Shaped s n points → shape3 s = .ok [n, 2, points] := by
        rintro s (⟨rfl, rfl⟩ | rfl) <;> rfl
      have hck : checkShape [n, 2, points] = .ok () := by
        rw [check3, if_neg (by push Not; exact ⟨rfl, hn⟩)]
      have hcl : checkClocks [n, 2, points] clocks = .ok () := by
        unfold checkClocks
        cases clocks with
        | none => rfl
        | some c => simp [hsh c (hc c rfl), bind, Except.bind]
      simp only [hsh _ hs, hck, hcl, he, bind, Except.bind, pure, Except.pure]
      rw [if_neg (by simp only [List.headD_cons]; omega)]
  have hedge : ∀ n points, (∃ e, checkEdges [n, 2, points] edges = .ok e) ↔ (EdgesOk n edges ∧ (n = 0 → edges = none)) := by
    intro n points
    cases edges with
    | none => simp [checkEdges, EdgesOk]
    | some a =>
      cases a with
      | notList => simp [checkEdges, EdgesOk]
      | list l =>
        simp only [checkEdges, EdgesOk]
        by_cases hl : l.length = n
        · rw [if_neg (by simpa using hl)]
          cases l with
          | nil => simp
          | cons x l =>
            cases x with
            | none => simp
            | some e => simp [hl]; intro h0; rw [h0] at hl; simp at hl
        · simp [hl]
  refine ⟨⟨?_, ?_⟩, ?_⟩
  · rintro ⟨o, ho⟩
    obtain ⟨n, points, e, hs, h1, hn, hc, he, -⟩ := (key o).1 ho
    exact ⟨n, points, hs, h1, hn, hc, ((hedge n points).1 ⟨e, he⟩).1⟩
  · rintro ⟨n, points, hs, h1, hn, hc, he⟩
    obtain ⟨e, he'⟩ := (hedge n points).2 ⟨he, fun h => by omega⟩
    exact ⟨_, (key _).2 ⟨n, points, e, hs, h1, hn, hc, he', rfl⟩⟩
  · intro o ho
    obtain ⟨n, points, e, hs, h1, hn, hc, he, rfl⟩ := (key o).1 ho
    refine ⟨rfl, rfl, ?_⟩
    cases edges with
    | none =>
      simp only [checkEdges, Except.ok.injEq] at he
      subst he; simp
    | some a =>
      cases a with
      | notList => simp [checkEdges] at he
      | list l =>
        simp only [checkEdges] at he
        split at he
        · cases he
        · split at he
          · cases he
          · cases he
          · simp only [Except.ok.injEq] at he
            subst he; simp

/-- The five steps of a calculation: what each does with the object, and the search for the clock. -/
structure Steps (ρ : Type) where
  levels : Obj ρ → ρ × Option PyErr
  find : Obj ρ → List (List ℚ) × Option PyErr
  period : Obj ρ → ρ × Option PyErr
  sample : Obj ρ → ρ × Option PyErr
  measure : Obj ρ → ρ × Option PyErr
  stack : Obj ρ → ρ × Option PyErr

/-- eyediagram.py:472-505. -/
def Steps.list {ρ : Type} (s : Steps ρ) : List (Step ρ) :=
  [plainStep s.levels, clockStep s.find s.period, plainStep s.sample, plainStep s.measure, plainStep s.stack]

theorem plain_keeps {ρ : Type} (f : Obj ρ → ρ × Option PyErr) (o : Obj ρ) :
    (plainStep f o).1.calculated = o.calculated ∧ (plainStep f o).1.clockEdges = o.clockEdges := ⟨rfl, rfl⟩

theorem clock_keeps {ρ : Type} (g : Obj ρ → List (List ℚ) × Option PyErr) (f : Obj ρ → ρ × Option PyErr) (o : Obj ρ) :
    (clockStep g f o).1.calculated = o.calculated ∧ (∀ l, o.clockEdges = some l → (clockStep g f o).1.clockEdges = some l) ∧
    (clockStep g f o).1.clockEdges ≠ none := by
  unfold clockStep
  cases h : o.clockEdges with
  | some l =>
    refine ⟨rfl, fun l' h' => ?_, ?_⟩
    · simp only [plainStep, h, h']
    · simp [plainStep, h]
  | none =>
    simp only
    generalize g o = r
    obtain ⟨l, e⟩ := r
    cases e with
    | some e => exact ⟨rfl, by simp, by simp⟩
    | none => exact ⟨rfl, by simp, by simp [plainStep]⟩

theorem run_keeps {ρ : Type} (l : List (Step ρ)) (hl : ∀ s ∈ l, ∀ o, (s o).1.calculated = o.calculated ∧
    ∀ e, o.clockEdges = some e → (s o).1.clockEdges = some e) (o : Obj ρ) :
    (runSteps l o).1.calculated = o.calculated ∧ ∀ e, o.clockEdges = some e → (runSteps l o).1.clockEdges = some e := by
  induction l generalizing o with
  | nil => exact ⟨rfl, fun e h => h⟩
  | cons s l ih =>
    unfold runSteps
    obtain ⟨h1, h2⟩ := hl s (by simp) o
    generalize s o = r at h1 h2
    obtain ⟨o', e'⟩ := r
    cases e' with
    | some e' => exact ⟨h1, h2⟩
    | none =>
      obtain ⟨h3, h4⟩ := ih (fun s hs => hl s (List.mem_cons_of_mem _ hs)) o'
      exact ⟨h3.trans h1, fun e h => h4 e (h2 e h)⟩

theorem steps_keep {ρ : Type} (s : Steps ρ) : ∀ t ∈ s.list, ∀ o, (t o).1.calculated = o.calculated ∧
    ∀ e, o.clockEdges = some e → (t o).1.clockEdges = some e := by
  intro t ht o
  simp only [Steps.list, List.mem_cons, List.not_mem_nil, or_false] at ht
  rcases ht with rfl | rfl | rfl | rfl | rfl
  · exact ⟨rfl, fun e h => h⟩
  · exact ⟨(clock_keeps _ _ o).1, (clock_keeps _ _ o).2.1⟩
  · exact ⟨rfl, fun e h => h⟩
  · exact ⟨rfl, fun e h => h⟩
  · exact ⟨rfl, fun e h => h⟩

/-- A history of calls of `calculate`: the exceptions in order, and the object in the end. -/
def history {ρ : Type} : List (Steps ρ) → Obj ρ → Obj ρ × List (Option PyErr)
  | [], o => (o, [])
  | s :: rest, o =>
    let (o', e) := calculate s.list o
    let (o'', es) := history rest o'
    (o'', e :: es)

theorem calc_flag {ρ : Type} (s : Steps ρ) (o : Obj ρ) :
    (calculate s.list o).1.calculated = (o.calculated || (calculate s.list o).2.isNone) ∧
    ∀ e, o.clockEdges = some e → (calculate s.list o).1.clockEdges = some e := by
  obtain ⟨h1, h2⟩ := run_keeps s.list (steps_keep s) o
  unfold calculate
  generalize runSteps s.list o = r at h1 h2
  obtain ⟨o', e⟩ := r
  cases e with
  | some e => exact ⟨by simpa using h1, h2⟩
  | none => exact ⟨by simp, h2⟩

theorem history_flag {ρ : Type} (l : List (Steps ρ)) (o : Obj ρ) :
    (history l o).1.calculated = (o.calculated || (history l o).2.any Option.isNone) ∧
    ∀ e, o.clockEdges = some e → (history l o).1.clockEdges = some e := by
  induction l generalizing o with
  | nil => exact ⟨by simp [history], fun e h => h⟩
  | cons s l ih =>
    obtain ⟨h1, h2⟩ := calc_flag s o
    obtain ⟨h3, h4⟩ := ih (calculate s.list o).1
    refine ⟨?_, fun e h => h4 e (h2 e h)⟩
    simp only [history, List.any_cons]
    rw [h3, h1, Bool.or_assoc]

/-- C52: after any history of calls of `calculate`, failed ones included, a getter raises RuntimeError if none of them completed, otherwise it
reads its result from the object. -/
theorem C52_getters {ρ α : Type} (waveforms : List ℕ) (clocks : Option (List ℕ)) (edges : Option EdgesArg) (r : ρ) (o : Obj ρ)
    (ho : Obj.new waveforms clocks edges r = .ok o) (l : List (Steps ρ)) (f : Obj ρ → Except PyErr α) :
    Eye.get f (history l o).1 = if none ∈ (history l o).2 then f (history l o).1 else .error .runtimeError := by
  have h0 := ((C52_new waveforms clocks edges r).2 o ho).1
  have h1 := (history_flag l o).1
  rw [h0, Bool.false_or] at h1
  unfold Eye.get
  by_cases h : none ∈ (history l o).2
  · have : (history l o).2.any Option.isNone = true := List.any_eq_true.2 ⟨none, h, rfl⟩
    rw [h1, this, if_pos h]
    rfl
  · have : ¬ (history l o).2.any Option.isNone = true := by
      intro hc
      obtain ⟨x, hx, hn⟩ := List.any_eq_true.1 hc
      rw [Option.isNone_iff_eq_none.1 hn] at hx
      exact h hx
    rw [h1, if_neg this, if_neg h]

/-- C52: once there are clock edges (given, or found by a calculation that completed), no further calculation changes them. -/
theorem C52_clock_edges {ρ : Type} (s : Steps ρ) (o : Obj ρ) :
    ((calculate s.list o).2 = none → ∃ e, (calculate s.list o).1.clockEdges = some e ∧
      ∀ l : List (Steps ρ), (history l (calculate s.list o).1).1.clockEdges = some e) ∧
    ∀ e, o.clockEdges = some e → ∀ l : List (Steps ρ), (history l o).1.clockEdges = some e := by
  refine ⟨fun hn => ?_, fun e he l => (history_flag l o).2 e he⟩
  have hr : (runSteps s.list o).2 = none → ∃ e, (runSteps s.list o).1.clockEdges = some e := by
    have e0 : s.list = plainStep s.levels :: clockStep s.find s.period :: [plainStep s.sample, plainStep s.measure, plainStep s.stack] := rfl
    rw [e0, runSteps]
    generalize plainStep s.levels o = r1
    obtain ⟨o1, e1⟩ := r1
    cases e1 with
    | some e => intro h; simp at h
    | none =>
      simp only
      rw [runSteps]
      have hk := (clock_keeps s.find s.period o1).2.2
      generalize clockStep s.find s.period o1 = r2 at hk
      obtain ⟨o2, e2⟩ := r2
      cases e2 with
      | some e => intro h; simp at h
      | none =>
        intro _
        obtain ⟨e, he⟩ := Option.ne_none_iff_exists'.1 hk
        refine ⟨e, (run_keeps _ ?_ o2).2 e he⟩
        intro t ht
        exact steps_keep s t (by rw [e0]; exact List.mem_cons_of_mem _ (List.mem_cons_of_mem _ ht))
  have : ∃ e, (calculate s.list o).1.clockEdges = some e := by
    unfold calculate at hn ⊢
    generalize runSteps s.list o = r at hn hr ⊢
    obtain ⟨o', e⟩ := r
    cases e with
    | some e => simp at hn
    | none => exact hr rfl
  obtain ⟨e, he⟩ := this
  exact ⟨e, he, fun l => (history_flag l _).2 e he⟩

/-- A calculation whose clock step fails for the given counts of symbols, otherwise finds one edge. -/
def exSteps (fail : Bool) : Steps ℕ :=
  ⟨fun o => (o.rest + 1, none), fun _ => ([[1, 2]], if fail then some .arithmeticError else none), fun o => (o.rest, none),
    fun o => (o.rest, none), fun o => (o.rest, none), fun o => (o.rest, none)⟩

/-- The hypotheses of the C52 theorems are met: a failed calculation, then one that completes. -/
example : ∃ o, Obj.new [1, 2, 5] (some [2, 5]) none (0 : ℕ) = .ok o ∧ (history [exSteps true] o).2 = [some .arithmeticError] ∧
    (history [exSteps true, exSteps false] o).2 = [some .arithmeticError, none] ∧ (history [exSteps false] o).1.clockEdges = some [[1, 2]] :=
  ⟨⟨[1, 2, 5], none, false, 0⟩, rfl, rfl, rfl, rfl⟩

end Verif.Props.EyeConfig
