import Verif.Model.ScopeInit
import Verif.Props.Scpi
import Verif.Props.Equipment

/-!
C73: a constructed oscilloscope has exactly the channels of the instrument; other instruments are not touched.
-/

namespace Verif.Props.ScopeInit

open Verif Verif.Scpi Verif.Decimal Verif.Tek Verif.ScopeInit Verif.Props.Scpi

/-! ### Specification -/

/-- What a driver of the 4000 family sends, in this order. -/
def trace4000 : List Ev :=
  [.ask (lit "*IDN?"), .send (lit "HEADER OFF"), .send (lit "VERBOSE ON"), .ask (lit "CONFIGURATION:ANALOG:NUMCHANNELS?"),
    .ask (lit "CONFIGURATION:DIGITAL:NUMCHANNELS?"), .ask (lit "CONFIGURATION:AUXIN?"), .ask (lit "CONFIGURATION:ANALOG:BANDWIDTH?")]

/-- What a driver of the 4/5/6 series sends, in this order. -/
def trace456 : List Ev :=
  [.ask (lit "*IDN?"), .send (lit "HEADER ON"), .send (lit "VERBOSE ON"), .ask (lit "DISPLAY?"), .send (lit "HEADER OFF"),
    .ask (lit "CONFIGURATION:ANALOG:BANDWIDTH?")]

/-- The reply to the `i`-th message of a trace, without surrounding blanks. -/
def answer (r : Instrument) (t : List Ev) (i : ℕ) : Str := strip (r (t.take (i + 1)))

/-- The models a driver is documented to support. -/
inductive Supported : Equip.Builtin → Str → Prop
  | mso4000 (p : String) (a b c : Char) (s : String) (hp : p ∈ ["MDO3", "MDO4", "MSO4", "DPO4"])
      (ha : a ∈ "0123456789".toList) (hb : b ∈ "0123456789".toList) (hc : c ∈ "0123456789".toList) (hs : s ∈ ["", "B"]) :
      Supported .mso4000 (p.toList ++ [a, b, c] ++ s.toList)
  | mso456 (m : String) (hm : m ∈ ["MSO44", "MSO46", "MSO54", "MSO56", "MSO58", "MSO54B", "MSO56B", "MSO58B", "MSO58LP", "MSO64", "MSO64B",
      "MSO66B", "MSO68B", "LPD64"]) : Supported .mso456 m.toList

/-- The model in an identity: `TEKTRONIX,<model>`, and further fields if any. -/
def IdModel (id m : Str) : Prop := ',' ∉ m ∧ (id = "TEKTRONIX,".toList ++ m ∨ ∃ rest, id = "TEKTRONIX,".toList ++ m ++ ',' :: rest)

/-- The identity belongs to the driver: `TEKTRONIX,<model>` with a supported model, and further fields if any. -/
def Known (b : Equip.Builtin) (id : Str) : Prop := ∃ m, Supported b m ∧ IdModel id m

/-! ### Identities -/

theorem full_nil (x : List Char) : Equip.full [] x = true ↔ x = [] := by cases x <;> simp [Equip.full]

theorem full_cons (c : Equip.Cls) (s : List Equip.Cls) (x : List Char) :
    Equip.full (c :: s) x = true ↔ ∃ y t, x = y :: t ∧ y ∈ c ∧ Equip.full s t = true := by
  cases x <;> simp [Equip.full]

theorem full_chars (l : List Char) (s : List Equip.Cls) (x : List Char) :
    Equip.full (l.map (fun c => [c]) ++ s) x = true ↔ ∃ t, x = l ++ t ∧ Equip.full s t = true := by
  induction l generalizing x with
  | nil => simp
  | cons c l ih =>
    rw [List.map_cons, List.cons_append, full_cons]
    constructor
    · rintro ⟨y, t, rfl, hy, ht⟩
      obtain ⟨u, rfl, hu⟩ := (ih t).1 ht
      rw [List.mem_singleton] at hy
      exact ⟨u, by rw [hy]; rfl, hu⟩
    · rintro ⟨t, rfl, ht⟩
      exact ⟨c, l ++ t, rfl, by simp, (ih _).2 ⟨t, rfl, ht⟩⟩

theorem full_lit (w : String) (x : List Char) : Equip.full (Equip.lit w) x = true ↔ x = w.toList := by
  have := full_chars w.toList [] x
  rw [List.append_nil] at this
  unfold Equip.lit
  rw [this]
  constructor
  · rintro ⟨t, rfl, ht⟩
    rw [(full_nil t).1 ht, List.append_nil]
  · rintro rfl
    exact ⟨[], by simp, rfl⟩

theorem full_lit_append (w : String) (s : List Equip.Cls) (x : List Char) :
    Equip.full (Equip.lit w ++ s) x = true ↔ ∃ t, x = w.toList ++ t ∧ Equip.full s t = true := full_chars _ _ _

theorem supported_iff (b : Equip.Builtin) (m : Str) : (Equip.builtinModels b).any (Equip.full · m) = true ↔ Supported b m := by
  cases b with
  | mso4000 =>
    have three : ∀ (s : List Equip.Cls) (x : List Char), Equip.full (Equip.dig :: Equip.dig :: Equip.dig :: s) x = true ↔
        ∃ a b c t, x = a :: b :: c :: t ∧ a ∈ Equip.dig ∧ b ∈ Equip.dig ∧ c ∈ Equip.dig ∧ Equip.full s t = true := by
      intro s x
      constructor
      · intro h
        obtain ⟨a, t, rfl, ha, h⟩ := (full_cons _ _ _).1 h
        obtain ⟨b, t, rfl, hb, h⟩ := (full_cons _ _ _).1 h
        obtain ⟨c, t, rfl, hc, h⟩ := (full_cons _ _ _).1 h
        exact ⟨a, b, c, t, rfl, ha, hb, hc, h⟩
      · rintro ⟨a, b, c, t, rfl, ha, hb, hc, h⟩
        exact (full_cons _ _ _).2 ⟨a, _, rfl, ha, (full_cons _ _ _).2 ⟨b, _, rfl, hb, (full_cons _ _ _).2 ⟨c, _, rfl, hc, h⟩⟩⟩
    constructor
    · intro h
      obtain ⟨s, hs, hf⟩ := List.any_eq_true.1 h
      simp only [Equip.builtinModels, Equip.driver4000, List.mem_cons, List.not_mem_nil, or_false] at hs
      rcases hs with rfl | rfl | rfl | rfl | rfl | rfl
      · rw [List.append_assoc, full_lit_append] at hf
        obtain ⟨t, rfl, hf⟩ := hf
        rw [List.cons_append, full_cons] at hf
        obtain ⟨y, t, rfl, hy, hf⟩ := hf
        simp only [List.cons_append, List.nil_append, three, full_lit] at hf
        obtain ⟨a, b, c, t, rfl, ha, hb, hc, rfl⟩ := hf
        simp only [List.mem_cons, List.not_mem_nil, or_false] at hy
        rcases hy with rfl | rfl
        · exact .mso4000 "MDO3" a b c "B" (by simp) ha hb hc (by simp)
        · exact .mso4000 "MDO4" a b c "B" (by simp) ha hb hc (by simp)
      · rw [full_lit_append] at hf
        obtain ⟨t, rfl, hf⟩ := hf
        rw [full_cons] at hf
        obtain ⟨y, t, rfl, hy, hf⟩ := hf
        simp only [three, full_nil] at hf
        obtain ⟨a, b, c, t, rfl, ha, hb, hc, rfl⟩ := hf
        simp only [List.mem_cons, List.not_mem_nil, or_false] at hy
        rcases hy with rfl | rfl
        · exact .mso4000 "MDO3" a b c "" (by simp) ha hb hc (by simp)
        · exact .mso4000 "MDO4" a b c "" (by simp) ha hb hc (by simp)
      · rw [List.append_assoc, full_lit_append] at hf
        obtain ⟨t, rfl, hf⟩ := hf
        simp only [List.cons_append, List.nil_append, three, full_lit] at hf
        obtain ⟨a, b, c, t, rfl, ha, hb, hc, rfl⟩ := hf
        exact .mso4000 "MSO4" a b c "B" (by simp) ha hb hc (by simp)
      · rw [full_lit_append] at hf
        obtain ⟨t, rfl, hf⟩ := hf
        simp only [three, full_nil] at hf
        obtain ⟨a, b, c, t, rfl, ha, hb, hc, rfl⟩ := hf
        exact .mso4000 "MSO4" a b c "" (by simp) ha hb hc (by simp)
      · rw [List.append_assoc, full_lit_append] at hf
        obtain ⟨t, rfl, hf⟩ := hf
        simp only [List.cons_append, List.nil_append, three, full_lit] at hf
        obtain ⟨a, b, c, t, rfl, ha, hb, hc, rfl⟩ := hf
        exact .mso4000 "DPO4" a b c "B" (by simp) ha hb hc (by simp)
      · rw [full_lit_append] at hf
        obtain ⟨t, rfl, hf⟩ := hf
        simp only [three, full_nil] at hf
        obtain ⟨a, b, c, t, rfl, ha, hb, hc, rfl⟩ := hf
        exact .mso4000 "DPO4" a b c "" (by simp) ha hb hc (by simp)
    · intro h
      cases h with
      | mso4000 p a b c s hp ha hb hc hs =>
        rw [List.any_eq_true]
        have fin : ∀ pre : List Equip.Cls, Equip.full (pre ++ [Equip.dig, Equip.dig, Equip.dig] ++ Equip.lit s)
            (p.toList ++ [a, b, c] ++ s.toList) = true ∨ Equip.full pre p.toList = false := by
          intro pre
          by_cases h : Equip.full pre p.toList = true
          · left
            have gen : ∀ (pre : List Equip.Cls) (q : List Char), Equip.full pre q = true →
                Equip.full (pre ++ ([Equip.dig, Equip.dig, Equip.dig] ++ Equip.lit s)) (q ++ ([a, b, c] ++ s.toList)) = true := by
              intro pre
              induction pre with
              | nil =>
                intro q hq
                rw [(full_nil q).1 hq]
                exact (three _ _).2 ⟨a, b, c, _, rfl, ha, hb, hc, (full_lit _ _).2 rfl⟩
              | cons x pre ih =>
                intro q hq
                obtain ⟨y, t, rfl, hy, ht⟩ := (full_cons _ _ _).1 hq
                exact (full_cons _ _ _).2 ⟨y, _, rfl, hy, ih t ht⟩
            rw [List.append_assoc, List.append_assoc]
            exact gen pre _ h
          · right
            simpa using h
        have pick : ∃ pre : List Equip.Cls, Equip.full pre p.toList = true ∧
            (pre ++ [Equip.dig, Equip.dig, Equip.dig] ++ Equip.lit s) ∈ Equip.builtinModels .mso4000 := by
          simp only [List.mem_cons, List.not_mem_nil, or_false] at hp hs
          rcases hp with rfl | rfl | rfl | rfl <;> rcases hs with rfl | rfl
          · exact ⟨Equip.lit "MDO" ++ [['3', '4']], by decide +kernel, by decide +kernel⟩
          · exact ⟨Equip.lit "MDO" ++ [['3', '4']], by decide +kernel, by decide +kernel⟩
          · exact ⟨Equip.lit "MDO" ++ [['3', '4']], by decide +kernel, by decide +kernel⟩
          · exact ⟨Equip.lit "MDO" ++ [['3', '4']], by decide +kernel, by decide +kernel⟩
          · exact ⟨Equip.lit "MSO4", by decide +kernel, by decide +kernel⟩
          · exact ⟨Equip.lit "MSO4", by decide +kernel, by decide +kernel⟩
          · exact ⟨Equip.lit "DPO4", by decide +kernel, by decide +kernel⟩
          · exact ⟨Equip.lit "DPO4", by decide +kernel, by decide +kernel⟩
        obtain ⟨pre, hpre, hmem⟩ := pick
        refine ⟨_, hmem, ?_⟩
        rcases fin pre with h | h
        · exact h
        · rw [hpre] at h
          exact absurd h (by decide)
  | mso456 =>
    constructor
    · intro h
      obtain ⟨s, hs, hf⟩ := List.any_eq_true.1 h
      simp only [Equip.builtinModels, Equip.driver456] at hs
      obtain ⟨w, hw, rfl⟩ := List.mem_map.1 hs
      rw [(full_lit w m).1 hf]
      refine .mso456 w ?_
      simp only [List.mem_cons, List.not_mem_nil, or_false] at hw ⊢
      tauto
    · intro h
      cases h with
      | mso456 w hw =>
        rw [List.any_eq_true]
        refine ⟨Equip.lit w, ?_, (full_lit w _).2 rfl⟩
        simp only [Equip.builtinModels, Equip.driver456]
        refine List.mem_map.2 ⟨w, ?_, rfl⟩
        simp only [List.mem_cons, List.not_mem_nil, or_false] at hw ⊢
        tauto

theorem noComma (b : Equip.Builtin) (m : Str) (h : Supported b m) : ',' ∉ m := by
  cases h with
  | mso4000 p x y z s hp hx hy hz hs =>
    have hd : ∀ c ∈ "0123456789".toList, ',' ≠ c := by decide +kernel
    simp only [List.mem_append, List.mem_cons, List.not_mem_nil, or_false, not_or]
    refine ⟨⟨?_, hd _ hx, hd _ hy, hd _ hz⟩, ?_⟩
    · revert p
      decide +kernel
    · revert s
      decide +kernel
  | mso456 m hm =>
    revert m
    decide +kernel

theorem takeWhile_comma (m : Str) (hm : ',' ∉ m) : m.takeWhile (· ≠ ',') = m := by
  induction m with
  | nil => rfl
  | cons x m ih =>
    rw [List.mem_cons, not_or] at hm
    rw [List.takeWhile_cons, if_pos (by simpa using fun h => hm.1 h.symm), ih hm.2]

theorem accepts (b : Equip.Builtin) (id : Str) : (Known b id → Equip.driverAccepts (Equip.builtinModels b) id = .ok ()) ∧
    (¬ Known b id → Equip.driverAccepts (Equip.builtinModels b) id = .error .valueError) := by
  constructor
  · rintro ⟨m, hm, _, h⟩
    have hf : Equip.modelField id = some m := by
      rcases h with rfl | ⟨rest, rfl⟩
      · unfold Equip.modelField
        have : ("TEKTRONIX,".toList ++ m).dropWhile (· ≠ ',') = ',' :: m := by simp [List.dropWhile]
        rw [this]
        simp only
        rw [takeWhile_comma m (noComma b m hm)]
      · exact Verif.Props.Equipment.modelField_spec m rest (noComma b m hm)
    have hp : "TEKTRONIX,".toList.isPrefixOf id = true := by
      rw [List.isPrefixOf_iff_prefix]
      rcases h with rfl | ⟨rest, rfl⟩
      · exact List.prefix_append _ _
      · rw [List.append_assoc]
        exact List.prefix_append _ _
    unfold Equip.driverAccepts
    rw [if_pos hp, hf]
    simp only
    rw [if_pos ((supported_iff b m).2 hm)]
  · intro h
    unfold Equip.driverAccepts
    split
    · rename_i hp
      obtain ⟨t, rfl⟩ := List.isPrefixOf_iff_prefix.1 hp
      have hd : ("TEKTRONIX,".toList ++ t).dropWhile (· ≠ ',') = ',' :: t := by simp [List.dropWhile]
      have hf : Equip.modelField ("TEKTRONIX,".toList ++ t) = some (t.takeWhile (· ≠ ',')) := by
        unfold Equip.modelField
        rw [hd]
      rw [hf]
      simp only
      rw [if_neg]
      intro hs
      rw [supported_iff] at hs
      refine h ⟨_, hs, noComma b _ hs, ?_⟩
      rcases hr : t.dropWhile (· ≠ ',') with _ | ⟨x, rest⟩
      · left
        have := List.takeWhile_append_dropWhile (p := (· ≠ ',')) (l := t)
        rw [hr, List.append_nil] at this
        rw [this]
      · right
        have hx : x = ',' := by
          have := List.head_dropWhile_not (p := (· ≠ ',')) (l := t) (by rw [hr]; simp)
          simp only [hr, List.head_cons] at this
          simpa using this
        subst hx
        refine ⟨rest, ?_⟩
        have := List.takeWhile_append_dropWhile (p := (· ≠ ',')) (l := t)
        rw [hr] at this
        rw [List.append_assoc, this]
    · rfl

theorem nameOf_model (id m : Str) (h : IdModel id m) : nameOf id = lit "TEKTRONIX-" ++ m := by
  obtain ⟨hm, h⟩ := h
  have hT : splitOn ',' "TEKTRONIX".toList = ["TEKTRONIX".toList] := by decide +kernel
  have e : ∀ t : Str, "TEKTRONIX,".toList ++ t = "TEKTRONIX".toList ++ ',' :: t := fun _ => rfl
  unfold nameOf
  rcases h with rfl | ⟨rest, rfl⟩
  · rw [e, splitOn_append, hT, splitOn_no ',' m hm]
    simp [List.intercalate]
    rfl
  · rw [List.append_assoc, e, splitOn_append, splitOn_append, hT, splitOn_no ',' m hm]
    simp [List.intercalate]
    rfl

/-! ### Execution -/

/-- Execution from a history. -/
def exec' {α : Type} (m : M α) (h : List Ev) : Except PyErr α × List Ev := m.run.run h

theorem exec_bind {α β : Type} (x : M α) (f : α → M β) (h : List Ev) :
    exec' (x >>= f) h = match exec' x h with
      | (.ok a, h') => exec' (f a) h'
      | (.error e, h') => (.error e, h') := by
  unfold exec'
  simp only [bind, StateT.bind, ExceptT.bind, ExceptT.run, ExceptT.mk, ExceptT.bindCont, StateT.run]
  generalize (x : StateT (List Ev) Id (Except PyErr α)) h = y
  rcases y with ⟨_ | _, _⟩ <;> rfl

theorem exec_ask (r : Instrument) (m : Str) (h : List Ev) : exec' (ask r m) h = (.ok (strip (r (h ++ [.ask m]))), h ++ [.ask m]) := rfl

theorem exec_send (m : Str) (h : List Ev) : exec' (send m) h = (.ok (), h ++ [.send m]) := rfl

theorem exec_lift {α : Type} (x : Except PyErr α) (h : List Ev) : exec' (lift x) h = (x, h) := by cases x <;> rfl

theorem exec_pure {α : Type} (a : α) (h : List Ev) : exec' (pure a : M α) h = (.ok a, h) := rfl

theorem exec_4000 (r : Instrument) (name : Str) : exec (init4000 r name) =
    match Equip.driverAccepts (Equip.builtinModels .mso4000) (answer r trace4000 0) with
    | .error e => (.error e, trace4000.take 1)
    | .ok () =>
      match pyInt (answer r trace4000 3) with
      | .error e => (.error e, trace4000.take 4)
      | .ok n =>
        match pyInt (answer r trace4000 4) with
        | .error e => (.error e, trace4000.take 5)
        | .ok k =>
          match pyFloat (answer r trace4000 6) with
          | .error e => (.error e, trace4000)
          | .ok bw => (.ok ⟨.mso4000, (List.range' 1 n.toNat).map analog, (List.range k.toNat).map digital, !(answer r trace4000 5).isEmpty,
              if name = [] then nameOf (answer r trace4000 0) else name, bw⟩, trace4000) := by
  change exec' (init4000 r name) [] = _
  unfold init4000 identify
  simp only [bind_assoc, exec_bind, exec_ask, exec_send, exec_lift, exec_pure, pure_bind]
  unfold answer trace4000
  simp only [List.take, List.nil_append, List.cons_append]
  generalize Equip.driverAccepts _ _ = x
  cases x with
  | error e => rfl
  | ok u =>
    simp only [List.cons_append, List.nil_append]
    generalize pyInt _ = x
    cases x with
    | error e => rfl
    | ok n =>
      simp only [List.cons_append, List.nil_append]
      generalize pyInt _ = x
      cases x with
      | error e => rfl
      | ok k =>
        simp only [List.cons_append, List.nil_append]
        generalize pyFloat _ = x
        cases x <;> rfl

theorem exec_456 (r : Instrument) (name : Str) : exec (init456 r name) =
    match Equip.driverAccepts (Equip.builtinModels .mso456) (answer r trace456 0) with
    | .error e => (.error e, trace456.take 1)
    | .ok () =>
      match parseTree (answer r trace456 3) with
      | .error e => (.error e, trace456.take 4)
      | .ok t =>
        match displayed t with
        | .error e => (.error e, trace456.take 4)
        | .ok is =>
          match pyFloat (answer r trace456 5) with
          | .error e => (.error e, trace456)
          | .ok bw => (.ok ⟨.mso456, is.map analog, [], false, if name = [] then nameOf (answer r trace456 0) else name, bw⟩, trace456) := by
  change exec' (init456 r name) [] = _
  unfold init456 identify
  simp only [bind_assoc, exec_bind, exec_ask, exec_send, exec_lift, exec_pure, pure_bind]
  unfold answer trace456
  simp only [List.take, List.nil_append, List.cons_append]
  generalize Equip.driverAccepts _ _ = x
  cases x with
  | error e => rfl
  | ok u =>
    simp only [List.cons_append, List.nil_append]
    generalize parseTree _ = x
    cases x with
    | error e => rfl
    | ok n =>
      simp only [List.cons_append, List.nil_append]
      generalize displayed _ = x
      cases x with
      | error e => rfl
      | ok k =>
        simp only [List.cons_append, List.nil_append]
        generalize pyFloat _ = x
        cases x <;> rfl

/-! ### C73 -/

/-- **C73**: an instrument that identifies otherwise leads to ValueError, and all it ever receives is the question for its identity. -/
theorem C73_unknown (r : Instrument) (name : Str) :
    (¬ Known .mso4000 (strip (r [.ask (lit "*IDN?")])) → exec (init4000 r name) = (.error .valueError, [.ask (lit "*IDN?")])) ∧
    (¬ Known .mso456 (strip (r [.ask (lit "*IDN?")])) → exec (init456 r name) = (.error .valueError, [.ask (lit "*IDN?")])) := by
  constructor
  · intro h
    rw [exec_4000, show answer r trace4000 0 = strip (r [.ask (lit "*IDN?")]) from rfl, (accepts _ _).2 h]
    rfl
  · intro h
    rw [exec_456, show answer r trace456 0 = strip (r [.ask (lit "*IDN?")]) from rfl, (accepts _ _).2 h]
    rfl

theorem lookup_map (l : List ℕ) (f : ℕ → ℕ × Str) (hf : ∀ i, (f i).1 = i) (i : ℤ) :
    (∀ k : ℕ, (k : ℤ) = i → k ∈ l → lookup (l.map f) i = .ok (f k).2) ∧ ((∀ k ∈ l, (k : ℤ) ≠ i) → lookup (l.map f) i = .error .keyError) := by
  have hfind : (l.map f).find? (fun p => (p.1 : ℤ) == i) = (l.find? fun k : ℕ => (k : ℤ) == i).map f := by
    rw [List.find?_map]
    congr 2
    funext x
    simp [Function.comp, hf]
  unfold lookup
  rw [hfind]
  constructor
  · intro k hk hm
    obtain ⟨x, hx⟩ : ∃ x, (l.find? fun k : ℕ => (k : ℤ) == i) = some x := by
      rw [← Option.isSome_iff_exists, List.find?_isSome]
      exact ⟨k, hm, by simp [hk]⟩
    have hxi := List.find?_some hx
    have : x = k := by
      have : (x : ℤ) = i := by simpa using hxi
      omega
    rw [hx, this]
    rfl
  · intro h
    rw [List.find?_eq_none.2 (by simpa using h)]
    rfl

/-- **C73 (3000/4000 series)**: construction succeeds if the replies are numbers; the channels are those announced by the instrument, with the
names CH1... and D0..., and any other index is a KeyError.  The bandwidth is the one announced, the name the given one or that of the instrument. -/
theorem C73_4000 (r : Instrument) (name : Str) (n k : ℤ) (bw : ℚ) (hid : Known .mso4000 (answer r trace4000 0))
    (hn : pyInt (answer r trace4000 3) = .ok n) (hk : pyInt (answer r trace4000 4) = .ok k) (hb : pyFloat (answer r trace4000 6) = .ok bw) :
    ∃ b, exec (init4000 r name) = (.ok b, trace4000) ∧ b.maxBandwidth = bw ∧ (name ≠ [] → b.name = name) ∧
      (name = [] → ∃ m, IdModel (answer r trace4000 0) m ∧ b.name = lit "TEKTRONIX-" ++ m) ∧
      (∀ i : ℤ, (1 ≤ i ∧ i ≤ n → b.ch i = .ok (lit "CH" ++ fmtInt i)) ∧ (¬ (1 ≤ i ∧ i ≤ n) → b.ch i = .error .keyError)) ∧
      (∀ i : ℤ, (0 ≤ i ∧ i < k → b.d i = .ok (lit "D" ++ fmtInt i)) ∧ (¬ (0 ≤ i ∧ i < k) → b.d i = .error .keyError)) := by
  rw [exec_4000, (accepts _ _).1 hid, hn, hk, hb]
  refine ⟨_, rfl, rfl, ?_, ?_, ?_, ?_⟩
  · intro h
    exact if_neg h
  · intro h
    obtain ⟨m, _, hm⟩ := hid
    exact ⟨m, hm, (if_pos h).trans (nameOf_model _ m hm)⟩
  · intro i
    obtain ⟨h1, h2⟩ := lookup_map (List.range' 1 n.toNat) analog (fun _ => rfl) i
    refine ⟨fun hi => ?_, fun hi => ?_⟩
    · obtain ⟨m, rfl⟩ := Int.eq_ofNat_of_zero_le (by omega : 0 ≤ i)
      refine (h1 m rfl (by rw [List.mem_range'_1]; omega)).trans ?_
      unfold analog fmtInt
      rw [if_neg (by simp)]
      rfl
    · refine h2 fun m hm => ?_
      rw [List.mem_range'_1] at hm
      omega
  · intro i
    obtain ⟨h1, h2⟩ := lookup_map (List.range k.toNat) digital (fun _ => rfl) i
    refine ⟨fun hi => ?_, fun hi => ?_⟩
    · obtain ⟨m, rfl⟩ := Int.eq_ofNat_of_zero_le (by omega : 0 ≤ i)
      refine (h1 m rfl (by rw [List.mem_range]; omega)).trans ?_
      unfold digital fmtInt
      rw [if_neg (by simp)]
      rfl
    · refine h2 fun m hm => ?_
      rw [List.mem_range] at hm
      omega

/-- **C73 (4/5/6 series)**: if the reply to `DISPLAY?` is a well formed settings stream with some entry below DISPLAY:GLOBAL, the channels are
those that have an entry below DISPLAY:GLOBAL:CH<digit>; any other index is a KeyError. -/
theorem C73_456 (r : Instrument) (name : Str) (cs : List Props.Scpi.Cmd) (m : ℕ) (bw : ℚ) (hid : Known .mso456 (answer r trace456 0)) (hs : Sendable cs m)
    (hfree : (entries cs).Pairwise fun a b => ¬ a.1 <+: b.1 ∧ ¬ b.1 <+: a.1)
    (hd : answer r trace456 3 = render cs ++ List.replicate m ';')
    (hg : ∃ e ∈ entries cs, [lit "DISPLAY", lit "GLOBAL"] <+: e.1 ∧ [lit "DISPLAY", lit "GLOBAL"] ≠ e.1)
    (hb : pyFloat (answer r trace456 5) = .ok bw) :
    ∃ b, exec (init456 r name) = (.ok b, trace456) ∧ b.maxBandwidth = bw ∧ (name ≠ [] → b.name = name) ∧
      (name = [] → ∃ m, IdModel (answer r trace456 0) m ∧ b.name = lit "TEKTRONIX-" ++ m) ∧
      (∀ i : ℤ,
        ((0 ≤ i ∧ i ≤ 9) ∧ (∃ e ∈ entries cs, [lit "DISPLAY", lit "GLOBAL", lit "CH" ++ fmtInt i] <+: e.1) → b.ch i = .ok (lit "CH" ++ fmtInt i)) ∧
        (¬ ((0 ≤ i ∧ i ≤ 9) ∧ ∃ e ∈ entries cs, [lit "DISPLAY", lit "GLOBAL", lit "CH" ++ fmtInt i] <+: e.1) → b.ch i = .error .keyError)) ∧
      (∀ i : ℤ, b.d i = .error .keyError) := by
  obtain ⟨t, ht, h1, h2, h3⟩ := C24_round_trip (V := Unit) cs m hs hfree
  have hp : parseTree (answer r trace456 3) = .ok t.tree := by
    unfold parseTree
    rw [hd, ht]
  obtain ⟨e, he, hpre, hne⟩ := hg
  have hdir1 : t.tree [lit "DISPLAY"] = some .dir := by
    refine h2 _ ⟨e, he, ?_, ?_⟩
    · exact List.IsPrefix.trans (by simp) hpre
    · intro h
      have := hpre.length_le
      rw [← h] at this
      simp at this
  have hdir2 : t.tree [lit "DISPLAY", lit "GLOBAL"] = some .dir := h2 _ ⟨e, he, hpre, hne⟩
  have hdisp : displayed t.tree = .ok ((List.range 10).filter fun i =>
      (t.tree [lit "DISPLAY", lit "GLOBAL", lit "CH" ++ digitsText 1 i]).isSome) := by
    unfold displayed
    rw [hdir1]
    simp only
    rw [hdir2]
  have hsome : ∀ q : List Str, q ≠ [] → ((t.tree q).isSome = true ↔ ∃ e ∈ entries cs, q <+: e.1) := by
    intro q hq
    constructor
    · intro h
      by_contra hn
      push Not at hn
      rw [h3 q hq hn] at h
      simp at h
    · rintro ⟨e, he, hqe⟩
      by_cases heq : q = e.1
      · rw [heq, h1 e he]
        rfl
      · rw [h2 q ⟨e, he, hqe, heq⟩]
        rfl
  rw [exec_456, (accepts _ _).1 hid, hp]
  simp only
  rw [hdisp, hb]
  refine ⟨_, rfl, rfl, ?_, ?_, ?_, ?_⟩
  · intro h
    exact if_neg h
  · intro h
    obtain ⟨m, _, hm⟩ := hid
    exact ⟨m, hm, (if_pos h).trans (nameOf_model _ m hm)⟩
  · intro i
    obtain ⟨k1, k2⟩ := lookup_map ((List.range 10).filter fun i =>
      (t.tree [lit "DISPLAY", lit "GLOBAL", lit "CH" ++ digitsText 1 i]).isSome) analog (fun _ => rfl) i
    have hfmt : ∀ m : ℕ, fmtInt (m : ℤ) = digitsText 1 m := by
      intro m
      unfold fmtInt
      rw [if_neg (by simp)]
      rfl
    refine ⟨fun hi => ?_, fun hi => ?_⟩
    · obtain ⟨⟨hi1, hi2⟩, hi3⟩ := hi
      obtain ⟨m, rfl⟩ := Int.eq_ofNat_of_zero_le hi1
      refine (k1 m rfl ?_).trans ?_
      · rw [List.mem_filter, List.mem_range]
        refine ⟨by omega, ?_⟩
        rw [hsome _ (by simp)]
        rwa [← hfmt]
      · rw [hfmt]
        rfl
    · refine k2 fun m hm hmi => ?_
      rw [List.mem_filter, List.mem_range, hsome _ (by simp)] at hm
      refine hi ⟨by omega, ?_⟩
      rw [← hmi, hfmt]
      exact hm.2
  · intro i
    rfl

/-- **C73 (4/5/6 series)**: without such an entry the construction fails, having sent nothing but the first questions: with KeyError if there is no
entry below DISPLAY or below DISPLAY none of GLOBAL, with TypeError if DISPLAY has a value itself; only if DISPLAY:GLOBAL has a value itself there is
an oscilloscope without channels. -/
theorem C73_456_errors (r : Instrument) (name : Str) (cs : List Props.Scpi.Cmd) (m : ℕ) (hid : Known .mso456 (answer r trace456 0)) (hs : Sendable cs m)
    (hfree : (entries cs).Pairwise fun a b => ¬ a.1 <+: b.1 ∧ ¬ b.1 <+: a.1)
    (hd : answer r trace456 3 = render cs ++ List.replicate m ';') :
    ((∀ e ∈ entries cs, ¬ [lit "DISPLAY"] <+: e.1) → exec (init456 r name) = (.error .keyError, trace456.take 4)) ∧
    ((∃ e ∈ entries cs, e.1 = [lit "DISPLAY"]) → exec (init456 r name) = (.error .typeError, trace456.take 4)) ∧
    ((∀ e ∈ entries cs, e.1 ≠ [lit "DISPLAY"]) → (∀ e ∈ entries cs, ¬ [lit "DISPLAY", lit "GLOBAL"] <+: e.1) →
      exec (init456 r name) = (.error .keyError, trace456.take 4)) ∧
    ((∃ e ∈ entries cs, e.1 = [lit "DISPLAY", lit "GLOBAL"]) → ∀ bw, pyFloat (answer r trace456 5) = .ok bw →
      ∃ b, exec (init456 r name) = (.ok b, trace456) ∧ ∀ i : ℤ, b.ch i = .error .keyError) := by
  obtain ⟨t, ht, h1, h2, h3⟩ := C24_round_trip (V := Unit) cs m hs hfree
  have hp : parseTree (answer r trace456 3) = .ok t.tree := by
    unfold parseTree
    rw [hd, ht]
  rw [exec_456, (accepts _ _).1 hid, hp]
  simp only
  have hnone : (∀ e ∈ entries cs, ¬ [lit "DISPLAY"] <+: e.1) → displayed t.tree = .error .keyError := by
    intro h
    unfold displayed
    rw [h3 _ (by simp) h]
  refine ⟨?_, ?_, ?_, ?_⟩
  · intro h
    rw [hnone h]
  · rintro ⟨e, he, h⟩
    have : displayed t.tree = .error .typeError := by
      unfold displayed
      rw [← h, h1 e he]
    rw [this]
  · intro hv hg
    by_cases h : ∀ e ∈ entries cs, ¬ [lit "DISPLAY"] <+: e.1
    · rw [hnone h]
    · push Not at h
      obtain ⟨e, he, hpre⟩ := h
      have : displayed t.tree = .error .keyError := by
        unfold displayed
        rw [h2 _ ⟨e, he, hpre, (hv e he).symm⟩]
        simp only
        rw [h3 _ (by simp) hg]
      rw [this]
  · rintro ⟨e, he, h⟩ bw hb
    have : displayed t.tree = .ok [] := by
      unfold displayed
      rw [h2 [lit "DISPLAY"] ⟨e, he, by rw [h]; simp, by rw [h]; simp⟩]
      simp only
      rw [← h, h1 e he]
    rw [this, hb]
    refine ⟨_, rfl, ?_⟩
    intro i
    rfl

/-- The last header setting the instrument received is off. -/
def HeaderOff (h : List Ev) : Prop := ∃ a b, h = a ++ .send (lit "HEADER OFF") :: b ∧ .send (lit "HEADER ON") ∉ b

/-- **C73, headers (partial)**: whatever the instrument replies, the 4000 family leaves it with headers off once it is identified; the 4/5/6 series
does so if the construction succeeds.  Missing: a construction that fails, see `C73_header_fails`. -/
theorem C73_header_partial (r : Instrument) (name : Str) :
    (Known .mso4000 (answer r trace4000 0) → HeaderOff (exec (init4000 r name)).2) ∧
    (∀ b h, exec (init456 r name) = (.ok b, h) → HeaderOff h) := by
  constructor
  · intro h
    have key : ∀ n, 2 ≤ n → HeaderOff (trace4000.take n) := by
      intro n hn
      obtain ⟨k, rfl⟩ := Nat.exists_eq_add_of_le hn
      refine ⟨[.ask (lit "*IDN?")], (trace4000.drop 2).take k, ?_, ?_⟩
      · rw [Nat.add_comm]
        rfl
      · intro hm
        have := List.mem_of_mem_take hm
        revert this
        decide +kernel
    rw [exec_4000, (accepts _ _).1 h]
    simp only
    split
    · exact key 4 (by omega)
    · split
      · exact key 5 (by omega)
      · split
        · exact key 7 (by omega)
        · exact key 7 (by omega)
  · intro b h hb
    rw [exec_456] at hb
    have : h = trace456 := by
      revert hb
      split
      · intro hb; simp at hb
      · split
        · intro hb; simp at hb
        · split
          · intro hb; simp at hb
          · split
            · intro hb; simp at hb
            · intro hb
              exact (Prod.mk.inj hb).2.symm
    rw [this]
    exact ⟨_, _, show trace456 = trace456.take 4 ++ .send (lit "HEADER OFF") :: trace456.drop 5 from rfl, by decide +kernel⟩

/-- A 4 series instrument with channels 1 and 3. -/
def exScope : Instrument := fun h =>
  if h.getLast? = some (.ask (lit "*IDN?")) then lit "TEKTRONIX,MSO44,C012345,FV:1.28\n"
  else if h.getLast? = some (.ask (lit "DISPLAY?")) then lit ":DISPLAY:GLOBAL:CH1:STATE 1;:DISPLAY:GLOBAL:CH3:STATE 0;:DISPLAY:COLOR NORMAL\n"
  else lit "200E6"

/-- Its display settings. -/
def exDisplay : List Props.Scpi.Cmd :=
  [⟨true, [lit "DISPLAY", lit "GLOBAL", lit "CH1", lit "STATE"], lit "1"⟩, ⟨true, [lit "DISPLAY", lit "GLOBAL", lit "CH3", lit "STATE"], lit "0"⟩,
    ⟨true, [lit "DISPLAY", lit "COLOR"], lit "NORMAL"⟩]

/-- The hypotheses of `C73_456` hold for this instrument. -/
example : Known .mso456 (answer exScope trace456 0) ∧ Sendable exDisplay 0 ∧
    ((entries exDisplay).Pairwise fun a b => ¬ a.1 <+: b.1 ∧ ¬ b.1 <+: a.1) ∧
    answer exScope trace456 3 = render exDisplay ++ List.replicate 0 ';' ∧
    (∃ e ∈ entries exDisplay, [lit "DISPLAY", lit "GLOBAL"] <+: e.1 ∧ [lit "DISPLAY", lit "GLOBAL"] ≠ e.1) ∧
    pyFloat (answer exScope trace456 5) = .ok 200000000 := by
  refine ⟨⟨lit "MSO44", .mso456 "MSO44" (by simp), by decide +kernel, .inr ⟨lit "C012345,FV:1.28", by decide +kernel⟩⟩,
    ⟨by decide, ?_, by decide +kernel⟩, by decide +kernel, by decide +kernel, by decide +kernel, by decide +kernel⟩
  intro c hc
  simp only [exDisplay, List.mem_cons, List.not_mem_nil, or_false] at hc
  rcases hc with rfl | rfl | rfl
  all_goals
    refine ⟨by decide, ?_, quoted_of_scan _ (by decide +kernel) (by decide +kernel), by decide +kernel⟩
    unfold KeyOk
    decide +kernel

/-- Its channels. -/
example : exec (init456 exScope []) =
    (.ok ⟨.mso456, [(1, lit "CH1"), (3, lit "CH3")], [], false, lit "TEKTRONIX-MSO44", 200000000⟩, trace456) := by decide +kernel

/-- A 4000 series instrument with two analog and sixteen digital channels. -/
def exScope4000 : Instrument := fun h =>
  if h.getLast? = some (.ask (lit "*IDN?")) then lit "TEKTRONIX,MSO4032,C012345,FV:1.28\n"
  else if h.getLast? = some (.ask (lit "CONFIGURATION:ANALOG:NUMCHANNELS?")) then lit "2\n"
  else if h.getLast? = some (.ask (lit "CONFIGURATION:DIGITAL:NUMCHANNELS?")) then lit "16\n"
  else lit "350.0E6\n"

/-- The hypotheses of `C73_4000` hold for this instrument. -/
example : Known .mso4000 (answer exScope4000 trace4000 0) ∧ pyInt (answer exScope4000 trace4000 3) = .ok 2 ∧
    pyInt (answer exScope4000 trace4000 4) = .ok 16 ∧ pyFloat (answer exScope4000 trace4000 6) = .ok 350000000 :=
  ⟨⟨lit "MSO4032", .mso4000 "MSO4" '0' '3' '2' "" (by simp) (by decide +kernel) (by decide +kernel) (by decide +kernel) (by simp), by decide +kernel,
    .inr ⟨lit "C012345,FV:1.28", by decide +kernel⟩⟩, by decide +kernel, by decide +kernel, by decide +kernel⟩

/-- An instrument of another maker is not touched (`C73_unknown`). -/
example : ¬ Known .mso4000 (lit "KEYSIGHT,MSO4032") := by
  rintro ⟨m, _, _, h⟩
  rcases h with h | ⟨rest, h⟩
  · exact absurd (congrArg List.head? h) (by simp [lit])
  · exact absurd (congrArg List.head? h) (by simp [lit])

/-- The same instrument, whose display has no global settings. -/
def exMute : Instrument := fun h =>
  if h.getLast? = some (.ask (lit "*IDN?")) then lit "TEKTRONIX,MSO44,C012345,FV:1.28"
  else if h.getLast? = some (.ask (lit "DISPLAY?")) then lit ":DISPLAY:COLOR NORMAL"
  else lit "200E6"

/-- An instrument whose display has nothing but one value of the key `k`, and its reply. -/
def exValue (k : List Str) : Instrument := fun h =>
  if h.getLast? = some (.ask (lit "*IDN?")) then lit "TEKTRONIX,MSO44,C012345,FV:1.28"
  else if h.getLast? = some (.ask (lit "DISPLAY?")) then render [⟨true, k, lit "1"⟩]
  else lit "200E6"

/-- The hypotheses of `C73_456_errors` hold for these instruments, one for each of the errors and one without channels. -/
example : ∀ k ∈ [[lit "COLOR"], [lit "DISPLAY"], [lit "DISPLAY", lit "COLOR"], [lit "DISPLAY", lit "GLOBAL"]],
    Known .mso456 (answer (exValue k) trace456 0) ∧ Sendable [⟨true, k, lit "1"⟩] 0 ∧
    ((entries [⟨true, k, lit "1"⟩]).Pairwise fun a b => ¬ a.1 <+: b.1 ∧ ¬ b.1 <+: a.1) ∧
    answer (exValue k) trace456 3 = render [⟨true, k, lit "1"⟩] ++ List.replicate 0 ';' ∧ pyFloat (answer (exValue k) trace456 5) = .ok 200000000 := by
  intro k hk
  simp only [List.mem_cons, List.not_mem_nil, or_false] at hk
  rcases hk with rfl | rfl | rfl | rfl
  all_goals
    refine ⟨⟨lit "MSO44", .mso456 "MSO44" (by simp), by decide +kernel, .inr ⟨lit "C012345,FV:1.28", by decide +kernel⟩⟩,
      ⟨by decide, ?_, by decide +kernel⟩, by decide +kernel, by decide +kernel, by decide +kernel⟩
    intro c hc
    rw [List.mem_singleton] at hc
    subst hc
    refine ⟨by decide, ?_, quoted_of_scan _ (by decide +kernel) (by decide +kernel), by decide +kernel⟩
    unfold KeyOk
    decide +kernel

/-- **C73, headers**: a 4/5/6 series construction that fails on the reply to `DISPLAY?` leaves the headers on. -/
theorem C73_header_fails : ∃ r : Instrument, Known .mso456 (answer r trace456 0) ∧
    exec (init456 r []) = (.error .keyError, trace456.take 4) ∧ ¬ HeaderOff (trace456.take 4) := by
  refine ⟨exMute, ?_, ?_, ?_⟩
  · exact ⟨lit "MSO44", .mso456 "MSO44" (by simp), by decide +kernel, .inr ⟨lit "C012345,FV:1.28", by decide +kernel⟩⟩
  · decide +kernel
  · rintro ⟨a, b, h, _⟩
    have : Ev.send (lit "HEADER OFF") ∈ trace456.take 4 := by
      rw [h]
      simp
    revert this
    decide +kernel

end Verif.Props.ScopeInit
