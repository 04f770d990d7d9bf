import Verif.Props.Pam2Vertical
import Verif.Props.EyeImage

/-!
C60: where the clock edges come from.
-/

namespace Verif.Props.Pam2Clock

open Verif Verif.Lines Verif.Eye Verif.Pam2 Verif.Props.EyeMask

/-! ### Specification -/

/-- Not after; nan is last. -/
def Before (a b : Option ℚ) : Prop := b = none ∨ ∃ x y, a = some x ∧ b = some y ∧ x ≤ y

/-- The edges of the configured polarity. -/
def Selected (rising falling : List (Option ℚ)) : Polarity → List (Option ℚ) → Prop
  | .rising, l => l = rising
  | .falling, l => l = falling
  | .both, l => l.Perm (rising ++ falling) ∧ l.Pairwise Before

theorem sort_spec (l : List (Option ℚ)) : (sortNan l).Perm l ∧ (sortNan l).Pairwise Before := by
  refine ⟨List.mergeSort_perm _ _, ?_⟩
  have := List.pairwise_mergeSort (le := fun a b : Option ℚ => match a, b with
    | some x, some y => decide (x ≤ y)
    | some _, none => true
    | none, some _ => false
    | none, none => true) (by
      rintro (_ | a) (_ | b) (_ | c) h1 h2 <;> simp_all
      exact h1.trans h2) (by
      rintro (_ | a) (_ | b) <;> simp
      exact le_total a b) l
  refine this.imp ?_
  rintro (_ | a) (_ | b) h
  · exact Or.inl rfl
  · simp at h
  · exact Or.inl rfl
  · exact Or.inr ⟨a, b, rfl, rfl, by simpa using h⟩

theorem selected_spec (r f : List (Option ℚ)) (p : Polarity) : Selected r f p (filterPolarity (r, f) p) := by
  cases p
  · rfl
  · rfl
  · exact sort_spec _

theorem mapM_all {α β : Type} (f : α → Except PyErr β) (l : List α) (r : List β) (h : l.mapM f = .ok r) :
    List.Forall₂ (fun a b => f a = .ok b) l r := by
  induction l generalizing r with
  | nil =>
    rw [List.mapM_nil] at h
    obtain rfl : [] = r := Except.ok.inj h
    exact .nil
  | cons a l ih =>
    rw [List.mapM_cons] at h
    cases ha : f a with
    | error e => rw [ha] at h; cases h
    | ok b =>
      cases hl : l.mapM f with
      | error e => rw [ha, hl] at h; cases h
      | ok bs =>
        rw [ha, hl] at h
        obtain rfl : b :: bs = r := Except.ok.inj h
        exact .cons ha (ih bs hl)

/-! ### C60 -/

/-- C60: given edges are used as they are, whatever else there is. -/
theorem C60_given (e : List (List (Option ℚ))) (clocks : Option (List Wave)) (wfs : List Wave) (l : Levels ℚ) (p : Polarity)
    (cdr : List (Option ℚ) → Except PyErr (List (Option ℚ))) (period : Option ℚ) : clockEdges (some e) clocks wfs l p cdr period = .ok e := rfl

/-- C60: without given edges those of the clock waveforms, of the configured polarity, one list per clock. -/
theorem C60_clock (clocks : List Wave) (wfs : List Wave) (l : Levels ℚ) (p : Polarity)
    (cdr : List (Option ℚ) → Except PyErr (List (Option ℚ))) (period : Option ℚ) (r : List (List (Option ℚ)))
    (h : clockEdges none (some clocks) wfs l p cdr period = .ok r) :
    List.Forall₂ (fun w e => ∃ rf, edgesNp w.1 w.2 l.rising l.half l.falling = .ok rf ∧ Selected rf.1 rf.2 p e) clocks r := by
  refine (mapM_all _ _ _ h).imp ?_
  intro w e he
  unfold selectedEdges at he
  cases hr : edgesNp w.1 w.2 l.rising l.half l.falling with
  | error x => rw [hr] at he; cases he
  | ok rf =>
    rw [hr] at he
    obtain rfl : filterPolarity rf p = e := Except.ok.inj he
    exact ⟨rf, rfl, selected_spec rf.1 rf.2 p⟩

/-- C60: without clocks, the edges of the waveforms of the configured polarity go to the clock recovery, whose result is used; unless the waveform
is flat. -/
theorem C60_recovery (wfs : List Wave) (l : Levels ℚ) (p : Polarity) (cdr : List (Option ℚ) → Except PyErr (List (Option ℚ))) (period : Option ℚ)
    (hs : l.lowSnr = false) (r : List (List (Option ℚ))) (h : clockEdges none none wfs l p cdr period = .ok r) :
    List.Forall₂ (fun w e => ∃ rf d, edgesNp w.1 w.2 l.rising l.half l.falling = .ok rf ∧ Selected rf.1 rf.2 p d ∧ cdr d = .ok e) wfs r := by
  unfold clockEdges at h
  simp only [hs, Bool.false_eq_true, if_false] at h
  refine (mapM_all _ _ _ h).imp ?_
  intro w e he
  unfold selectedEdges at he
  cases hr : edgesNp w.1 w.2 l.rising l.half l.falling with
  | error x => rw [hr] at he; cases he
  | ok rf =>
    rw [hr] at he
    exact ⟨rf, filterPolarity rf p, rfl, selected_spec rf.1 rf.2 p, he⟩

/-- C60: a flat waveform gets edges at whole periods (see C56), the recovery is not used; without a period it is an error. -/
theorem C60_fallback (wfs : List Wave) (l : Levels ℚ) (p : Polarity) (cdr : List (Option ℚ) → Except PyErr (List (Option ℚ))) (hs : l.lowSnr = true) :
    (∀ period, (∀ w ∈ wfs, w.1 ≠ []) → 0 < period → ∃ r, clockEdges none none wfs l p cdr (some period) = .ok r ∧
      List.Forall₂ (fun (w : Wave) e => ∀ first last, w.1.head? = some first → w.1.getLast? = some last →
        (∀ (k : ℕ) (h : k < e.length), e[k] = some (first + (k + 1) * period)) ∧
        ∀ k : ℕ, first + (k + 1) * period < last ↔ k < e.length) wfs r) ∧
    (wfs ≠ [] → clockEdges none none wfs l p cdr none = .error .typeError) := by
  constructor
  · intro period hw hp
    unfold clockEdges
    simp only [hs, if_true]
    induction wfs with
    | nil => exact ⟨[], rfl, .nil⟩
    | cons w wfs ih =>
      obtain ⟨r, h1, h2⟩ := ih fun x hx => hw x (List.mem_cons_of_mem _ hx)
      obtain ⟨first, hf⟩ : ∃ a, w.1.head? = some a := by
        cases hh : w.1.head? with
        | none => exact absurd (List.head?_eq_none_iff.1 hh) (hw w (by simp))
        | some a => exact ⟨a, rfl⟩
      obtain ⟨last, hl⟩ : ∃ a, w.1.getLast? = some a := by
        cases hh : w.1.getLast? with
        | none => exact absurd (List.getLast?_eq_none_iff.1 hh) (hw w (by simp))
        | some a => exact ⟨a, rfl⟩
      obtain ⟨e, e1, e2, e3, e4⟩ := EyeImage.C56_fallback w.1 first last period hf hl hp
      refine ⟨e.map some :: r, ?_, .cons ?_ h2⟩
      · rw [List.mapM_cons, h1, e1]
        rfl
      · intro f' l' hf' hl'
        obtain rfl : first = f' := by rw [hf] at hf'; exact Option.some.inj hf'
        obtain rfl : last = l' := by rw [hl] at hl'; exact Option.some.inj hl'
        constructor
        · intro k hk
          rw [List.length_map] at hk
          rw [List.getElem_map, e3 k hk]
        · intro k
          rw [List.length_map]
          refine ⟨e4 k, fun hk => ?_⟩
          rw [← e3 k hk]
          exact (e2 _ (List.getElem_mem hk)).2
  · intro hw
    cases wfs with
    | nil => exact absurd rfl hw
    | cons w wfs =>
      unfold clockEdges
      simp only [hs, if_true]
      rw [List.mapM_cons]
      rfl

/-- Levels of a waveform between 0 and 1. -/
def exLevels : Levels ℚ := ⟨0, 1, 1 / 2, 3 / 5, 2 / 5, false⟩

/-- A clock with two periods. -/
def exClock : Wave := ([0, 1, 2, 3, 4, 5], [0, 0, 1, 1, 0, 1])

/-- The hypotheses of the C60 theorems are met: the edges of a clock. -/
example : clockEdges none (some [exClock]) [] exLevels .falling .ok none = .ok [[some (7 / 2)]] ∧
    clockEdges none none [exClock] exLevels .rising .ok none = .ok [[some (3 / 2), some (9 / 2)]] ∧
    clockEdges none none [exClock] { exLevels with lowSnr := true } .rising .ok (some 2) = .ok [[some 2, some 4]] := by decide +kernel

/-- ... of both polarities. -/
example : Selected [some (3 / 2), some (9 / 2)] [some (7 / 2), none] .both [some (3 / 2), some (7 / 2), some (9 / 2), none] := by
  refine ⟨by decide +kernel, ?_⟩
  simp only [List.pairwise_cons, List.mem_cons, List.not_mem_nil, or_false, Before]
  norm_num

end Verif.Props.Pam2Clock
