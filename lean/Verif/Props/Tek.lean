import Verif.Props.TekSpec

/-!
C28, C29: trigger settings; C30: sample mode; C31: labels; C33: switches; C34: enumeration parsing; C58: waveform
request.
-/

namespace Verif.Props.Tek

open Verif Verif.Scpi Verif.Decimal Verif.Tek Verif.Props.Decimal

variable {f : Family} {store : Str → Str → Str}

/-! ### Reading back single settings -/

theorem form_all {v w : Str} (h : Form v w) (P : Str → Prop)
    (hp : ∀ w ∈ v :: (abbreviations.filter fun p => p.1 = v).map Prod.snd, P w) : P w := by
  apply hp
  rcases h with rfl | h
  · simp
  · apply List.mem_cons_of_mem
    rw [List.mem_map]
    exact ⟨(v, w), List.mem_filter.2 ⟨h, by simp⟩, rfl⟩

theorem get_num (hi : Ideal f store) (d : Dev) (cs : List Cmd) (hcs : ∀ c ∈ cs, Wf c.1) (h : Hdr) (hw : Wf h)
    (hn : Numeric h) (q : ℚ) (hf : final cs h = some (fmtE6 q)) :
    getNum (regs f (run f store d cs)) h = .ok (printed q) := by
  unfold getNum ask
  rw [regs_run f store d cs hcs h hw, hf]
  simp only
  rw [hi.num h hw hn q, pyFloat_fmt]

theorem get_int (hi : Ideal f store) (d : Dev) (cs : List Cmd) (hcs : ∀ c ∈ cs, Wf c.1) (h : Hdr) (hw : Wf h)
    (hn : Integer h) (n : ℤ) (hf : final cs h = some (fmtInt n)) :
    pyInt (ask (regs f (run f store d cs)) h) = .ok n := by
  unfold ask
  rw [regs_run f store d cs hcs h hw, hf]
  simp only
  rw [hi.int h hw hn n, C32_int]

theorem get_word (hi : Ideal f store) (d : Dev) (cs : List Cmd) (hcs : ∀ c ∈ cs, Wf c.1) (h : Hdr) (hw : Wf h)
    (hn : Wordy h) (v : Str) (hf : final cs h = some v)
    (hv : (v.all fun c => c ≠ ' ' && c ≠ '\t' && c ≠ '\n' && c ≠ '\r' && c ≠ '\'') = true) :
    Form v (ask (regs f (run f store d cs)) h) := by
  have hv' : ∀ c ∈ v, (c ≠ ' ' ∧ c ≠ '\t' ∧ c ≠ '\n' ∧ c ≠ '\r') ∧ c ≠ '\'' := by
    intro c hc
    have := List.all_eq_true.1 hv c hc
    simpa [and_assoc] using this
  unfold ask
  rw [regs_run f store d cs hcs h hw, hf]
  exact hi.word h hw hn v (fun c hc => (hv' c hc).1) (fun hc => (hv' _ hc).2 rfl)

/-- Two numbers agree to seven significant digits. -/
def Near (q r : ℚ) : Prop := |r - q| ≤ 5 / 10 ^ 7 * |q|

theorem near_printed (q : ℚ) : Near q (printed q) := by
  obtain ⟨r, h1, h2, -⟩ := C32_round_trip q
  rw [pyFloat_fmt] at h1
  rw [Except.ok.inj h1]
  exact h2

/-! ### Triggers -/

/-- The sources that a scope offers: all triggers of the 4000 family take the mains, the analog and digital channels and
the auxiliary input; the 4/5/6 series offer mains and auxiliary input for edges only. -/
def Available (sc : Scope) (edge : Bool) (src : Str) : Prop :=
  (∃ i ∈ sc.channels, src = lit "CH" ++ digitsText 1 i) ∨
  (sc.family = .mso4000 ∧ ((∃ i ∈ sc.digitals, src = lit "D" ++ digitsText 1 i) ∨ src = lit "LINE" ∨
    (sc.aux = true ∧ src = lit "AUX"))) ∨
  (sc.family = .mso456 ∧ edge = true ∧ (src = lit "LINE" ∨ src = lit "AUX"))

theorem available_iff (sc : Scope) (edge : Bool) (src : Str) : src ∈ sources sc edge ↔ Available sc edge src := by
  obtain ⟨f, ch, dg, aux⟩ := sc
  cases f <;> cases edge <;> cases aux <;>
    simp [sources, Available, analogSources, digitalSources, eq_comm, or_comm, or_left_comm, or_assoc]

/-- The same trigger, numbers to seven significant digits. -/
def SameTrigger : Trigger → Trigger → Prop
  | .edge s l p dc h, .edge s' l' p' dc' h' => s' = s ∧ Near l l' ∧ p' = p ∧ dc' = dc ∧ Near h h'
  | .timeout s l t p h, .timeout s' l' t' p' h' => s' = s ∧ Near l l' ∧ Near t t' ∧ p' = p ∧ Near h h'
  | .pulse s l w c pos h, .pulse s' l' w' c' pos' h' => s' = s ∧ Near l l' ∧ c' = c ∧ pos' = pos ∧ Near h h' ∧
    match w, w' with
    | .one w, .one w' => Near w w'
    | .pair a b, .pair a' b' => Near a a' ∧ Near b b'
    | _, _ => False
  | _, _ => False

/-- The triggers for which reading back is proved: an available source, an `EdgePolarity`, a comparison that the scope
knows (with limits where it needs limits); the level of the mains is not a setting of the 4/5/6 series. -/
def Supported (sc : Scope) : Trigger → Prop
  | .edge s l p _ _ => Available sc true s ∧ (∃ q, p = .val q) ∧ (sc.family = .mso456 → s = lit "LINE" → l = 0)
  | .timeout s _ _ p _ => Available sc false s ∧ ∃ q, p = .val q
  | .pulse s _ w c _ _ => Available sc false s ∧ match w with
    | .one _ => c ∈ [.val .less, .val .more, .val .equal, .val .unequal]
    | .pair _ _ => c ∈ [.val .within, .val .outside]
  | .other => False

theorem available_chars {sc : Scope} {edge : Bool} {s : Str} (h : Available sc edge s) :
    ∀ c ∈ s, c ≠ ':' ∧ c ≠ ' ' ∧ c ≠ '\t' ∧ c ≠ '\n' ∧ c ≠ '\r' ∧ c ≠ '\'' := by
  have dig : ∀ (n : ℕ), ∀ c ∈ digitsText 1 n, c ≠ ':' ∧ c ≠ ' ' ∧ c ≠ '\t' ∧ c ≠ '\n' ∧ c ≠ '\r' ∧ c ≠ '\'' := by
    intro n c hc
    have h := digitsText_dig 1 n c hc
    refine ⟨?_, ?_, ?_, ?_, ?_, ?_⟩ <;> rintro rfl <;> revert h <;> decide
  have app : ∀ (k : Str) (n : ℕ), (∀ c ∈ k, c ≠ ':' ∧ c ≠ ' ' ∧ c ≠ '\t' ∧ c ≠ '\n' ∧ c ≠ '\r' ∧ c ≠ '\'') →
      ∀ c ∈ k ++ digitsText 1 n, c ≠ ':' ∧ c ≠ ' ' ∧ c ≠ '\t' ∧ c ≠ '\n' ∧ c ≠ '\r' ∧ c ≠ '\'' := by
    intro k n hk c hc
    rcases List.mem_append.1 hc with hc | hc
    · exact hk c hc
    · exact dig n c hc
  rcases h with ⟨i, -, rfl⟩ | ⟨-, ⟨i, -, rfl⟩ | rfl | ⟨-, rfl⟩⟩ | ⟨-, -, rfl | rfl⟩
  · exact app _ i (by decide)
  · exact app _ i (by decide)
  all_goals decide

theorem levelCmd_cases (sc : Scope) {edge : Bool} {s : Str} (h : Available sc edge s) (l : ℚ) :
    (levelCmd sc s l = [(.tLevel s, fmtE6 l)] ∧ (sc.family = .mso456 → s ≠ lit "LINE" ∧ s ≠ lit "AUX")) ∨
    (sc.family = .mso456 ∧ s = lit "AUX" ∧ edge = true ∧ levelCmd sc s l = [(.tAuxLevel, fmtE6 l)]) ∨
    (sc.family = .mso456 ∧ s = lit "LINE" ∧ edge = true ∧ levelCmd sc s l = []) := by
  obtain ⟨f, ch, dg, aux⟩ := sc
  have hch : ∀ k : Str, k.all (fun c => !isDig c) = true → k ∉ analogSources ⟨f, ch, dg, aux⟩ := by
    intro k hk hm
    simp only [analogSources, List.mem_map] at hm
    obtain ⟨i, -, hi⟩ := hm
    exact (alias_ch i).ne k hk hi
  cases f with
  | mso4000 => exact Or.inl ⟨rfl, by simp⟩
  | mso456 =>
    rcases h with ⟨i, hi, rfl⟩ | ⟨h, -⟩ | ⟨-, he, rfl | rfl⟩
    · left
      have hm : lit "CH" ++ digitsText 1 i ∈ analogSources ⟨.mso456, ch, dg, aux⟩ := by
        simp only [analogSources, List.mem_map]
        exact ⟨i, hi, rfl⟩
      refine ⟨?_, fun _ => ⟨(alias_ch i).ne _ (by decide), (alias_ch i).ne _ (by decide)⟩⟩
      simp only [levelCmd]
      rw [if_pos hm]
    · simp at h
    · right; right
      refine ⟨rfl, rfl, he, ?_⟩
      simp only [levelCmd]
      rw [if_neg (hch _ (by decide)), if_neg (by decide)]
    · right; left
      refine ⟨rfl, rfl, he, ?_⟩
      simp only [levelCmd]
      rw [if_neg (hch _ (by decide))]
      simp

/-- The source that is read back. -/
theorem get_source (hi : Ideal f store) (d : Dev) (cs : List Cmd) (hcs : ∀ c ∈ cs, Wf c.1) (h : Hdr) (hw : Wf h)
    (hn : h ∈ [Hdr.edgeSource, Hdr.timeoutSource, Hdr.widthSource]) (v : Str) (hf : final cs h = some v)
    (hv : ∀ c ∈ v, c ≠ ':' ∧ c ≠ ' ' ∧ c ≠ '\t' ∧ c ≠ '\n' ∧ c ≠ '\r' ∧ c ≠ '\'') :
    ask (regs f (run f store d cs)) h = v ∨ (f = .mso456 ∧ h = .edgeSource ∧ v = lit "AUX" ∧
      ask (regs f (run f store d cs)) h = lit "AUXILIARY") := by
  unfold ask
  rw [regs_run f store d cs hcs h hw, hf]
  exact hi.source h hn v (fun c hc => ⟨(hv c hc).2.1, (hv c hc).2.2.1, (hv c hc).2.2.2.1, (hv c hc).2.2.2.2.1⟩)
    (fun hc => (hv _ hc).2.2.2.2.2 rfl)

theorem get_level (sc : Scope) (hi : Ideal sc.family store) (d : Dev) (cs : List Cmd) (hcs : ∀ c ∈ cs, Wf c.1)
    {edge : Bool} {s : Str} (h : Available sc edge s) (l : ℚ) (hl : sc.family = .mso456 → s = lit "LINE" → l = 0)
    (hf : ∀ x ∈ levelCmd sc s l, final cs x.1 = some x.2) :
    getLevel sc.family (regs sc.family (run sc.family store d cs)) s = .ok (printed l) := by
  have hws : Wf (.tLevel s) := fun c hc => ⟨(available_chars h c hc).1, (available_chars h c hc).2.1⟩
  rcases levelCmd_cases sc h l with ⟨e, hne⟩ | ⟨e1, rfl, -, e⟩ | ⟨e1, rfl, -, -⟩
  · have := get_num hi d cs hcs (.tLevel s) hws trivial l (hf (.tLevel s, fmtE6 l) (by rw [e]; simp))
    unfold getLevel
    split
    · exact this
    · rename_i hfam
      rw [if_neg (hne hfam).1, if_neg (hne hfam).2]
      exact this
  · have := get_num hi d cs hcs .tAuxLevel trivial trivial l (hf (.tAuxLevel, fmtE6 l) (by rw [e]; simp))
    unfold getLevel
    rw [e1] at this ⊢
    simp only
    rw [if_neg (by decide), if_pos trivial]
    exact this
  · rw [hl e1 rfl]
    unfold getLevel
    rw [e1]
    simp [printed]

theorem levelCmd_final (sc : Scope) (s : Str) (l : ℚ) (pre post : List Cmd)
    (hpost : ∀ c ∈ post, c.1 ≠ .tLevel s ∧ c.1 ≠ .tAuxLevel) :
    ∀ x ∈ levelCmd sc s l, final (pre ++ levelCmd sc s l ++ post) x.1 = some x.2 := by
  have hsome : ∀ (p q : List Cmd) (h : Hdr) (v : Str), final q h = some v → final (p ++ q) h = some v := by
    intro p q h v hq
    induction p with
    | nil => exact hq
    | cons c p ih => simp [final, ih]
  have hnone : ∀ (q : List Cmd) (h : Hdr), (∀ c ∈ q, c.1 ≠ h) → final q h = none := by
    intro q h hq
    induction q with
    | nil => rfl
    | cons c q ih =>
      simp [final, ih (fun x hx => hq x (by simp [hx])), hq c (by simp)]
  have h1 : ∀ (k : Hdr) (v : Str), (k = .tLevel s ∨ k = .tAuxLevel) → final ([(k, v)] ++ post) k = some v := by
    intro k v hk
    have : final post k = none := hnone post k (fun c hc => by
      rcases hk with rfl | rfl
      · exact (hpost c hc).1
      · exact (hpost c hc).2)
    simp [final, this]
  intro x hx
  rw [List.append_assoc]
  apply hsome
  have key : levelCmd sc s l = [(.tLevel s, fmtE6 l)] ∨ levelCmd sc s l = [(.tAuxLevel, fmtE6 l)] ∨
      levelCmd sc s l = [] := by
    unfold levelCmd
    split
    · exact Or.inl rfl
    · split
      · exact Or.inl rfl
      · split
        · exact Or.inr (Or.inl rfl)
        · exact Or.inr (Or.inr rfl)
  rcases key with e | e | e <;> rw [e] at hx ⊢
  · rw [List.mem_singleton] at hx; subst hx; exact h1 _ _ (Or.inl rfl)
  · rw [List.mem_singleton] at hx; subst hx; exact h1 _ _ (Or.inr rfl)
  · simp at hx

theorem levelCmd_hdr (sc : Scope) (s : Str) (l : ℚ) : ∀ x ∈ levelCmd sc s l, x.1 = .tLevel s ∨ x.1 = .tAuxLevel := by
  intro x hx
  unfold levelCmd at hx
  split at hx
  · rw [List.mem_singleton] at hx; subst hx; exact Or.inl rfl
  · split at hx
    · rw [List.mem_singleton] at hx; subst hx; exact Or.inl rfl
    · split at hx
      · rw [List.mem_singleton] at hx; subst hx; exact Or.inr rfl
      · simp at hx

theorem final_append (p q : List Cmd) (h : Hdr) : final (p ++ q) h = (final q h).or (final p h) := by
  induction p with
  | nil => rw [List.nil_append]; cases final q h <;> rfl
  | cons c p ih =>
    simp only [List.cons_append, final, ih]
    cases final q h <;> simp

theorem final_level (sc : Scope) (s : Str) (l : ℚ) (h : Hdr) (h1 : h ≠ .tLevel s) (h2 : h ≠ .tAuxLevel) :
    final (levelCmd sc s l) h = none := by
  unfold levelCmd
  split
  · simp [final, h1.symm]
  · split
    · simp [final, h1.symm]
    · split
      · simp [final, h2.symm]
      · rfl

/-- The words for an edge polarity, family_mso4000.py:333-337. -/
theorem edge_slope (p : Polarity) : ∃ w, edgeSlopeText (.val p) = .ok w ∧
    (w.all fun c => c ≠ ' ' && c ≠ '\t' && c ≠ '\n' && c ≠ '\r' && c ≠ '\'') = true ∧
    ∀ v, Form w v → parsePolarity v = .val p := by
  cases p
  · exact ⟨lit "RISE", rfl, by decide, fun v hv => form_all hv (fun v => parsePolarity v = .val .rising) (by decide)⟩
  · exact ⟨lit "FALL", rfl, by decide, fun v hv => form_all hv (fun v => parsePolarity v = .val .falling) (by decide)⟩
  · exact ⟨lit "EITHER", rfl, by decide, fun v hv => form_all hv (fun v => parsePolarity v = .val .both) (by decide)⟩

theorem timeout_slope (p : Polarity) : ∃ w, timeoutSlopeText (.val p) = .ok w ∧
    (w.all fun c => c ≠ ' ' && c ≠ '\t' && c ≠ '\n' && c ≠ '\r' && c ≠ '\'') = true ∧
    ∀ v, Form w v → parsePolarity v = .val p := by
  cases p
  · exact ⟨lit "STAYSHIGH", rfl, by decide,
      fun v hv => form_all hv (fun v => parsePolarity v = .val .rising) (by decide)⟩
  · exact ⟨lit "STAYSLOW", rfl, by decide,
      fun v hv => form_all hv (fun v => parsePolarity v = .val .falling) (by decide)⟩
  · exact ⟨lit "EITHER", rfl, by decide, fun v hv => form_all hv (fun v => parsePolarity v = .val .both) (by decide)⟩

theorem wf_level {sc : Scope} {edge : Bool} {s : Str} (h : Available sc edge s) (l : ℚ) :
    ∀ x ∈ levelCmd sc s l, Wf x.1 := by
  intro x hx
  rcases levelCmd_hdr sc s l x hx with e | e <;> rw [e]
  · exact fun c hc => ⟨(available_chars h c hc).1, (available_chars h c hc).2.1⟩
  · trivial

theorem edge_back (sc : Scope) (hi : Ideal sc.family store) (d : Dev) (s : Str) (l : ℚ) (p : Polarity) (dc : Bool)
    (hold : ℚ) (ha : Available sc true s) (hl : sc.family = .mso456 → s = lit "LINE" → l = 0) :
    (setTrigger sc (.edge s l (.val p) dc hold)).2 = .ok () ∧
    getTrigger sc (regs sc.family (run sc.family store d (setTrigger sc (.edge s l (.val p) dc hold)).1)) =
      .ok (some (.edge s (printed l) (.val p) dc (printed hold))) := by
  obtain ⟨w, hw1, hw2, hw3⟩ := edge_slope p
  obtain ⟨cw, hcw, hcw2, hcw3⟩ : ∃ cw, couplingText sc.family dc = cw ∧
      (cw.all fun c => c ≠ ' ' && c ≠ '\t' && c ≠ '\n' && c ≠ '\r' && c ≠ '\'') = true ∧
      ∀ v, Form cw v → decide (v = lit "DC") = dc := by
    refine ⟨_, rfl, ?_⟩
    generalize sc.family = fam
    cases dc
    · cases fam
      · exact ⟨by decide, fun v hv => form_all hv (fun v => decide (v = lit "DC") = false) (by decide)⟩
      · exact ⟨by decide, fun v hv => form_all hv (fun v => decide (v = lit "DC") = false) (by decide)⟩
    · have : couplingText fam true = lit "DC" := rfl
      rw [this]
      exact ⟨by decide, fun v hv => form_all hv (fun v => decide (v = lit "DC") = true) (by decide)⟩
  have hset : setTrigger sc (.edge s l (.val p) dc hold) =
      ([(.tType, lit "EDGE"), (.edgeSource, s)] ++ levelCmd sc s l ++
        [(.edgeSlope, w), (.edgeCoupling, cw), (.tHoldoff, fmtE6 hold)], .ok ()) := by
    simp only [setTrigger]
    rw [if_neg (by rw [not_not]; exact (available_iff sc true s).2 ha), hw1]
    simp only [hcw]
    simp [seqOut, holdoffOut]
  rw [hset]
  refine ⟨rfl, ?_⟩
  simp only
  set cs : List Cmd := [(.tType, lit "EDGE"), (.edgeSource, s)] ++ levelCmd sc s l ++
        [(.edgeSlope, w), (.edgeCoupling, cw), (.tHoldoff, fmtE6 hold)] with hcs
  have hwf : ∀ c ∈ cs, Wf c.1 := by
    intro c hc
    rw [hcs, List.mem_append, List.mem_append] at hc
    rcases hc with (hc | hc) | hc
    · simp only [List.mem_cons, List.not_mem_nil, or_false] at hc
      rcases hc with rfl | rfl <;> trivial
    · exact wf_level ha l c hc
    · simp only [List.mem_cons, List.not_mem_nil, or_false] at hc
      rcases hc with rfl | rfl | rfl <;> trivial
  have fin : ∀ h : Hdr, h ≠ .tLevel s → h ≠ .tAuxLevel → final cs h =
      final [(.tType, lit "EDGE"), (.edgeSource, s), (.edgeSlope, w), (.edgeCoupling, cw), (.tHoldoff, fmtE6 hold)] h := by
    intro h h1 h2
    rw [hcs, final_append, final_append, final_level sc s l h h1 h2]
    rw [show ([(.tType, lit "EDGE"), (.edgeSource, s), (.edgeSlope, w), (.edgeCoupling, cw),
      (.tHoldoff, fmtE6 hold)] : List Cmd) = [(.tType, lit "EDGE"), (.edgeSource, s)] ++
        [(.edgeSlope, w), (.edgeCoupling, cw), (.tHoldoff, fmtE6 hold)] from rfl, final_append]
    rfl
  have g1 := get_word hi d cs hwf .tType trivial trivial (lit "EDGE")
    (by rw [fin _ (by simp) (by simp)]; simp [final]) (by decide)
  have g2 := get_num hi d cs hwf .tHoldoff trivial trivial hold (by rw [fin _ (by simp) (by simp)]; simp [final])
  have g3 := get_word hi d cs hwf .edgeSlope trivial trivial w (by rw [fin _ (by simp) (by simp)]; simp [final]) hw2
  have g4 := get_word hi d cs hwf .edgeCoupling trivial trivial cw
    (by rw [fin _ (by simp) (by simp)]; simp [final]) hcw2
  have g5 := get_source hi d cs hwf .edgeSource trivial (by simp) s
    (by rw [fin _ (by simp) (by simp)]; simp [final]) (available_chars ha)
  have g6 := get_level sc hi d cs hwf ha l hl (levelCmd_final sc s l _ _ (by
    intro c hc
    simp only [List.mem_cons, List.not_mem_nil, or_false] at hc
    rcases hc with rfl | rfl | rfl <;> exact ⟨by simp, by simp⟩))
  set r := regs sc.family (run sc.family store d cs) with hr
  have htype : ask r .tType ∈ [lit "EDG", lit "EDGE"] :=
    form_all g1 (fun v => v ∈ [lit "EDG", lit "EDGE"]) (by decide)
  have hedge : getEdge sc.family r (printed hold) = .ok (.edge s (printed l) (.val p) dc (printed hold)) := by
    unfold getEdge
    have hsrc : edgeSrc sc.family (ask r .edgeSource) = s := by
      unfold edgeSrc
      rcases g5 with g5 | ⟨hfam, -, rfl, g5⟩
      · rw [g5]
        cases hfam : sc.family with
        | mso4000 => rfl
        | mso456 =>
          simp only
          rw [if_neg]
          rintro rfl
          rcases ha with ⟨i, -, hh⟩ | ⟨hh, -⟩ | ⟨-, -, hh | hh⟩
          · exact (alias_ch i).ne (lit "AUXILIARY") (by decide) hh.symm
          · rw [hfam] at hh; simp at hh
          · exact absurd hh (by decide)
          · exact absurd hh (by decide)
      · rw [hfam, g5]; simp
    simp only [hsrc]
    rw [g6]
    simp only [bind, Except.bind, pure, Except.pure]
    rw [hw3 _ g3, hcw3 _ g4]
  unfold getTrigger
  simp only [bind, Except.bind, pure, Except.pure]
  rw [g2]
  simp only
  rw [if_pos htype, hedge]

theorem final_skip (sc : Scope) (s : Str) (l : ℚ) (pre post : List Cmd) (h : Hdr) (h1 : h ≠ .tLevel s)
    (h2 : h ≠ .tAuxLevel) : final (pre ++ levelCmd sc s l ++ post) h = final (pre ++ post) h := by
  rw [final_append, final_append, final_level sc s l h h1 h2, final_append]
  rfl

theorem wf_all (sc : Scope) {edge : Bool} {s : Str} (ha : Available sc edge s) (l : ℚ) (pre post : List Cmd)
    (h1 : ∀ c ∈ pre, Wf c.1) (h2 : ∀ c ∈ post, Wf c.1) : ∀ c ∈ pre ++ levelCmd sc s l ++ post, Wf c.1 := by
  intro c hc
  rw [List.mem_append, List.mem_append] at hc
  rcases hc with (hc | hc) | hc
  · exact h1 c hc
  · exact wf_level ha l c hc
  · exact h2 c hc

/-- The type of trigger that is read back. -/
theorem get_kind (sc : Scope) (hi : Ideal sc.family store) (d : Dev) (cs : List Cmd) (hcs : ∀ c ∈ cs, Wf c.1) (hold : ℚ)
    (hh : final cs .tHoldoff = some (fmtE6 hold)) :
    ((∀ c ∈ timeoutHead sc.family, final cs c.1 = some c.2) →
      getTrigger sc (regs sc.family (run sc.family store d cs)) =
        (getTimeout sc.family (regs sc.family (run sc.family store d cs)) (printed hold)).map some) ∧
    ((∀ c ∈ widthHead sc.family, final cs c.1 = some c.2) →
      getTrigger sc (regs sc.family (run sc.family store d cs)) =
        (getPulse sc.family (regs sc.family (run sc.family store d cs)) (printed hold)).map some) := by
  have g2 := get_num hi d cs hcs .tHoldoff trivial trivial hold hh
  obtain ⟨fam, ch, dg, aux⟩ := sc
  simp only at hi g2 ⊢
  set r := regs fam (run fam store d cs) with hr
  have word : ∀ (h : Hdr), Wf h → Wordy h → ∀ v, final cs h = some v →
      (v.all fun c => c ≠ ' ' && c ≠ '\t' && c ≠ '\n' && c ≠ '\r' && c ≠ '\'') = true → Form v (ask r h) :=
    fun h hw hn v hf hv => get_word hi d cs hcs h hw hn v hf hv
  constructor
  · intro hf
    unfold getTrigger
    simp only [bind, Except.bind, pure, Except.pure]
    rw [g2]
    simp only
    cases fam with
    | mso4000 =>
      have t1 := word .tType trivial trivial (lit "PULSE") (hf (.tType, lit "PULSE") (by simp [timeoutHead])) (by decide)
      have t2 := word .pulseClass trivial trivial (lit "TIMEOUT")
        (hf (.pulseClass, lit "TIMEOUT") (by simp [timeoutHead])) (by decide)
      have n1 : ask r .tType ∉ [lit "EDG", lit "EDGE"] := form_all t1 (fun v => v ∉ [lit "EDG", lit "EDGE"]) (by decide)
      have n2 : ask r .tType ∈ [lit "PULS", lit "PULSE"] :=
        form_all t1 (fun v => v ∈ [lit "PULS", lit "PULSE"]) (by decide)
      have n3 : ask r .pulseClass ∈ [lit "TIMEO", lit "TIMEOUT"] :=
        form_all t2 (fun v => v ∈ [lit "TIMEO", lit "TIMEOUT"]) (by decide)
      rw [if_neg n1]
      simp only
      rw [if_pos n2, if_pos n3]
      cases getTimeout _ r (printed hold) <;> rfl
    | mso456 =>
      have t1 := word .tType trivial trivial (lit "TIMEOUT") (hf (.tType, lit "TIMEOUT") (by simp [timeoutHead]))
        (by decide)
      have n1 : ask r .tType ∉ [lit "EDG", lit "EDGE"] := form_all t1 (fun v => v ∉ [lit "EDG", lit "EDGE"]) (by decide)
      have n2 : ask r .tType ∈ [lit "TIMEO", lit "TIMEOUT"] :=
        form_all t1 (fun v => v ∈ [lit "TIMEO", lit "TIMEOUT"]) (by decide)
      rw [if_neg n1]
      simp only
      rw [if_pos n2]
      cases getTimeout _ r (printed hold) <;> rfl
  · intro hf
    unfold getTrigger
    simp only [bind, Except.bind, pure, Except.pure]
    rw [g2]
    simp only
    cases fam with
    | mso4000 =>
      have t1 := word .tType trivial trivial (lit "PULSE") (hf (.tType, lit "PULSE") (by simp [widthHead])) (by decide)
      have t2 := word .pulseClass trivial trivial (lit "WIDTH")
        (hf (.pulseClass, lit "WIDTH") (by simp [widthHead])) (by decide)
      have n1 : ask r .tType ∉ [lit "EDG", lit "EDGE"] := form_all t1 (fun v => v ∉ [lit "EDG", lit "EDGE"]) (by decide)
      have n2 : ask r .tType ∈ [lit "PULS", lit "PULSE"] :=
        form_all t1 (fun v => v ∈ [lit "PULS", lit "PULSE"]) (by decide)
      have n3 : ask r .pulseClass ∉ [lit "TIMEO", lit "TIMEOUT"] :=
        form_all t2 (fun v => v ∉ [lit "TIMEO", lit "TIMEOUT"]) (by decide)
      have n4 : ask r .pulseClass ∈ [lit "WID", lit "WIDTH"] :=
        form_all t2 (fun v => v ∈ [lit "WID", lit "WIDTH"]) (by decide)
      rw [if_neg n1]
      simp only
      rw [if_pos n2, if_neg n3, if_pos n4]
      cases getPulse _ r (printed hold) <;> rfl
    | mso456 =>
      have t1 := word .tType trivial trivial (lit "WIDTH") (hf (.tType, lit "WIDTH") (by simp [widthHead]))
        (by decide)
      have n1 : ask r .tType ∉ [lit "EDG", lit "EDGE"] := form_all t1 (fun v => v ∉ [lit "EDG", lit "EDGE"]) (by decide)
      have n2 : ask r .tType ∉ [lit "TIMEO", lit "TIMEOUT"] :=
        form_all t1 (fun v => v ∉ [lit "TIMEO", lit "TIMEOUT"]) (by decide)
      have n3 : ask r .tType ∈ [lit "WID", lit "WIDTH"] :=
        form_all t1 (fun v => v ∈ [lit "WID", lit "WIDTH"]) (by decide)
      rw [if_neg n1]
      simp only
      rw [if_neg n2, if_pos n3]
      cases getPulse _ r (printed hold) <;> rfl

theorem line_not_456 {sc : Scope} {s : Str} (ha : Available sc false s) : sc.family = .mso456 → s ≠ lit "LINE" := by
  intro hfam
  rcases ha with ⟨i, -, rfl⟩ | ⟨h, -⟩ | ⟨-, h, -⟩
  · exact (alias_ch i).ne _ (by decide)
  · rw [hfam] at h; simp at h
  · simp at h

theorem head_wf (fam : Family) : (∀ c ∈ timeoutHead fam, Wf c.1) ∧ (∀ c ∈ widthHead fam, Wf c.1) := by
  cases fam <;> constructor <;> intro c hc <;> simp [timeoutHead, widthHead] at hc <;>
    first | (rcases hc with rfl | rfl <;> trivial) | (subst hc; trivial)

theorem timeout_back (sc : Scope) (hi : Ideal sc.family store) (d : Dev) (s : Str) (l t : ℚ) (p : Polarity)
    (hold : ℚ) (ha : Available sc false s) :
    (setTrigger sc (.timeout s l t (.val p) hold)).2 = .ok () ∧
    getTrigger sc (regs sc.family (run sc.family store d (setTrigger sc (.timeout s l t (.val p) hold)).1)) =
      .ok (some (.timeout s (printed l) (printed t) (.val p) (printed hold))) := by
  obtain ⟨w, hw1, hw2, hw3⟩ := timeout_slope p
  have hset : setTrigger sc (.timeout s l t (.val p) hold) =
      ((timeoutHead sc.family ++ [(.timeoutSource, s)]) ++ levelCmd sc s l ++
        [(.timeoutTime, fmtE6 t), (.timeoutPolarity, w), (.tHoldoff, fmtE6 hold)], .ok ()) := by
    simp only [setTrigger]
    rw [if_neg (by rw [not_not]; exact (available_iff sc false s).2 ha), hw1]
    simp [seqOut, holdoffOut]
  rw [hset]
  refine ⟨rfl, ?_⟩
  simp only
  set pre : List Cmd := timeoutHead sc.family ++ [(.timeoutSource, s)] with hpre
  set post : List Cmd := [(.timeoutTime, fmtE6 t), (.timeoutPolarity, w), (.tHoldoff, fmtE6 hold)] with hpost
  have hwf := wf_all sc ha l pre post (by
    intro c hc
    rw [hpre, List.mem_append] at hc
    rcases hc with hc | hc
    · exact (head_wf _).1 c hc
    · simp at hc; subst hc; trivial) (by
    intro c hc
    simp [hpost] at hc
    rcases hc with rfl | rfl | rfl <;> trivial)
  have hlev := get_level sc hi d _ hwf ha l (fun h e => absurd e (line_not_456 ha h)) (levelCmd_final sc s l pre post (by
    intro c hc
    simp [hpost] at hc
    rcases hc with rfl | rfl | rfl <;> exact ⟨by simp, by simp⟩))
  have fin := final_skip sc s l pre post
  have hhead : ∀ c ∈ timeoutHead sc.family, final (pre ++ levelCmd sc s l ++ post) c.1 = some c.2 := by
    rw [hpre, hpost] at fin ⊢
    revert fin
    cases sc.family <;> intro fin c hc <;> simp [timeoutHead] at hc
    · rcases hc with rfl | rfl <;> rw [fin _ (by simp) (by simp)] <;> simp [timeoutHead, final]
    · subst hc; rw [fin _ (by simp) (by simp)]; simp [timeoutHead, final]
  have f1 : ∀ h v, final post h = some v → h ≠ .tLevel s → h ≠ .tAuxLevel →
      final (pre ++ levelCmd sc s l ++ post) h = some v := by
    intro h v hv h1 h2
    rw [fin h h1 h2, final_append, hv]; rfl
  have hk := (get_kind sc hi d _ hwf hold (f1 _ _ (by simp [hpost, final]) (by simp) (by simp))).1 hhead
  have hsrc := get_source hi d _ hwf .timeoutSource trivial (by simp) s
    (by rw [fin _ (by simp) (by simp), hpre, hpost, final_append, final_append]; simp [final]) (available_chars ha)
  have ht := get_num hi d _ hwf .timeoutTime trivial trivial t (f1 _ _ (by simp [hpost, final]) (by simp) (by simp))
  have hp := get_word hi d _ hwf .timeoutPolarity trivial trivial w
    (f1 _ _ (by simp [hpost, final]) (by simp) (by simp)) hw2
  rw [hk]
  unfold getTimeout
  rcases hsrc with hsrc | ⟨-, h, -⟩
  · rw [hsrc]
    simp only [bind, Except.bind, pure, Except.pure]
    rw [hlev]
    simp only
    rw [ht]
    simp only
    rw [hw3 _ hp]
    rfl
  · simp at h

theorem when_word (c : Comparison) (hc : c ∈ [Comparison.less, .more, .equal, .unequal, .within, .outside]) :
    ∃ w, whenText (.val c) = .ok w ∧
    (w.all fun c => c ≠ ' ' && c ≠ '\t' && c ≠ '\n' && c ≠ '\r' && c ≠ '\'') = true ∧
    ∀ v, Form w v → parseComparison v = .val c := by
  simp only [List.mem_cons, List.not_mem_nil, or_false] at hc
  rcases hc with rfl | rfl | rfl | rfl | rfl | rfl
  · exact ⟨lit "LESSTHAN", rfl, by decide, fun v hv => form_all hv (fun v => parseComparison v = .val .less) (by decide)⟩
  · exact ⟨lit "MORETHAN", rfl, by decide, fun v hv => form_all hv (fun v => parseComparison v = .val .more) (by decide)⟩
  · exact ⟨lit "EQUAL", rfl, by decide, fun v hv => form_all hv (fun v => parseComparison v = .val .equal) (by decide)⟩
  · exact ⟨lit "UNEQUAL", rfl, by decide,
      fun v hv => form_all hv (fun v => parseComparison v = .val .unequal) (by decide)⟩
  · exact ⟨lit "WITHIN", rfl, by decide, fun v hv => form_all hv (fun v => parseComparison v = .val .within) (by decide)⟩
  · exact ⟨lit "OUTSIDE", rfl, by decide,
      fun v hv => form_all hv (fun v => parseComparison v = .val .outside) (by decide)⟩

/-- The width that is read back. -/
def printedWidth : Width → Width
  | .one w => .one (printed w)
  | .pair a b => .pair (printed a) (printed b)

theorem pulse_back (sc : Scope) (hi : Ideal sc.family store) (d : Dev) (s : Str) (l : ℚ) (wd : Width) (c : Comparison)
    (pos : Bool) (hold : ℚ) (ha : Available sc false s)
    (hc : match wd with
      | .one _ => c ∈ [Comparison.less, .more, .equal, .unequal]
      | .pair _ _ => c ∈ [Comparison.within, .outside]) :
    (setTrigger sc (.pulse s l wd (.val c) pos hold)).2 = .ok () ∧
    getTrigger sc (regs sc.family (run sc.family store d (setTrigger sc (.pulse s l wd (.val c) pos hold)).1)) =
      .ok (some (.pulse s (printed l) (printedWidth wd) (.val c) pos (printed hold))) := by
  obtain ⟨w, hw1, hw2, hw3⟩ := when_word c (by
    cases wd <;> simp at hc ⊢ <;> tauto)
  set wc : List Cmd := (match wd with
    | .one w => [(.widthWidth, fmtE6 w)]
    | .pair a b => [(.widthLow, fmtE6 a), (.widthHigh, fmtE6 b)]) with hwc
  have hwidth : widthOut (.val c) wd = (wc, .ok ()) := by
    rw [hwc]
    cases wd <;> simp at hc
    · rcases hc with rfl | rfl | rfl | rfl <;> rfl
    · rcases hc with rfl | rfl <;> rfl
  set pw : Str := if pos then lit "POSITIVE" else lit "NEGATIVE" with hpw
  have hset : setTrigger sc (.pulse s l wd (.val c) pos hold) =
      ((widthHead sc.family ++ [(.widthSource, s)]) ++ levelCmd sc s l ++
        (wc ++ [(.widthWhen, w), (.widthPolarity, pw), (.tHoldoff, fmtE6 hold)]), .ok ()) := by
    simp only [setTrigger]
    rw [if_neg (by rw [not_not]; exact (available_iff sc false s).2 ha), hwidth]
    simp only [pulseTail, hw1]
    simp [seqOut, holdoffOut, hpw]
  rw [hset]
  refine ⟨rfl, ?_⟩
  simp only
  set pre : List Cmd := widthHead sc.family ++ [(.widthSource, s)] with hpre
  set post : List Cmd := wc ++ [(.widthWhen, w), (.widthPolarity, pw), (.tHoldoff, fmtE6 hold)] with hpost
  have hpm : ∀ x ∈ post, Wf x.1 ∧ x.1 ≠ .tLevel s ∧ x.1 ≠ .tAuxLevel := by
    intro x hx
    rw [hpost, List.mem_append] at hx
    rcases hx with hx | hx
    · rw [hwc] at hx
      cases wd <;> simp at hx
      · subst hx; exact ⟨trivial, by simp, by simp⟩
      · rcases hx with rfl | rfl <;> exact ⟨trivial, by simp, by simp⟩
    · simp at hx
      rcases hx with rfl | rfl | rfl <;> exact ⟨trivial, by simp, by simp⟩
  have hwf := wf_all sc ha l pre post (by
    intro c hc
    rw [hpre, List.mem_append] at hc
    rcases hc with hc | hc
    · exact (head_wf _).2 c hc
    · simp at hc; subst hc; trivial) (fun x hx => (hpm x hx).1)
  have hlev := get_level sc hi d _ hwf ha l (fun h e => absurd e (line_not_456 ha h))
    (levelCmd_final sc s l pre post (fun x hx => (hpm x hx).2))
  have fin := final_skip sc s l pre post
  have other : ∀ h : Hdr, h ∉ [.widthWidth, .widthLow, .widthHigh, .widthWhen, .widthPolarity, .tHoldoff] →
      final post h = none := by
    intro h hh
    rw [hpost, hwc]
    simp only [List.mem_cons, List.not_mem_nil, or_false, not_or] at hh
    obtain ⟨h1, h2, h3, h4, h5, h6⟩ := hh
    cases wd <;> simp [final, Ne.symm h1, Ne.symm h2, Ne.symm h3, Ne.symm h4, Ne.symm h5, Ne.symm h6]
  have hhead : ∀ c ∈ widthHead sc.family, final (pre ++ levelCmd sc s l ++ post) c.1 = some c.2 := by
    rw [hpre] at fin ⊢
    revert fin
    cases sc.family <;> intro fin c hc <;> simp [widthHead] at hc
    · rcases hc with rfl | rfl <;> rw [fin _ (by simp) (by simp), final_append, other _ (by simp)] <;>
        simp [widthHead, final]
    · subst hc; rw [fin _ (by simp) (by simp), final_append, other _ (by simp)]; simp [widthHead, final]
  have f1 : ∀ h v, final post h = some v → h ≠ .tLevel s → h ≠ .tAuxLevel →
      final (pre ++ levelCmd sc s l ++ post) h = some v := by
    intro h v hv h1 h2
    rw [fin h h1 h2, final_append, hv]; rfl
  have fhold : final post .tHoldoff = some (fmtE6 hold) := by
    rw [hpost, final_append]; simp [final]
  have fwhen : final post .widthWhen = some w := by
    rw [hpost, final_append]; simp [final]
  have fpol : final post .widthPolarity = some pw := by
    rw [hpost, final_append]; simp [final]
  have hk := (get_kind sc hi d _ hwf hold (f1 _ _ fhold (by simp) (by simp))).2 hhead
  have hsrc := get_source hi d _ hwf .widthSource trivial (by simp) s
    (by rw [fin _ (by simp) (by simp), final_append, other _ (by simp), hpre, final_append]; simp [final])
    (available_chars ha)
  have hwhen := get_word hi d _ hwf .widthWhen trivial trivial w (f1 _ _ fwhen (by simp) (by simp)) hw2
  have hpol := get_word hi d _ hwf .widthPolarity trivial trivial pw (f1 _ _ fpol (by simp) (by simp))
    (by rw [hpw]; cases pos <;> decide)
  have hpos : (lit "POS").isPrefixOf (upper (ask (regs sc.family (run sc.family store d
      (pre ++ levelCmd sc s l ++ post))) .widthPolarity)) = pos := by
    rw [hpw] at hpol
    cases pos
    · exact form_all hpol (fun v => (lit "POS").isPrefixOf (upper v) = false) (by decide)
    · exact form_all hpol (fun v => (lit "POS").isPrefixOf (upper v) = true) (by decide)
  rw [hk]
  unfold getPulse
  rcases hsrc with hsrc | ⟨-, h, -⟩
  · rw [hsrc]
    simp only [bind, Except.bind, pure, Except.pure]
    rw [hlev]
    simp only
    rw [hw3 _ hwhen, hpos]
    cases wd with
    | one wv =>
      have g := get_num hi d _ hwf .widthWidth trivial trivial wv
        (f1 _ _ (by rw [hpost, hwc, final_append]; simp [final]) (by simp) (by simp))
      have hr : isRange (.val c) = false := by
        simp at hc
        rcases hc with rfl | rfl | rfl | rfl <;> rfl
      rw [hr]
      simp only [Bool.false_eq_true, if_false]
      rw [g]
      rfl
    | pair a b =>
      have ga := get_num hi d _ hwf .widthLow trivial trivial a
        (f1 _ _ (by rw [hpost, hwc, final_append]; simp [final]) (by simp) (by simp))
      have gb := get_num hi d _ hwf .widthHigh trivial trivial b
        (f1 _ _ (by rw [hpost, hwc, final_append]; simp [final]) (by simp) (by simp))
      have hr : isRange (.val c) = true := by
        simp at hc
        rcases hc with rfl | rfl <;> rfl
      rw [hr]
      simp only [if_true]
      rw [ga]
      simp only
      rw [gb]
      rfl
  · simp at h

/-- **C28 (partial).** A supported trigger that is set on an ideal device, in any state, is accepted and read back as
the same trigger: type, source, slope, coupling, comparison and polarity exactly, numbers to seven significant digits.
Missing: the inclusive comparisons (`C28_inclusive_fails`) and the level of mains triggers on the 4/5/6 series
(`C28_line_level_fails`), for which the claim is false. -/
theorem C28_read_back_partial (sc : Scope) (hi : Ideal sc.family store) (d : Dev) (t : Trigger) (hs : Supported sc t) :
    (setTrigger sc t).2 = .ok () ∧
    ∃ t', getTrigger sc (regs sc.family (run sc.family store d (setTrigger sc t).1)) = .ok (some t') ∧
      SameTrigger t t' := by
  cases t with
  | edge s l p dc hold =>
    obtain ⟨ha, ⟨p, rfl⟩, hl⟩ := hs
    obtain ⟨h1, h2⟩ := edge_back sc hi d s l p dc hold ha hl
    exact ⟨h1, _, h2, rfl, near_printed l, rfl, rfl, near_printed hold⟩
  | timeout s l t p hold =>
    obtain ⟨ha, ⟨p, rfl⟩⟩ := hs
    obtain ⟨h1, h2⟩ := timeout_back sc hi d s l t p hold ha
    exact ⟨h1, _, h2, rfl, near_printed l, near_printed t, rfl, near_printed hold⟩
  | pulse s l w c pos hold =>
    obtain ⟨ha, hc⟩ := hs
    obtain ⟨c, rfl⟩ : ∃ k, c = .val k := by
      cases w <;> simp at hc
      · rcases hc with rfl | rfl | rfl | rfl <;> exact ⟨_, rfl⟩
      · rcases hc with rfl | rfl <;> exact ⟨_, rfl⟩
    obtain ⟨h1, h2⟩ := pulse_back sc hi d s l w c pos hold ha (by cases w <;> simpa using hc)
    refine ⟨h1, _, h2, rfl, near_printed l, rfl, rfl, near_printed hold, ?_⟩
    cases w
    · exact near_printed _
    · exact ⟨near_printed _, near_printed _⟩
  | other => exact absurd hs id

example : Supported ⟨.mso456, [1, 2, 3, 4], [], false⟩
    (.pulse (lit "CH3") (1 / 10) (.pair (1 / 10 ^ 6) (2 / 10 ^ 6)) (.val .within) true (2 / 10 ^ 8)) ∧
    Ideal .mso456 plainStore := by
  refine ⟨⟨Or.inl ⟨3, by decide, by decide +kernel⟩, by simp⟩, ideal_plain _⟩

example : Supported ⟨.mso4000, [1, 2], [0, 1], true⟩ (.edge (lit "D1") 1 (.val .both) false 0) ∧
    Supported ⟨.mso4000, [1, 2], [0, 1], true⟩ (.timeout (lit "LINE") 1 2 (.val .falling) 0) := by
  refine ⟨⟨Or.inr (Or.inl ⟨rfl, Or.inl ⟨1, by decide, by decide +kernel⟩⟩), ⟨_, rfl⟩, by simp⟩, ?_, ⟨_, rfl⟩⟩
  exact Or.inr (Or.inl ⟨rfl, Or.inr (Or.inl rfl)⟩)

/-- The exclusive comparison that replaces an inclusive one. -/
def exclusive : Comparison → Comparison
  | .lessEqual => .less
  | .moreEqual => .more
  | .withinInc => .within
  | .outsideInc => .outside
  | c => c

/-- **C28 fails** for the inclusive comparisons, on every device and for every source: the trigger is accepted and
read back with the exclusive comparison. -/
theorem C28_inclusive_fails (sc : Scope) (hi : Ideal sc.family store) (d : Dev) (s : Str) (l : ℚ) (w : Width)
    (c : Comparison) (pos : Bool) (hold : ℚ) (ha : Available sc false s)
    (hc : match w with
      | .one _ => c ∈ [Comparison.lessEqual, .moreEqual]
      | .pair _ _ => c ∈ [Comparison.withinInc, .outsideInc]) :
    ∃ l' w' hold', (setTrigger sc (.pulse s l w (.val c) pos hold)).2 = .ok () ∧
      getTrigger sc (regs sc.family (run sc.family store d (setTrigger sc (.pulse s l w (.val c) pos hold)).1)) =
        .ok (some (.pulse s l' w' (.val (exclusive c)) pos hold')) ∧ exclusive c ≠ c := by
  have key : setTrigger sc (.pulse s l w (.val c) pos hold) = setTrigger sc (.pulse s l w (.val (exclusive c)) pos hold) ∧
      exclusive c ≠ c := by
    cases w <;> simp at hc <;> rcases hc with rfl | rfl <;> exact ⟨rfl, by decide⟩
  obtain ⟨e, hne⟩ := key
  obtain ⟨h1, h2⟩ := pulse_back sc hi d s l w (exclusive c) pos hold ha (by
    cases w <;> simp at hc ⊢ <;> rcases hc with rfl | rfl <;> simp [exclusive])
  exact ⟨_, _, _, e ▸ h1, e ▸ h2, hne⟩

/-- **C28 fails** for the level of mains triggers on the 4/5/6 series: it is neither sent nor read back. -/
theorem C28_line_level_fails (ch dg : List ℕ) (aux : Bool) (hi : Ideal .mso456 store) (d : Dev) (l : ℚ) (p : Polarity)
    (dc : Bool) (hold : ℚ) :
    ∃ hold', (setTrigger ⟨.mso456, ch, dg, aux⟩ (.edge (lit "LINE") l (.val p) dc hold)).2 = .ok () ∧
      getTrigger ⟨.mso456, ch, dg, aux⟩ (regs .mso456 (run .mso456 store d
        (setTrigger ⟨.mso456, ch, dg, aux⟩ (.edge (lit "LINE") l (.val p) dc hold)).1)) =
        .ok (some (.edge (lit "LINE") 0 (.val p) dc hold')) := by
  have ha : Available ⟨.mso456, ch, dg, aux⟩ true (lit "LINE") := Or.inr (Or.inr ⟨rfl, rfl, Or.inl rfl⟩)
  have hlev : ∀ l, levelCmd ⟨.mso456, ch, dg, aux⟩ (lit "LINE") l = [] := by
    intro l
    rcases levelCmd_cases _ ha l with ⟨-, h⟩ | ⟨-, h, -⟩ | ⟨-, -, -, h⟩
    · exact absurd rfl (h rfl).1
    · exact absurd h (by decide)
    · exact h
  have e : setTrigger ⟨.mso456, ch, dg, aux⟩ (.edge (lit "LINE") l (.val p) dc hold) =
      setTrigger ⟨.mso456, ch, dg, aux⟩ (.edge (lit "LINE") 0 (.val p) dc hold) := by
    simp only [setTrigger, hlev]
  obtain ⟨h1, h2⟩ := edge_back ⟨.mso456, ch, dg, aux⟩ hi d (lit "LINE") 0 p dc hold ha (fun _ _ => rfl)
  refine ⟨printed hold, by rw [e]; exact h1, ?_⟩
  rw [e]
  have h0 : printed 0 = 0 := by simp [printed]
  rw [h0] at h2
  exact h2

/-! ### Rejected triggers -/

/-- A trigger that must be rejected. -/
def Rejected (sc : Scope) : Trigger → Prop
  | .edge s _ _ _ _ => ¬ Available sc true s
  | .timeout s _ _ _ _ => ¬ Available sc false s
  | .pulse s _ _ _ _ _ => ¬ Available sc false s
  | .other => True

theorem rejected_cmds (sc : Scope) (t : Trigger) (h : Rejected sc t) :
    (setTrigger sc t).2 = .error .valueError ∧ ∀ c ∈ (setTrigger sc t).1, c.1 = .tType ∨ c.1 = .pulseClass := by
  cases t with
  | edge s l p dc hold =>
    have : s ∉ sources sc true := fun hm => h ((available_iff _ _ _).1 hm)
    simp only [setTrigger, if_pos this, seqOut]
    simp
  | timeout s l t p hold =>
    have : s ∉ sources sc false := fun hm => h ((available_iff _ _ _).1 hm)
    simp only [setTrigger, if_pos this, seqOut]
    cases sc.family <;> simp [timeoutHead]
  | pulse s l w c pos hold =>
    have : s ∉ sources sc false := fun hm => h ((available_iff _ _ _).1 hm)
    simp only [setTrigger, if_pos this, seqOut]
    cases sc.family <;> simp [widthHead]
  | other => simp [setTrigger]

/-- **C29 (partial).** A trigger with an unavailable source or of unknown type raises ValueError; an unknown type sends
nothing; otherwise every setting keeps its value except possibly the trigger type and the pulse class.  Missing: these
two do change (`C29_type_fails`). -/
theorem C29_rejected_partial (sc : Scope) (d : Dev) (t : Trigger) (h : Rejected sc t) :
    (setTrigger sc t).2 = .error .valueError ∧ (t = .other → (setTrigger sc t).1 = []) ∧
    ∀ x : Str, x ≠ lit "TRIGGER:A:TYPE" → x ≠ lit "TRIGGER:A:PULSE:CLASS" →
      run sc.family store d (setTrigger sc t).1 x = d x := by
  obtain ⟨h1, h2⟩ := rejected_cmds sc t h
  refine ⟨h1, by rintro rfl; rfl, ?_⟩
  intro x hx1 hx2
  apply run_frame
  · intro c hc
    rcases h2 c hc with e | e <;> rw [e] <;> trivial
  · intro c hc e
    have ht : ∀ f, Hdr.text f .tType = lit "TRIGGER:A:TYPE" ∧ Hdr.text f .pulseClass = lit "TRIGGER:A:PULSE:CLASS" := by
      intro f; cases f <;> decide
    rcases h2 c hc with e' | e' <;> rw [e'] at e
    · exact hx1 (by rw [← e, (ht _).1])
    · exact hx2 (by rw [← e, (ht _).2])

example : Rejected ⟨.mso4000, [1, 2], [], false⟩ (.edge (lit "CH3") 0 (.val .rising) true 0) := by
  intro h
  have := (available_iff _ _ _).2 h
  revert this
  decide +kernel

/-- **C29 fails**: whatever the trigger was before, a rejected edge trigger has already switched the trigger type to
`EDGE` on both families, and a rejected timeout trigger has switched the pulse class on the 4000 family. -/
theorem C29_type_fails (sc : Scope) (d : Dev) (s : Str) (l t hold : ℚ) (p : Parsed Polarity) (dc : Bool)
    (h1 : ¬ Available sc true s) (h2 : ¬ Available sc false s) :
    ((setTrigger sc (.edge s l p dc hold)).2 = .error .valueError ∧
      run sc.family plainStore d (setTrigger sc (.edge s l p dc hold)).1 (lit "TRIGGER:A:TYPE") = lit "EDGE") ∧
    (sc.family = .mso4000 → (setTrigger sc (.timeout s l t p hold)).2 = .error .valueError ∧
      run sc.family plainStore d (setTrigger sc (.timeout s l t p hold)).1 (lit "TRIGGER:A:TYPE") = lit "PULSE" ∧
      run sc.family plainStore d (setTrigger sc (.timeout s l t p hold)).1 (lit "TRIGGER:A:PULSE:CLASS") =
        lit "TIMEOUT") := by
  have ht : ∀ f, Hdr.text f .tType = lit "TRIGGER:A:TYPE" ∧ Hdr.text f .pulseClass = lit "TRIGGER:A:PULSE:CLASS" := by
    intro f; cases f <;> decide
  have n1 : s ∉ sources sc true := fun hm => h1 ((available_iff _ _ _).1 hm)
  have n2 : s ∉ sources sc false := fun hm => h2 ((available_iff _ _ _).1 hm)
  refine ⟨?_, ?_⟩
  · have e : setTrigger sc (.edge s l p dc hold) = ([(.tType, lit "EDGE")], .error .valueError) := by
      simp only [setTrigger, if_pos n1, seqOut]; simp
    rw [e]
    refine ⟨rfl, ?_⟩
    have := regs_run sc.family plainStore d [(.tType, lit "EDGE")] (by simp [Wf]) .tType trivial
    rw [← (ht sc.family).1]
    unfold regs at this
    rw [this]
    simp [final]; rfl
  · intro hf
    have e : setTrigger sc (.timeout s l t p hold) =
        ([(.tType, lit "PULSE"), (.pulseClass, lit "TIMEOUT")], .error .valueError) := by
      simp only [setTrigger, if_pos n2, seqOut, hf, timeoutHead]; simp
    rw [e]
    have hw : ∀ c ∈ ([(.tType, lit "PULSE"), (.pulseClass, lit "TIMEOUT")] : List Cmd), Wf c.1 := by
      intro c hc; simp at hc; rcases hc with rfl | rfl <;> trivial
    have r1 := regs_run sc.family plainStore d _ hw .tType trivial
    have r2 := regs_run sc.family plainStore d _ hw .pulseClass trivial
    unfold regs at r1 r2
    refine ⟨rfl, ?_, ?_⟩
    · rw [← (ht sc.family).1, r1]; simp [final]; rfl
    · rw [← (ht sc.family).2, r2]; simp [final]; rfl

/-! ### Sample mode -/

/-- **C30.** Every sample mode that is set on an ideal device is read back; anything else raises ValueError and sends
nothing; the modes without a name are read as None. -/
theorem C30_mode (hi : Ideal f store) (d : Dev) :
    (∀ m : SampleMode, (setSampleMode (some m)).2 = .ok () ∧
      getSampleMode (regs f (run f store d (setSampleMode (some m)).1)) = some m) ∧
    setSampleMode none = ([], .error .valueError) ∧
    (∀ r : Regs, ask r .acqMode ∈ [lit "PEAKDETECT", lit "PEAK", lit "HIRES", lit "HIR"] → getSampleMode r = none) := by
  refine ⟨?_, rfl, ?_⟩
  · intro m
    cases m
    · refine ⟨rfl, ?_⟩
      have := get_word hi d [(.acqMode, lit "SAMPLE")] (by simp [Wf]) .acqMode trivial trivial (lit "SAMPLE")
        (by simp [final]) (by decide)
      simp only [setSampleMode, getSampleMode]
      exact form_all this (fun v => (if (lit "SAM").isPrefixOf v then some SampleMode.sample
        else if (lit "AVE").isPrefixOf v then some .average
        else if (lit "ENV").isPrefixOf v then some .envelope else none) = some .sample) (by decide)
    · refine ⟨rfl, ?_⟩
      have := get_word hi d [(.acqMode, lit "AVERAGE")] (by simp [Wf]) .acqMode trivial trivial (lit "AVERAGE")
        (by simp [final]) (by decide)
      simp only [setSampleMode, getSampleMode]
      exact form_all this (fun v => (if (lit "SAM").isPrefixOf v then some SampleMode.sample
        else if (lit "AVE").isPrefixOf v then some .average
        else if (lit "ENV").isPrefixOf v then some .envelope else none) = some .average) (by decide)
    · refine ⟨rfl, ?_⟩
      have := get_word hi d [(.acqMode, lit "ENVELOPE")] (by simp [Wf]) .acqMode trivial trivial (lit "ENVELOPE")
        (by simp [final]) (by decide)
      simp only [setSampleMode, getSampleMode]
      exact form_all this (fun v => (if (lit "SAM").isPrefixOf v then some SampleMode.sample
        else if (lit "AVE").isPrefixOf v then some .average
        else if (lit "ENV").isPrefixOf v then some .envelope else none) = some .envelope) (by decide)
  · intro r hr
    unfold getSampleMode
    simp only
    revert hr
    generalize ask r .acqMode = v
    revert v
    decide

theorem setN_cmds (f : Family) (n : ℤ) : (∀ c ∈ (setSampleModeN f n).1, Wf c.1) ∧
    final (setSampleModeN f n).1 .acqMode = none ∧ final (setSampleModeN f n).1 .numAvg = some (fmtInt n) ∧
    (f = .mso4000 → final (setSampleModeN f n).1 .numEnv = some (fmtInt n)) := by
  cases f
  · refine ⟨?_, by simp [setSampleModeN, final], by simp [setSampleModeN, final], by simp [setSampleModeN, final]⟩
    intro c hc
    simp [setSampleModeN] at hc
    rcases hc with rfl | rfl <;> trivial
  · refine ⟨?_, by simp [setSampleModeN, final], by simp [setSampleModeN, final], by simp⟩
    intro c hc
    simp [setSampleModeN] at hc
    subst hc; trivial

/-- **C30.** The number of acquisitions that is written is read back while averaging (and, on the 4000 family, in
envelope mode), whatever the device was doing before; it reads 1 in every other mode; writing it does not change the
mode.  The 4/5/6 series has no setting for the number of acquisitions in an envelope, there it reads 1. -/
theorem C30_count (hi : Ideal f store) (d : Dev) (n : ℤ) :
    (setSampleModeN f n).2 = .ok () ∧
    getSampleMode (regs f (run f store d (setSampleModeN f n).1)) = getSampleMode (regs f d) ∧
    getSampleModeN f (regs f (run f store d (setSampleModeN f n).1)) =
      .ok (if getSampleMode (regs f d) = some .average ∨
        (f = .mso4000 ∧ getSampleMode (regs f d) = some .envelope) then n else 1) := by
  obtain ⟨h1, h2, h3, h4⟩ := setN_cmds f n
  have hm : getSampleMode (regs f (run f store d (setSampleModeN f n).1)) = getSampleMode (regs f d) := by
    have : ask (regs f (run f store d (setSampleModeN f n).1)) .acqMode = ask (regs f d) .acqMode := by
      unfold ask
      rw [regs_run f store d _ h1 .acqMode trivial, h2]
      rfl
    unfold getSampleMode
    rw [this]
  refine ⟨by cases f <;> rfl, hm, ?_⟩
  have ga := get_int hi d _ h1 .numAvg trivial trivial n h3
  unfold getSampleModeN
  rw [hm]
  cases hmode : getSampleMode (regs f d) with
  | none => simp
  | some m =>
    cases m
    · simp
    · simpa using ga
    · cases f
      · simpa using get_int hi d _ h1 .numEnv trivial trivial n (h4 rfl)
      · simp

/-! ### Labels -/

/-- **C31.** What is sent for a label: at most 30 characters, all ASCII, being the first ASCII characters of the label,
in single quotes; characters are dropped only when they are not ASCII or come after 30 others. -/
theorem C31_sent (ch value : Str) :
    ∃ v, setLabel ch value = ([(.label ch, '\'' :: v ++ ['\''])], .ok ()) ∧ v.length ≤ 30 ∧ (∀ c ∈ v, c.toNat < 128) ∧
      v <+: value.filter (fun c => c.toNat < 128) ∧
      (v = value.filter (fun c => c.toNat < 128) ∨ v.length = 30) := by
  refine ⟨_, rfl, ?_, ?_, List.take_prefix _ _, ?_⟩
  · rw [List.length_take]; omega
  · intro c hc
    simpa using (List.mem_filter.1 (List.mem_of_mem_take hc)).2
  · by_cases h : (value.filter (fun c => c.toNat < 128)).length ≤ 30
    · left; exact List.take_of_length_le h
    · right; rw [List.length_take]; omega

/-- A string in the sense of IEEE 488.2: between quotes, a quote inside is doubled. -/
def quotedBody (q : Char) : Str → Option Str
  | [] => none
  | [c] => if c = q then some [] else none
  | c :: c' :: r =>
    if c = q then (if c' = q then (quotedBody q r).map (q :: ·) else none)
    else (quotedBody q (c' :: r)).map (c :: ·)

theorem quotedBody_plain (q : Char) (v : Str) (h : q ∉ v) : quotedBody q (v ++ [q]) = some v := by
  induction v with
  | nil => simp [quotedBody]
  | cons c v ih =>
    simp only [List.mem_cons, not_or] at h
    have hc : c ≠ q := fun e => h.1 e.symm
    have hi := ih h.2
    cases v with
    | nil => simp [quotedBody, hc]
    | cons c' v =>
      simp only [List.cons_append] at hi ⊢
      rw [quotedBody, if_neg hc, hi]
      rfl

theorem dropQuote (v : Str) (h : v.head? ≠ some '"') : v.dropWhile (· = '"') = v := by
  cases v with
  | nil => rfl
  | cons c v =>
    rw [List.dropWhile_cons_of_neg]
    simp at h ⊢
    exact h

/-- **C31 (partial: labels without apostrophe and line feed).** A label is read back as its first 30 ASCII characters,
provided these contain no apostrophe and no line feed and do not begin or end with a double quote; setting what was
read back sends the same command again.  Missing: see `C31_apostrophe_fails`. -/
theorem C31_read_back_partial (hi : Ideal f store) (d : Dev) (ch value v : Str) (ha : AliasOk ch)
    (hv : v = (value.filter (fun c => c.toNat < 128)).take 30) (h1 : '\'' ∉ v) (h2 : '\n' ∉ v)
    (h3 : v.head? ≠ some '"') (h4 : v.getLast? ≠ some '"') :
    getLabel (regs f (run f store d (setLabel ch value).1)) ch = v ∧ setLabel ch v = setLabel ch value ∧
    quotedBody '\'' (v ++ ['\'']) = some v := by
  refine ⟨?_, ?_, quotedBody_plain _ _ h1⟩
  · have hw : Wf (.label ch) := ha
    have e : (setLabel ch value).1 = [(.label ch, '\'' :: v ++ ['\''])] := by rw [hv]; rfl
    unfold getLabel ask
    rw [e, regs_run f store d _ (by intro c hc; simp at hc; subst hc; exact hw) _ hw]
    have hfin : final [(Hdr.label ch, '\'' :: v ++ ['\''])] (.label ch) = some ('\'' :: v ++ ['\'']) := by simp [final]
    rw [hfin]
    simp only
    rw [hi.text ch ha v h1 h2]
    have e1 : ('"' :: v ++ ['"']).dropWhile (· = '"') = v ++ ['"'] ∨ v = [] := by
      by_cases hn : v = []
      · exact Or.inr hn
      · left
        rw [List.cons_append, List.dropWhile_cons_of_pos (by simp)]
        cases v with
        | nil => exact absurd rfl hn
        | cons c v =>
          rw [List.cons_append, List.dropWhile_cons_of_neg]
          simp at h3 ⊢
          exact h3
    rcases e1 with e1 | e1
    · rw [e1, List.reverse_append, List.reverse_singleton, List.singleton_append,
        List.dropWhile_cons_of_pos (by simp), dropQuote _ (by rw [List.head?_reverse]; exact h4), List.reverse_reverse]
    · subst e1; rfl
  · have hall : ∀ c ∈ v, c.toNat < 128 := by
      intro c hc
      rw [hv] at hc
      simpa using (List.mem_filter.1 (List.mem_of_mem_take hc)).2
    have hf : v.filter (fun c => c.toNat < 128) = v := List.filter_eq_self.2 (by simpa using hall)
    have hlen : v.length ≤ 30 := by rw [hv, List.length_take]; omega
    unfold setLabel
    simp only
    rw [hf, ← hv, List.take_of_length_le hlen]

example : AliasOk (lit "CH1") ∧ ((lit "Clock é \"in\" line").filter (fun c => c.toNat < 128)).take 30 =
    lit "Clock  \"in\" line" := by
  exact ⟨alias_ch 1, by decide +kernel⟩

/-- **C31 fails** for labels with an apostrophe: what follows the label's header is not a string that a device can read
(the apostrophe ends it), although the label has no quote at its ends. -/
theorem C31_apostrophe_fails :
    (setLabel (lit "CH1") (lit "it's")).1.map (Cmd.text .mso4000) = [lit "CH1:LABEL 'it's'"] ∧
    quotedBody '\'' (lit "it's'") = none ∧ quotedBody '\'' (lit "it''s'") = some (lit "it's") := by decide +kernel

/-! ### Switches -/

theorem final_keep (pre post : List Cmd) (h : Hdr) (v : Str) (hp : ∀ c ∈ post, c.1 ≠ h) :
    final (pre ++ [(h, v)] ++ post) h = some v := by
  have hnone : final post h = none := by
    induction post with
    | nil => rfl
    | cons c q ih => simp [final, ih (fun x hx => hp x (by simp [hx])), hp c (by simp)]
  rw [final_append, final_append, hnone]
  simp [final]

theorem wf_mid (pre post : List Cmd) (h : Hdr) (v : Str) (hw : Wf h) (h1 : ∀ c ∈ pre, Wf c.1) (h2 : ∀ c ∈ post, Wf c.1) :
    ∀ c ∈ pre ++ [(h, v)] ++ post, Wf c.1 := by
  intro c hc
  rw [List.mem_append, List.mem_append, List.mem_singleton] at hc
  rcases hc with (hc | rfl) | hc
  · exact h1 c hc
  · exact hw
  · exact h2 c hc

/-- **C33.** After any commands `pre`, switching a channel on or off, and any commands `post` to other settings
(including the same setting of other channels), the channel reads back as it was switched. -/
theorem C33_active (hi : Ideal f store) (d : Dev) (ch : Str) (ha : AliasOk ch) (b : Bool) (pre post : List Cmd)
    (h1 : ∀ c ∈ pre, Wf c.1) (h2 : ∀ c ∈ post, Wf c.1 ∧ c.1 ≠ .active ch) :
    (setActive ch b).2 = .ok () ∧
    getActive (regs f (run f store d (pre ++ (setActive ch b).1 ++ post))) ch = b := by
  refine ⟨rfl, ?_⟩
  have hw : Wf (.active ch) := ha
  unfold getActive ask setActive
  rw [regs_run f store d _ (wf_mid pre post _ _ hw h1 (fun c hc => (h2 c hc).1)) _ hw,
    final_keep pre post _ _ (fun c hc => (h2 c hc).2)]
  simp only
  obtain ⟨s1, s0⟩ := hi.switch ch ha (.active ch) (by simp)
  cases b
  · rw [show bit false = lit "0" from rfl]
    revert s0
    generalize strip (store _ (lit "0")) = v
    revert v
    decide
  · rw [show bit true = lit "1" from rfl]
    revert s1
    generalize strip (store _ (lit "1")) = v
    revert v
    decide

/-- **C33.** The same for the coupling. -/
theorem C33_coupling (hi : Ideal f store) (d : Dev) (ch : Str) (ha : AliasOk ch) (b : Bool) (pre post : List Cmd)
    (h1 : ∀ c ∈ pre, Wf c.1) (h2 : ∀ c ∈ post, Wf c.1 ∧ c.1 ≠ .coupling ch) :
    (setCoupling ch b).2 = .ok () ∧
    getCoupling (regs f (run f store d (pre ++ (setCoupling ch b).1 ++ post))) ch = b := by
  refine ⟨rfl, ?_⟩
  have hw : Wf (.coupling ch) := ha
  unfold getCoupling
  have g := get_word hi d _ (wf_mid pre post (.coupling ch) (if b then lit "DC" else lit "AC") hw h1
    (fun c hc => (h2 c hc).1)) _ hw trivial _ (final_keep pre post _ _ (fun c hc => (h2 c hc).2))
    (by cases b <;> decide)
  unfold setCoupling
  simp only
  cases b
  · exact form_all g (fun v => decide (v = lit "DC") = false) (by decide)
  · exact form_all g (fun v => decide (v = lit "DC") = true) (by decide)

/-- **C33 fails** for `inverted`: on every device, in every state, it reads True after it was set to False (the reply
`0` or `OFF` is a non-empty text). -/
theorem C33_inverted_fails (hi : Ideal f store) (d : Dev) (ch : Str) (ha : AliasOk ch) :
    (setInverted ch false).2 = .ok () ∧ getInverted (regs f (run f store d (setInverted ch false).1)) ch = true := by
  refine ⟨rfl, ?_⟩
  have hw : Wf (.invert ch) := ha
  unfold getInverted ask setInverted
  rw [regs_run f store d _ (by intro c hc; simp at hc; subst hc; exact hw) _ hw]
  have hfin : final [(Hdr.invert ch, bit false)] (.invert ch) = some (lit "0") := by simp [final]; rfl
  rw [hfin]
  simp only
  obtain ⟨s1, s0⟩ := hi.switch ch ha (.invert ch) (by simp)
  revert s0
  generalize strip (store _ (lit "0")) = v
  revert v
  decide

/-- **C33 (partial).** `inverted` reads True after it was set to True.  Missing: False, see `C33_inverted_fails`. -/
theorem C33_inverted_partial (hi : Ideal f store) (d : Dev) (ch : Str) (ha : AliasOk ch) (pre post : List Cmd)
    (h1 : ∀ c ∈ pre, Wf c.1) (h2 : ∀ c ∈ post, Wf c.1 ∧ c.1 ≠ .invert ch) :
    getInverted (regs f (run f store d (pre ++ (setInverted ch true).1 ++ post))) ch = true := by
  have hw : Wf (.invert ch) := ha
  unfold getInverted ask setInverted
  rw [regs_run f store d _ (wf_mid pre post _ _ hw h1 (fun c hc => (h2 c hc).1)) _ hw,
    final_keep pre post _ _ (fun c hc => (h2 c hc).2)]
  simp only
  rw [show bit true = lit "1" from rfl]
  obtain ⟨s1, s0⟩ := hi.switch ch ha (.invert ch) (by simp)
  revert s1
  generalize strip (store _ (lit "1")) = v
  revert v
  decide

example : AliasOk (lit "CH1") ∧ (∀ c ∈ ([(.active (lit "CH2"), lit "0"), (.invert (lit "CH1"), lit "1")] : List Cmd),
    Wf c.1 ∧ c.1 ≠ .active (lit "CH1")) := by
  refine ⟨alias_ch 1, ?_⟩
  intro c hc
  simp at hc
  rcases hc with rfl | rfl
  · exact ⟨alias_ch 2, by decide⟩
  · exact ⟨alias_ch 1, by decide⟩

/-! ### Numeric settings -/

/-- **C32.** Every numeric channel setting reads back to seven digits, whatever was set before and whatever else is set
after. -/
theorem C32_setting (hi : Ideal f store) (d : Dev) (h : Hdr) (hw : Wf h) (hn : Numeric h) (q : ℚ) (pre post : List Cmd)
    (h1 : ∀ c ∈ pre, Wf c.1) (h2 : ∀ c ∈ post, Wf c.1 ∧ c.1 ≠ h) :
    (setNum h q).2 = .ok () ∧
    ∃ r, getNum (regs f (run f store d (pre ++ (setNum h q).1 ++ post))) h = .ok r ∧ Near q r ∧
      (setNum h r).1 = (setNum h q).1 := by
  refine ⟨rfl, printed q, ?_, near_printed q, ?_⟩
  · exact get_num hi d _ (wf_mid pre post _ _ hw h1 (fun c hc => (h2 c hc).1)) h hw hn q
      (final_keep pre post _ _ (fun c hc => (h2 c hc).2))
  · obtain ⟨r, e1, -, -, -, e2⟩ := C32_round_trip q
    rw [pyFloat_fmt] at e1
    rw [setNum, setNum, Except.ok.inj e1, e2]

/-- **C32.** The time base settings read back, the offset also when the delay mode was off before; nothing but the
setting, the horizontal mode and the delay mode changes. -/
theorem C32_time_base (hi : Ideal f store) (d : Dev) (q : ℚ) (n : ℤ) :
    ((setTimeScale f q).2 = .ok () ∧
      ∃ r, getNum (regs f (run f store d (setTimeScale f q).1)) .horScale = .ok r ∧ Near q r) ∧
    ((setTimeOffset f q).2 = .ok () ∧
      (∃ r, getNum (regs f (run f store d (setTimeOffset f q).1)) .horDelayTime = .ok r ∧ Near q r) ∧
      run f store d (setTimeOffset f q).1 (lit "HORIZONTAL:DELAY:MODE") =
        store (lit "HORIZONTAL:DELAY:MODE") (lit "ON")) ∧
    ((setTimePoints f n).2 = .ok () ∧
      pyInt (ask (regs f (run f store d (setTimePoints f n).1)) .horRecord) = .ok n) ∧
    ∀ c ∈ (setTimeScale f q).1 ++ (setTimeOffset f q).1 ++ (setTimePoints f n).1,
      c.1 ∈ [Hdr.horScale, .horDelayTime, .horRecord, .horMode, .horDelayMode] := by
  have w : ∀ l : List Cmd, (∀ c ∈ l, c.1 ∈ [Hdr.horScale, .horDelayTime, .horRecord, .horMode, .horDelayMode]) →
      ∀ c ∈ l, Wf c.1 := by
    intro l hl c hc
    have := hl c hc
    simp at this
    rcases this with e | e | e | e | e <;> rw [e] <;> trivial
  have m1 : ∀ c ∈ (setTimeScale f q).1,
      c.1 ∈ [Hdr.horScale, .horDelayTime, .horRecord, .horMode, .horDelayMode] := by
    cases f <;> simp [setTimeScale]
  have m2 : ∀ c ∈ (setTimeOffset f q).1,
      c.1 ∈ [Hdr.horScale, .horDelayTime, .horRecord, .horMode, .horDelayMode] := by
    cases f <;> simp [setTimeOffset]
  have m3 : ∀ c ∈ (setTimePoints f n).1,
      c.1 ∈ [Hdr.horScale, .horDelayTime, .horRecord, .horMode, .horDelayMode] := by
    cases f <;> simp [setTimePoints]
  refine ⟨⟨by cases f <;> rfl, printed q, ?_, near_printed q⟩, ⟨by cases f <;> rfl, ⟨printed q, ?_, near_printed q⟩, ?_⟩,
    ⟨by cases f <;> rfl, ?_⟩, ?_⟩
  · exact get_num hi d _ (w _ m1) .horScale trivial trivial q (by cases f <;> simp [setTimeScale, final])
  · exact get_num hi d _ (w _ m2) .horDelayTime trivial trivial q (by cases f <;> simp [setTimeOffset, final])
  · have e : Hdr.text f .horDelayMode = lit "HORIZONTAL:DELAY:MODE" := by cases f <;> decide
    have := regs_run f store d _ (w _ m2) .horDelayMode trivial
    rw [show final (setTimeOffset f q).1 .horDelayMode = some (lit "ON") by cases f <;> simp [setTimeOffset, final]] at this
    rw [← e]
    exact this
  · exact get_int hi d _ (w _ m3) .horRecord trivial trivial n (by cases f <;> simp [setTimePoints, final])
  · intro c hc
    simp only [List.mem_append] at hc
    rcases hc with (hc | hc) | hc
    · exact m1 c hc
    · exact m2 c hc
    · exact m3 c hc

/-- **C32.** The sample rate: the 4/5/6 series stores it; on the 3000/4000 series the time base is set so that the
present record, over ten divisions, is sampled at that rate. -/
theorem C32_sample_rate (hi : Ideal f store) (d : Dev) (v : ℚ) (hv : v ≠ 0) :
    (f = .mso456 → ∃ r, getNum (regs f (run f store d (setSampleRate f (regs f d) v).1)) .horRate = .ok r ∧ Near v r) ∧
    (f = .mso4000 → ∀ n, pyInt (ask (regs f d) .horRecord) = .ok n →
      (setSampleRate f (regs f d) v).2 = .ok () ∧
      ∃ r, getNum (regs f (run f store d (setSampleRate f (regs f d) v).1)) .horScale = .ok r ∧
        |10 * r * v - n| ≤ 5 / 10 ^ 7 * |(n : ℚ)|) := by
  constructor
  · rintro rfl
    refine ⟨printed v, ?_, near_printed v⟩
    exact get_num hi d _ (by simp [setSampleRate, Wf]) .horRate trivial trivial v (by simp [setSampleRate, final])
  · rintro rfl n hn
    have e : setSampleRate .mso4000 (regs .mso4000 d) v = ([(.horScale, fmtE6 ((n : ℚ) / v / 10))], .ok ()) := by
      unfold setSampleRate
      rw [hn]
      simp only
      rw [if_neg hv, setTimeScale]
    rw [e]
    refine ⟨rfl, printed ((n : ℚ) / v / 10), ?_, ?_⟩
    · exact get_num hi d _ (by simp [Wf]) .horScale trivial trivial _ (by simp [final])
    · have h := near_printed ((n : ℚ) / v / 10)
      unfold Near at h
      have hv' : 0 < |v| := abs_pos.2 hv
      generalize printed ((n : ℚ) / v / 10) = r at h
      have e1 : |10 * r * v - n| = 10 * |v| * |r - n / v / 10| := by
        rw [show 10 * |v| = |10 * v| by rw [abs_mul]; norm_num, ← abs_mul]
        congr 1
        field_simp
      have e2 : |(n : ℚ) / v / 10| * (10 * |v|) = |(n : ℚ)| := by
        rw [show 10 * |v| = |10 * v| by rw [abs_mul]; norm_num, ← abs_mul]
        congr 1
        field_simp
      rw [e1]
      nlinarith

example : ∃ r, getNum (regs .mso4000 (run .mso4000 plainStore (fun _ => lit "1000")
    (setSampleRate .mso4000 (regs .mso4000 (fun _ => lit "1000")) 10000).1)) .horScale = .ok r ∧
    |10 * r * 10000 - (1000 : ℤ)| ≤ 5 / 10 ^ 7 * |((1000 : ℤ) : ℚ)| :=
  ((C32_sample_rate (ideal_plain .mso4000) (fun _ => lit "1000") 10000 (by norm_num)).2 rfl 1000 (by decide +kernel)).2

/-! ### Enumeration parsing -/

theorem parseTable_spec {α : Type} [DecidableEq α] (table : List (Str × α))
    (hp : ∀ e ∈ table, ∀ e' ∈ table, shortForm e.1 <+: shortForm e'.1 → e.2 = e'.2) (v : Str) :
    (∀ a, parseTable table v = .val a ↔ ∃ e ∈ table, e.2 = a ∧ shortForm e.1 <+: v) ∧
    (parseTable table v = .text v ↔ ∀ e ∈ table, ¬ shortForm e.1 <+: v) ∧
    (∀ s, parseTable table v = .text s → s = v) := by
  unfold parseTable
  cases hf : table.find? fun e => (shortForm e.1).isPrefixOf v with
  | none =>
    rw [List.find?_eq_none] at hf
    have hf' : ∀ e ∈ table, ¬ shortForm e.1 <+: v := fun e he h => hf e he (List.isPrefixOf_iff_prefix.2 h)
    refine ⟨?_, by simpa using hf', by simp⟩
    intro a
    simp only [reduceCtorEq, false_iff, not_exists, not_and]
    intro e he _
    exact hf' e he
  | some e =>
    have hm := List.mem_of_find?_eq_some hf
    have hpre : shortForm e.1 <+: v := by
      have := List.find?_some hf
      exact List.isPrefixOf_iff_prefix.1 this
    refine ⟨?_, ?_, by simp⟩
    · intro a
      simp only [Parsed.val.injEq]
      constructor
      · rintro rfl; exact ⟨e, hm, rfl, hpre⟩
      · rintro ⟨e', he', rfl, hp'⟩
        rcases List.prefix_or_prefix_of_prefix hpre hp' with h | h
        · exact hp e hm e' he' h
        · exact (hp e' he' e hm h).symm
    · simp only [reduceCtorEq, false_iff, not_forall]
      exact ⟨e, hm, not_not.2 hpre⟩

theorem ex_map {α β : Type} (f : α → β) (l : List α) (Q : β → Prop) : (∃ e ∈ l, Q (f e)) ↔ ∃ e ∈ l.map f, Q e := by
  constructor
  · rintro ⟨e, he, h⟩; exact ⟨_, List.mem_map_of_mem he, h⟩
  · rintro ⟨_, he, h⟩
    obtain ⟨e, he', rfl⟩ := List.mem_map.1 he
    exact ⟨e, he', h⟩

/-- Some word of a list begins the text. -/
def Starts (ws : List String) (v : Str) : Prop := ∃ w ∈ ws, w.toList <+: v

instance (ws : List String) (v : Str) : Decidable (Starts ws v) := by unfold Starts; infer_instance

/-- **C34.** Exactly the texts that begin with an abbreviation of a polarity are recognised, all others are returned
untouched. -/
theorem C34_polarity (v : Str) :
    (parsePolarity v = .val .rising ↔ Starts ["RIS", "POS", "STAYSH"] v) ∧
    (parsePolarity v = .val .falling ↔ Starts ["FALL", "NEG", "STAYSL"] v) ∧
    (parsePolarity v = .val .both ↔ Starts ["EIT"] v) ∧
    (¬ Starts ["RIS", "POS", "STAYSH", "FALL", "NEG", "STAYSL", "EIT"] v → parsePolarity v = .text v) := by
  obtain ⟨h1, h2, -⟩ := parseTable_spec polarityTable (by decide +kernel) v
  have hs : polarityTable.map (fun e => (shortForm e.1, e.2)) =
      [(lit "RIS", .rising), (lit "POS", .rising), (lit "STAYSH", .rising), (lit "FALL", .falling), (lit "NEG", .falling),
       (lit "STAYSL", .falling), (lit "EIT", .both)] := by decide +kernel
  have hex : ∀ Q : Str × Polarity → Prop, (∃ e ∈ polarityTable, Q (shortForm e.1, e.2)) ↔
      ∃ e ∈ polarityTable.map (fun e => (shortForm e.1, e.2)), Q e := by
    intro Q; exact ex_map _ _ Q
  have hall : ∀ Q : Str × Polarity → Prop, (∀ e ∈ polarityTable, Q (shortForm e.1, e.2)) ↔
      ∀ e ∈ polarityTable.map (fun e => (shortForm e.1, e.2)), Q e := by
    intro Q; rw [List.forall_mem_map]
  have hval : ∀ a, parsePolarity v = .val a ↔ _ := fun a => (h1 a).trans (hex (fun e => e.2 = a ∧ e.1 <+: v))
  have htext := h2.trans (hall (fun e => ¬ e.1 <+: v))
  rw [hs] at htext
  simp only [hs] at hval
  refine ⟨(hval _).trans ?_, (hval _).trans ?_, (hval _).trans ?_, fun h => htext.2 ?_⟩
  · simp [Starts, lit]
  · simp [Starts, lit]
  · simp [Starts, lit]
  · simpa [Starts, lit] using h

/-- **C34.** The same for sample modes. -/
theorem C34_sample_mode (v : Str) :
    (parseSampleMode v = .val .sample ↔ Starts ["SAM"] v) ∧ (parseSampleMode v = .val .average ↔ Starts ["AVE"] v) ∧
    (parseSampleMode v = .val .envelope ↔ Starts ["ENV"] v) ∧
    (¬ Starts ["SAM", "AVE", "ENV"] v → parseSampleMode v = .text v) := by
  obtain ⟨h1, h2, -⟩ := parseTable_spec sampleModeTable (by decide +kernel) v
  have hs : sampleModeTable.map (fun e => (shortForm e.1, e.2)) =
      [(lit "SAM", .sample), (lit "AVE", .average), (lit "ENV", .envelope)] := by decide +kernel
  have hex : ∀ Q : Str × SampleMode → Prop, (∃ e ∈ sampleModeTable, Q (shortForm e.1, e.2)) ↔
      ∃ e ∈ sampleModeTable.map (fun e => (shortForm e.1, e.2)), Q e := by
    intro Q; exact ex_map _ _ Q
  have hall : ∀ Q : Str × SampleMode → Prop, (∀ e ∈ sampleModeTable, Q (shortForm e.1, e.2)) ↔
      ∀ e ∈ sampleModeTable.map (fun e => (shortForm e.1, e.2)), Q e := by
    intro Q; rw [List.forall_mem_map]
  have hval : ∀ a, parseSampleMode v = .val a ↔ _ := fun a => (h1 a).trans (hex (fun e => e.2 = a ∧ e.1 <+: v))
  have htext := h2.trans (hall (fun e => ¬ e.1 <+: v))
  rw [hs] at htext
  simp only [hs] at hval
  refine ⟨(hval _).trans ?_, (hval _).trans ?_, (hval _).trans ?_, fun h => htext.2 ?_⟩
  · simp [Starts, lit]
  · simp [Starts, lit]
  · simp [Starts, lit]
  · simpa [Starts, lit] using h

/-- The comparison table without the two entries that are never reached. -/
def reachable : List (Str × Comparison) := comparisonTable.filter fun e => e.2 ≠ .lessEqual ∧ e.2 ≠ .moreEqual

theorem parseComparison_reachable (v : Str) : parseComparison v = parseTable reachable v := by
  have hs : ∀ w w' : String, w.toList <+: w'.toList → w'.toList <+: v → w.toList <+: v := fun _ _ h h' => h.trans h'
  have s1 : shortForm (lit "LESSthan") = lit "LESS" := by decide +kernel
  have s2 : shortForm (lit "LESSEQual") = lit "LESSEQ" := by decide +kernel
  have s3 : shortForm (lit "MOREthan") = lit "MORE" := by decide +kernel
  have s4 : shortForm (lit "MOREEQual") = lit "MOREEQ" := by decide +kernel
  have hr : reachable = [(lit "LESSthan", .less), (lit "MOREthan", .more), (lit "EQual", .equal),
      (lit "UNEqual", .unequal), (lit "WIThin", .within), (lit "INrange", .within), (lit "OUTside", .outside),
      (lit "OUTrange", .outside)] := by decide +kernel
  have p1 : (lit "LESSEQ").isPrefixOf v = true → (lit "LESS").isPrefixOf v = true := by
    rw [List.isPrefixOf_iff_prefix, List.isPrefixOf_iff_prefix]
    exact fun h => (by decide : lit "LESS" <+: lit "LESSEQ").trans h
  have p2 : (lit "MOREEQ").isPrefixOf v = true → (lit "MORE").isPrefixOf v = true := by
    rw [List.isPrefixOf_iff_prefix, List.isPrefixOf_iff_prefix]
    exact fun h => (by decide : lit "MORE" <+: lit "MOREEQ").trans h
  unfold parseComparison parseTable
  have : (comparisonTable.find? fun e => (shortForm e.1).isPrefixOf v) =
      (reachable.find? fun e => (shortForm e.1).isPrefixOf v) := by
    rw [hr, comparisonTable]
    simp only [List.find?_cons, s1, s2, s3, s4]
    cases h1 : (lit "LESS").isPrefixOf v
    · cases h2 : (lit "MORE").isPrefixOf v
      · have q1 : (lit "LESSEQ").isPrefixOf v = false := by
          cases h : (lit "LESSEQ").isPrefixOf v
          · rfl
          · rw [p1 h] at h1; simp at h1
        have q2 : (lit "MOREEQ").isPrefixOf v = false := by
          cases h : (lit "MOREEQ").isPrefixOf v
          · rfl
          · rw [p2 h] at h2; simp at h2
        rw [q1, q2]
      · rfl
    · rfl
  rw [this]

/-- **C34 (partial).** Exactly the texts that begin with an abbreviation of LESSTHAN, MORETHAN, EQUAL, UNEQUAL, WITHIN,
INRANGE, OUTSIDE or OUTRANGE are recognised as these, all others are returned untouched.  Missing: LESSEQUAL and
MOREEQUAL are never recognised (`C34_shadowed_fails`). -/
theorem C34_comparison_partial (v : Str) :
    (parseComparison v = .val .less ↔ Starts ["LESS"] v) ∧ (parseComparison v = .val .more ↔ Starts ["MORE"] v) ∧
    (parseComparison v = .val .equal ↔ Starts ["EQ"] v) ∧ (parseComparison v = .val .unequal ↔ Starts ["UNE"] v) ∧
    (parseComparison v = .val .within ↔ Starts ["WIT", "IN"] v) ∧
    (parseComparison v = .val .outside ↔ Starts ["OUT"] v) ∧
    (¬ Starts ["LESS", "MORE", "EQ", "UNE", "WIT", "IN", "OUT"] v → parseComparison v = .text v) := by
  obtain ⟨h1, h2, -⟩ := parseTable_spec reachable (by decide +kernel) v
  rw [← parseComparison_reachable] at h2
  have hs : reachable.map (fun e => (shortForm e.1, e.2)) =
      [(lit "LESS", .less), (lit "MORE", .more), (lit "EQ", .equal), (lit "UNE", .unequal), (lit "WIT", .within),
       (lit "IN", .within), (lit "OUT", .outside), (lit "OUT", .outside)] := by decide +kernel
  have hex : ∀ Q : Str × Comparison → Prop, (∃ e ∈ reachable, Q (shortForm e.1, e.2)) ↔
      ∃ e ∈ reachable.map (fun e => (shortForm e.1, e.2)), Q e := by
    intro Q; exact ex_map _ _ Q
  have hall : ∀ Q : Str × Comparison → Prop, (∀ e ∈ reachable, Q (shortForm e.1, e.2)) ↔
      ∀ e ∈ reachable.map (fun e => (shortForm e.1, e.2)), Q e := by
    intro Q; rw [List.forall_mem_map]
  have hval : ∀ a, parseComparison v = .val a ↔ _ := fun a => by
    exact (parseComparison_reachable v ▸ h1 a).trans (hex (fun e => e.2 = a ∧ e.1 <+: v))
  have htext := h2.trans (hall (fun e => ¬ e.1 <+: v))
  rw [hs] at htext
  simp only [hs] at hval
  refine ⟨(hval _).trans ?_, (hval _).trans ?_, (hval _).trans ?_, (hval _).trans ?_, (hval _).trans ?_,
    (hval _).trans ?_, fun h => htext.2 ?_⟩
  · simp [Starts, lit]
  · simp [Starts, lit]
  · simp [Starts, lit]
  · simp [Starts, lit]
  · simp [Starts, lit]
  · simp [Starts, lit]
  · simpa [Starts, lit] using h

/-- **C34 fails** for the inclusive comparisons: no text whatsoever is parsed as LESSEQUAL or MOREEQUAL, and their
documented names are parsed as LESS and MORE. -/
theorem C34_shadowed_fails :
    (∀ v, parseComparison v ≠ .val .lessEqual ∧ parseComparison v ≠ .val .moreEqual) ∧
    parseComparison (lit "LESSEQUAL") = .val .less ∧ parseComparison (lit "MOREEQUAL") = .val .more := by
  refine ⟨?_, by decide +kernel, by decide +kernel⟩
  intro v
  obtain ⟨h1, -, -⟩ := parseTable_spec reachable (by decide +kernel) v
  rw [parseComparison_reachable]
  constructor
  · intro h
    obtain ⟨e, he, hv, -⟩ := (h1 _).1 h
    exact absurd hv ((by decide +kernel : ∀ e ∈ reachable, e.2 ≠ .lessEqual) e he)
  · intro h
    obtain ⟨e, he, hv, -⟩ := (h1 _).1 h
    exact absurd hv ((by decide +kernel : ∀ e ∈ reachable, e.2 ≠ .moreEqual) e he)

/-- **C34 fails** for texts that merely begin like an abbreviation: they are not returned untouched. -/
theorem C34_untouched_fails : parsePolarity (lit "RISK") = .val .rising ∧
    parseComparison (lit "INVALID") = .val .within ∧ parseSampleMode (lit "SAMBA") = .val .sample := by decide +kernel

/-- **C34.** The long form and the abbreviation of every other documented reply are recognised (the documented replies
are these finitely many). -/
theorem C34_documented :
    (∀ p ∈ [("RISE", "RIS", Polarity.rising), ("POSITIVE", "POS", .rising), ("STAYSHIGH", "STAYSH", .rising),
      ("FALL", "FALL", .falling), ("NEGATIVE", "NEG", .falling), ("STAYSLOW", "STAYSL", .falling),
      ("EITHER", "EIT", .both)],
      parsePolarity p.1.toList = .val p.2.2 ∧ parsePolarity p.2.1.toList = .val p.2.2) ∧
    (∀ p ∈ [("SAMPLE", "SAM", SampleMode.sample), ("AVERAGE", "AVE", .average), ("ENVELOPE", "ENV", .envelope)],
      parseSampleMode p.1.toList = .val p.2.2 ∧ parseSampleMode p.2.1.toList = .val p.2.2) ∧
    (∀ p ∈ [("LESSTHAN", "LESS", Comparison.less), ("MORETHAN", "MORE", .more), ("EQUAL", "EQ", .equal),
      ("UNEQUAL", "UNE", .unequal), ("WITHIN", "WIT", .within), ("INRANGE", "IN", .within), ("OUTSIDE", "OUT", .outside),
      ("OUTRANGE", "OUT", .outside)],
      parseComparison p.1.toList = .val p.2.2 ∧ parseComparison p.2.1.toList = .val p.2.2) := by decide +kernel

/-- **C34.** Thresholds: the two logic families, and every number that a setter sends. -/
theorem C34_threshold : parseThreshold (lit "ECL") = .ok (-(13 / 10)) ∧ parseThreshold (lit "TTL") = .ok (14 / 10) ∧
    (∀ v, v ≠ lit "ECL" → v ≠ lit "TTL" → parseThreshold v = pyFloat v) ∧
    ∀ q, ∃ r, parseThreshold (fmtE6 q) = .ok r ∧ Near q r := by
  refine ⟨by decide +kernel, by decide +kernel, fun v h1 h2 => by rw [parseThreshold, if_neg h1, if_neg h2], ?_⟩
  intro q
  refine ⟨printed q, ?_, near_printed q⟩
  have hne : ∀ k : Str, pyFloat k = .error .valueError → fmtE6 q ≠ k := by
    intro k hk e
    have := pyFloat_fmt q
    rw [e, hk] at this
    simp at this
  rw [parseThreshold, if_neg (hne _ (by decide +kernel)), if_neg (hne _ (by decide +kernel)), pyFloat_fmt]

/-! ### Waveform request -/

/-- The effect on the device of what `read_waveform` does. -/
def ioRun (f : Family) (store : Str → Str → Str) (d : Dev) (l : List Io) : Dev :=
  run f store d (l.filterMap fun
    | .cmd h v => some (h, v)
    | _ => none)

/-- **C58.** Reading a waveform sends all its settings, then the query, then reads the reply.  When the query is sent,
the device has been told: this channel on, this channel as the source, from point 1 to point 10⁹ (more than any record),
one byte per point on the 4000 family and two on the 4/5/6 series, signed binary data, headers on.  When the transfer
succeeds the headers are off at the end, the reply is what goes to the parser, and no other setting was changed. -/
theorem C58_request (d : Dev) (ch : Str) (ha : AliasOk ch) (data : List UInt8) :
    ∃ before after : List Io, readWaveform f ch (.ok data) = (before ++ [.waveform, .receive] ++ after, .ok data) ∧
      Io.waveform ∉ before ∧ Io.receive ∉ before ∧ Io.waveform ∉ after ∧ Io.receive ∉ after ∧
      (let told := ioRun f (fun _ v => v) d before
       told ((Hdr.active ch).text f) = lit "1" ∧ told (lit "DATA:SOURCE") = ch ∧ told (lit "DATA:START") = lit "1" ∧
       told (lit "DATA:STOP") = lit "1E9" ∧
       told (lit "DATA:WIDTH") = (if f = .mso4000 then lit "1" else lit "2") ∧
       told (lit "DATA:ENCDG") = (if f = .mso4000 then lit "FASTEST" else lit "RIBINARY") ∧
       told (lit "HEADER") = lit "1") ∧
      (let left := ioRun f (fun _ v => v) d (readWaveform f ch (.ok data)).1
       left (lit "HEADER") = lit "0" ∧
       ∀ x, x ∉ [(Hdr.active ch).text f, lit "DATA:SOURCE", lit "DATA:START", lit "DATA:STOP", lit "DATA:WIDTH",
         lit "DATA:ENCDG", lit "HEADER"] → left x = d x) := by
  have hw : Wf (.active ch) := ha
  obtain ⟨wd, en, hwd⟩ : ∃ wd en, wd = (if f = .mso4000 then lit "1" else lit "2") ∧
      en = (if f = .mso4000 then lit "FASTEST" else lit "RIBINARY") := ⟨_, _, rfl, rfl⟩
  set cs : List Cmd := [(.active ch, lit "1"), (.dataSource, ch), (.dataStart, lit "1"), (.dataStop, lit "1E9"),
    (.dataWidth, wd), (.dataEncdg, en), (.header, lit "1")] with hcs
  have hwf : ∀ c ∈ cs, Wf c.1 := by
    intro c hc
    simp [hcs] at hc
    rcases hc with rfl | rfl | rfl | rfl | rfl | rfl | rfl <;> first | exact hw | trivial
  have hwf' : ∀ c ∈ cs ++ [(.header, lit "0")], Wf c.1 := by
    intro c hc
    rcases List.mem_append.1 hc with hc | hc
    · exact hwf c hc
    · simp at hc; subst hc; trivial
  have hread : readWaveform f ch (.ok data) =
      (cs.map (fun c => Io.cmd c.1 c.2) ++ [.waveform, .receive] ++ [.cmd .header (lit "0")], .ok data) := by
    obtain ⟨rfl, rfl⟩ := hwd
    cases f <;> simp [readWaveform, hcs, bit]
  have hfm : ∀ l : List Cmd, (l.map (fun c => Io.cmd c.1 c.2)).filterMap (fun
      | .cmd h v => some (h, v)
      | _ => (none : Option Cmd)) = l := by
    intro l
    induction l with
    | nil => rfl
    | cons c l ih => simp [ih]
  have hio : ioRun f (fun _ v => v) d (cs.map (fun c => Io.cmd c.1 c.2)) = run f (fun _ v => v) d cs := by
    unfold ioRun; rw [hfm]
  have hio' : ioRun f (fun _ v => v) d (readWaveform f ch (.ok data)).1 =
      run f (fun _ v => v) d (cs ++ [(.header, lit "0")]) := by
    rw [hread]
    unfold ioRun
    simp only [List.filterMap_append, hfm]
    rfl
  have tx : ∀ f : Family, Hdr.text f .dataSource = lit "DATA:SOURCE" ∧ Hdr.text f .dataStart = lit "DATA:START" ∧
      Hdr.text f .dataStop = lit "DATA:STOP" ∧ Hdr.text f .dataWidth = lit "DATA:WIDTH" ∧
      Hdr.text f .dataEncdg = lit "DATA:ENCDG" ∧ Hdr.text f .header = lit "HEADER" := by
    intro f; cases f <;> decide
  obtain ⟨t1, t2, t3, t4, t5, t6⟩ := tx f
  have get : ∀ h : Hdr, Wf h → ∀ v, final cs h = some v → run f (fun _ v => v) d cs (h.text f) = v := by
    intro h hh v hv
    have := regs_run f (fun _ v => v) d cs hwf h hh
    rw [hv] at this
    exact this
  refine ⟨cs.map (fun c => Io.cmd c.1 c.2), [.cmd .header (lit "0")], hread, by simp, by simp, by simp, by simp, ?_, ?_⟩
  · simp only
    rw [hio, ← hwd.1, ← hwd.2]
    refine ⟨get _ hw _ (by simp [hcs, final]), ?_, ?_, ?_, ?_, ?_, ?_⟩
    · rw [← t1]; exact get .dataSource trivial _ (by simp [hcs, final])
    · rw [← t2]; exact get .dataStart trivial _ (by simp [hcs, final])
    · rw [← t3]; exact get .dataStop trivial _ (by simp [hcs, final])
    · rw [← t4]; exact get .dataWidth trivial _ (by simp [hcs, final])
    · rw [← t5]; exact get .dataEncdg trivial _ (by simp [hcs, final])
    · rw [← t6]; exact get .header trivial _ (by simp [hcs, final])
  · simp only
    rw [hio']
    refine ⟨?_, ?_⟩
    · have := regs_run f (fun _ v => v) d _ hwf' .header trivial
      unfold regs at this
      rw [← t6, this]
      simp [final_append, final]
    · intro x hx
      apply run_frame f _ d _ hwf'
      intro c hc e
      apply hx
      rw [← e]
      simp only [hcs, List.cons_append, List.nil_append, List.mem_cons, List.not_mem_nil, or_false] at hc
      rcases hc with rfl | rfl | rfl | rfl | rfl | rfl | rfl | rfl <;> simp [t1, t2, t3, t4, t5, t6]

/-- C58 assumes that the transfer succeeds: if it raises, the headers stay on and the exception is passed on. -/
theorem C58_failed_transfer (d : Dev) (ch : Str) (ha : AliasOk ch) (e : PyErr) :
    (readWaveform f ch (.error e)).2 = .error e ∧
    ioRun f (fun _ v => v) d (readWaveform f ch (.error e)).1 (lit "HEADER") = lit "1" := by
  refine ⟨by cases f <;> rfl, ?_⟩
  have h4 : ∃ b, (readWaveform f ch (.error e)).1 = b ++ [.cmd .header (lit "1"), .waveform, .receive] ∧
      ∀ x ∈ b, ∃ h v, x = .cmd h v ∧ Wf h := by
    have hw : Wf (.active ch) := ha
    cases f
    · refine ⟨[.cmd (.active ch) (bit true), .cmd .dataSource ch, .cmd .dataStart (lit "1"), .cmd .dataStop (lit "1E9"),
        .cmd .dataWidth (lit "1"), .cmd .dataEncdg (lit "FASTEST")], rfl, ?_⟩
      intro x hx
      simp at hx
      rcases hx with rfl | rfl | rfl | rfl | rfl | rfl <;> exact ⟨_, _, rfl, by first | exact hw | trivial⟩
    · refine ⟨[.cmd (.active ch) (bit true), .cmd .dataSource ch, .cmd .dataStart (lit "1"), .cmd .dataStop (lit "1E9"),
        .cmd .dataWidth (lit "2"), .cmd .dataEncdg (lit "RIBINARY")], rfl, ?_⟩
      intro x hx
      simp at hx
      rcases hx with rfl | rfl | rfl | rfl | rfl | rfl <;> exact ⟨_, _, rfl, by first | exact hw | trivial⟩
  obtain ⟨b, hb, -⟩ := h4
  rw [hb]
  unfold ioRun
  rw [List.filterMap_append]
  simp only [List.filterMap_cons, List.filterMap_nil]
  rw [run_append]
  have := step_text f (fun _ v => v) (run f (fun _ v => v) d (List.filterMap (fun
    | .cmd h v => some (h, v)
    | _ => (none : Option Cmd)) b)) (.header, lit "1") trivial
  rw [run_cons, this]
  have t6 : Hdr.text f .header = lit "HEADER" := by cases f <;> decide
  simp only [run, List.map_nil, List.foldl_nil]
  rw [← t6]
  simp

end Verif.Props.Tek
