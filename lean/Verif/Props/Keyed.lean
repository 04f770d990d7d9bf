import Verif.Props.FloatDecode

/-!
C102: the edges of a keyed signal.  A record of samples of a signal that is high or low in the middle of every symbol, moves only near the boundaries
between symbols and does not cross the other threshold again once it has crossed one: the edges found are one for each change of the symbol, near the
boundary, and no other.
-/

namespace Verif.Props.Keyed

open Verif Verif.Pam2 Verif.Cdr Verif.Float Verif.Props.Edges Verif.Props.Float Verif.Props.FloatCdr Verif.Props.FloatPam2 Verif.Props.FloatDecode

/-! ### Specification -/

/-- The value is past the threshold of high (`true`) or low. -/
def Past (l : Levels ℚ) (b : Bool) (v : ℚ) : Prop := if b then l.rising < v else v < l.falling

/-- A record of a keyed signal.  Symbol `k` is between the boundaries `s + k T` and `s + (k + 1) T`, samples at least `w` away from the boundaries are
past the threshold of their symbol.  Near a boundary without a change no sample is past the other threshold; near one with a change none is once one was
past the new one.  Samples are at most `δ` apart, and the first one is past a threshold. -/
structure Signal (l : Levels ℚ) (t y : List ℚ) (s T w δ : ℚ) (sym : ℤ → Bool) : Prop where
  samples : t.length = y.length ∧ 0 < y.length
  increasing : Increasing t
  gap : ∀ i, i + 1 < t.length → t.getD (i + 1) 0 ≤ t.getD i 0 + δ
  wide : 0 ≤ w ∧ 0 ≤ δ ∧ 2 * (w + δ) < T
  steady : ∀ i < t.length, ∀ k : ℤ, s + k * T + w ≤ t.getD i 0 → t.getD i 0 ≤ s + (k + 1) * T - w → Past l (sym k) (y.getD i 0)
  quiet : ∀ i < t.length, ∀ k : ℤ, |t.getD i 0 - (s + k * T)| < w → sym (k - 1) = sym k → ¬ Past l (!sym k) (y.getD i 0)
  once : ∀ j < t.length, ∀ i < j, ∀ k : ℤ, |t.getD i 0 - (s + k * T)| < w → |t.getD j 0 - (s + k * T)| < w → sym (k - 1) ≠ sym k →
    Past l (sym k) (y.getD i 0) → ¬ Past l (!sym k) (y.getD j 0)
  start : Past l true (y.getD 0 0) ∨ Past l false (y.getD 0 0)

/-- The edges to `b` are wanted. -/
def Wanted : Polarity → Bool → Bool
  | .rising, b => b
  | .falling, b => !b
  | .both, _ => true

/-- The edges `es` are those at the boundaries `ks`, within `J`: in order, only wanted changes of the symbol, and all those with `w` around them in
the record. -/
structure Marks (t : List ℚ) (s T w J : ℚ) (sym : ℤ → Bool) (p : Polarity) (es : List ℚ) (ks : List ℤ) : Prop where
  inside : ∀ e ∈ es, t.getD 0 0 ≤ e ∧ e ≤ t.getD (t.length - 1) 0
  near : Jittered s T J es ks
  order : ks.Pairwise (· < ·)
  real : ∀ k ∈ ks, sym (k - 1) ≠ sym k ∧ Wanted p (sym k) = true
  all : ∀ k : ℤ, sym (k - 1) ≠ sym k → Wanted p (sym k) = true → t.getD 0 0 ≤ s + k * T - w → s + k * T + w ≤ t.getD (t.length - 1) 0 → k ∈ ks

/-! ### Samples -/

variable {l : Levels ℚ} {t y : List ℚ} {s T w δ : ℚ} {sym : ℤ → Bool}

theorem Signal.mono (h : Signal l t y s T w δ sym) {i j : ℕ} (hij : i ≤ j) (hj : j < t.length) : t.getD i 0 ≤ t.getD j 0 := by
  rcases Nat.lt_or_eq_of_le hij with e | e
  · exact (h.increasing i j e hj).le
  · rw [e]

theorem past_not (hl : l.falling ≤ l.rising) {b : Bool} {v : ℚ} (h : Past l b v) : ¬ Past l (!b) v := by
  unfold Past at *
  cases b <;> simp_all <;> linarith

/-- The first sample at or after a time. -/
theorem Signal.reach (h : Signal l t y s T w δ sym) (a : ℚ) : ∀ (n i j : ℕ), j = i + n → j < t.length → t.getD i 0 < a → a ≤ t.getD j 0 →
    ∃ m, i < m ∧ m ≤ j ∧ t.getD (m - 1) 0 < a ∧ a ≤ t.getD m 0 ∧ t.getD m 0 < a + δ := by
  intro n
  induction n with
  | zero => intro i j e _ h1 h2; subst e; linarith
  | succ n ih =>
    intro i j e hj h1 h2
    by_cases hm : a ≤ t.getD (i + 1) 0
    · have := h.gap i (by omega)
      exact ⟨i + 1, by omega, by omega, by simpa using h1, hm, by linarith⟩
    · obtain ⟨m, m1, m2, m3⟩ := ih (i + 1) j (by omega) hj (by linarith) h2
      exact ⟨m, by omega, m2, m3⟩

/-- Where a sample is: in the range of a boundary and the symbol after it. -/
theorem Signal.place (h : Signal l t y s T w δ sym) (x : ℚ) : ∃ k : ℤ, s + k * T - w < x ∧ x ≤ s + (k + 1) * T - w := by
  have hT : 0 < T := by linarith [h.wide.1, h.wide.2.1, h.wide.2.2]
  refine ⟨⌈(x - s + w) / T⌉ - 1, ?_, ?_⟩
  · have := Int.ceil_lt_add_one ((x - s + w) / T)
    have h2 : (⌈(x - s + w) / T⌉ : ℚ) - 1 < (x - s + w) / T := by linarith
    rw [lt_div_iff₀ hT] at h2
    push_cast
    linarith
  · have := Int.le_ceil ((x - s + w) / T)
    rw [div_le_iff₀ hT] at this
    push_cast
    linarith

/-- Sample `i` completes an edge to `b`: an earlier one was past the other threshold and none since past this one. -/
def Done (l : Levels ℚ) (y : List ℚ) (b : Bool) (i : ℕ) : Prop :=
  Past l b (y.getD i 0) ∧ ∃ j < i, Past l (!b) (y.getD j 0) ∧ ∀ m, j < m → m < i → ¬ Past l b (y.getD m 0)

/-- An edge is at a change of the symbol, from a sample shortly before the boundary to one shortly after. -/
theorem Signal.done (h : Signal l t y s T w δ sym) (hl : l.falling ≤ l.rising) (b : Bool) (i : ℕ) (hi : i < t.length)
    (hd : Done l y b i) (k : ℤ) (hk1 : s + k * T - w < t.getD i 0) (hk2 : t.getD i 0 ≤ s + (k + 1) * T - w) :
    sym k = b ∧ sym (k - 1) = !b ∧ ∃ p < i, Past l (!b) (y.getD p 0) ∧ s + k * T - (w + δ) ≤ t.getD p 0 ∧ t.getD i 0 ≤ s + k * T + (w + δ) := by
  obtain ⟨hb, j, hj, hjb, hno⟩ := hd
  obtain ⟨hw0, hδ0, hw⟩ := h.wide
  have hlast : ¬ Past l b (y.getD (i - 1) 0) := by
    rcases Nat.lt_or_eq_of_le (show j ≤ i - 1 by omega) with e | e
    · exact hno _ e (by omega)
    · rw [← e]
      have := past_not hl hjb
      rwa [Bool.not_not] at this
  have hgap := h.gap (i - 1) (by omega)
  rw [show i - 1 + 1 = i by omega] at hgap
  -- if the symbol before is `b`, then the earlier sample is in the range of the boundary
  have hin : sym (k - 1) = b → t.getD j 0 < s + k * T + w → |t.getD j 0 - (s + k * T)| < w := by
    intro hs hlt
    rw [abs_lt]
    by_contra hc
    have hle : t.getD j 0 ≤ s + k * T - w := by
      by_contra hc2
      exact hc ⟨by linarith, by linarith⟩
    by_cases h2 : s + (k - 1 : ℤ) * T + w ≤ t.getD j 0
    · have := h.steady j (by omega) (k - 1) h2 (by push_cast; linarith)
      rw [hs] at this
      exact past_not hl this hjb
    · obtain ⟨m, m1, m2, m3, m4, m5⟩ := h.reach (s + (k - 1 : ℤ) * T + w) (i - j) j i (by omega) hi (by linarith) (by push_cast; linarith)
      push_cast at m4 m5
      have hmi : m < i := by
        rcases Nat.lt_or_eq_of_le m2 with e | e
        · exact e
        · rw [e] at m5; linarith
      have := h.steady m (by omega) (k - 1) (by push_cast; linarith) (by push_cast; linarith)
      rw [hs] at this
      exact hno m m1 hmi this
  have hsym : sym k = b ∧ t.getD i 0 ≤ s + k * T + (w + δ) ∧ t.getD j 0 < s + k * T + w := by
    by_cases hc : t.getD i 0 < s + k * T + w
    · have hwin : |t.getD i 0 - (s + k * T)| < w := by rw [abs_lt]; constructor <;> linarith
      have hjlt : t.getD j 0 < s + k * T + w := (h.increasing j i hj hi).trans hc
      refine ⟨?_, by linarith, hjlt⟩
      by_contra hne
      have hs : sym k = !b := by cases hsk : sym k <;> cases b <;> simp_all
      by_cases hq : sym (k - 1) = sym k
      · have := h.quiet i hi k hwin hq
        rw [hs, Bool.not_not] at this
        exact this hb
      · have hs1 : sym (k - 1) = b := by rw [hs] at hq; cases hsk : sym (k - 1) <;> cases b <;> simp_all
        have := h.once i hi j hj k (hin hs1 hjlt) hwin hq (by rw [hs]; exact hjb)
        rw [hs, Bool.not_not] at this
        exact this hb
    · have hst := h.steady i hi k (by linarith) hk2
      refine ⟨?_, ?_, ?_⟩
      · by_contra hne
        have hs : sym k = !b := by cases hsk : sym k <;> cases b <;> simp_all
        rw [hs] at hst
        exact past_not hl hb hst
      · by_contra hc2
        have hk : s + k * T + w ≤ t.getD (i - 1) 0 := by linarith
        have hs : sym k = b := by
          by_contra hne
          have hs : sym k = !b := by cases hsk : sym k <;> cases b <;> simp_all
          rw [hs] at hst
          exact past_not hl hb hst
        have := h.steady (i - 1) (by omega) k hk ((h.mono (by omega) hi).trans hk2)
        rw [hs] at this
        exact hlast this
      · have hs : sym k = b := by
          by_contra hne
          have hs : sym k = !b := by cases hsk : sym k <;> cases b <;> simp_all
          rw [hs] at hst
          exact past_not hl hb hst
        by_contra hc2
        have := h.steady j (by omega) k (by linarith) ((h.mono hj.le hi).trans hk2)
        rw [hs] at this
        exact past_not hl this hjb
  obtain ⟨hs, hti, htj⟩ := hsym
  have hs1 : sym (k - 1) = !b := by
    by_contra hne
    have hs1 : sym (k - 1) = b := by cases hsk : sym (k - 1) <;> cases b <;> simp_all
    have := h.quiet j (by omega) k (hin hs1 htj) (by rw [hs, hs1])
    rw [hs] at this
    exact this hjb
  refine ⟨hs, hs1, ?_⟩
  by_cases hc : s + k * T - w < t.getD j 0
  · exact ⟨j, hj, hjb, by linarith, hti⟩
  · -- the last sample before the range of the boundary
    have hex : ∃ p, j ≤ p ∧ p < i ∧ t.getD p 0 ≤ s + k * T - w ∧ s + k * T - w < t.getD (p + 1) 0 := by
      by_contra hno2
      push Not at hno2
      have : ∀ n, j + n ≤ i → t.getD (j + n) 0 ≤ s + k * T - w := by
        intro n
        induction n with
        | zero => intro _; simpa using hc
        | succ n ih => intro hn; exact hno2 (j + n) (by omega) (by omega) (ih (by omega))
      have := this (i - j) (by omega)
      rw [show j + (i - j) = i by omega] at this
      linarith
    obtain ⟨p, p1, p2, p3, p4⟩ := hex
    have hg := h.gap p (by omega)
    have := h.steady p (by omega) (k - 1) (by push_cast; linarith) (by push_cast; linarith)
    rw [hs1] at this
    exact ⟨p, p2, this, by linarith, hti⟩

/-! ### Edges -/

theorem done_rise {i : ℕ} (hr : RiseAt y l.rising l.falling i) : Done l y true i := by
  obtain ⟨_, _, ⟨j, hj, hf, hn⟩, hi⟩ := hr
  exact ⟨by simpa [Past] using hi, j, hj, by simpa [Past] using hf, fun m h1 h2 => by simpa [Past] using hn m h1 h2⟩

theorem done_fall {i : ℕ} (hs : Past l true (y.getD 0 0) ∨ Past l false (y.getD 0 0)) (hr : FallAt y l.rising l.falling i) : Done l y false i := by
  obtain ⟨h1, _, hlow, hi⟩ := hr
  refine ⟨by simpa [Past] using hi, ?_⟩
  by_contra hno
  push Not at hno
  -- without a high sample after the last low one the state is low
  have key : ∀ n ≤ i, (∃ j < n, Past l true (y.getD j 0) ∧ ∀ m, j < m → m < n → ¬ Past l false (y.getD m 0)) ∨ LowBefore y l.rising l.falling n ∨ n = 0 := by
    intro n
    induction n with
    | zero => intro _; exact .inr (.inr rfl)
    | succ n ih =>
      intro hn
      by_cases hf : y.getD n 0 < l.falling
      · exact .inr (.inl ⟨n, by omega, hf, fun k a b => by omega⟩)
      · by_cases hr : l.rising < y.getD n 0
        · exact .inl ⟨n, by omega, by simpa [Past] using hr, fun m a b => by omega⟩
        · rcases ih (by omega) with ⟨j, a, b, c⟩ | ⟨j, a, b, c⟩ | rfl
          · refine .inl ⟨j, by omega, b, fun m d e => ?_⟩
            rcases Nat.lt_or_eq_of_le (Nat.lt_succ_iff.1 e) with g | g
            · exact c m d g
            · rw [g]; simpa [Past] using hf
          · refine .inr (.inl ⟨j, by omega, b, fun m d e => ?_⟩)
            rcases Nat.lt_or_eq_of_le (Nat.lt_succ_iff.1 e) with g | g
            · exact c m d g
            · rw [g]; simpa using hr
          · simp [Past] at hs
            rcases hs with hs | hs
            · exact absurd hs hr
            · exact absurd hs hf
  rcases key i le_rfl with ⟨j, a, b, c⟩ | hl | h0
  · obtain ⟨m, m1, m2, m3⟩ := hno j a (by simpa using b)
    exact c m m1 m2 m3
  · exact hlow hl
  · omega

theorem rise_of_done {i : ℕ} (hi : i < y.length) (hd : Done l y true i) : RiseAt y l.rising l.falling i := by
  obtain ⟨hb, j, hj, hjb, hno⟩ := hd
  exact ⟨by omega, hi, ⟨j, hj, by simpa [Past] using hjb, fun m a b => by simpa [Past] using hno m a b⟩, by simpa [Past] using hb⟩

theorem fall_of_done (hl : l.falling ≤ l.rising) {i : ℕ} (hi : i < y.length) (hd : Done l y false i) : FallAt y l.rising l.falling i := by
  obtain ⟨hb, j, hj, hjb, hno⟩ := hd
  refine ⟨by omega, hi, ?_, by simpa [Past] using hb⟩
  rintro ⟨m, hm, hmf, hmn⟩
  simp only [Past, Bool.not_false, if_true, Bool.false_eq_true, if_false, not_lt] at hjb hno
  rcases lt_trichotomy j m with e | e | e
  · have := hno m e hm; linarith
  · rw [e] at hjb; linarith
  · exact hmn j e hj hjb

theorem edge_near (h : Signal l t y s T w δ sym) (h1 : l.falling ≤ l.half) (h2 : l.half ≤ l.rising) (b : Bool) (i : ℕ) (hi : i < t.length)
    (hd : Done l y b i) (c : Option ℚ) (hc : EdgeTime t y l.half i c) (k : ℤ) (hk1 : s + k * T - w < t.getD i 0)
    (hk2 : t.getD i 0 ≤ s + (k + 1) * T - w) : ∃ z, c = some z ∧ sym k = b ∧ sym (k - 1) = !b ∧ |z - (s + k * T)| ≤ w + δ := by
  obtain ⟨hs, hs1, p, hp, hpp, ha, hb⟩ := h.done (h1.trans h2) b i hi hd k hk1 hk2
  have hdone := hd.1
  obtain ⟨z, hz, z1, z2, -⟩ := edge_time_between t y l.half h.samples.1 h.increasing p i hp (by rw [← h.samples.1]; exact hi) b (by
    cases b
    · simp [Past] at hpp hdone ⊢
      constructor <;> linarith
    · simp [Past] at hpp hdone ⊢
      constructor <;> linarith) c hc
  refine ⟨z, hz, hs, hs1, ?_⟩
  rw [abs_le]
  constructor <;> linarith

/-- The first sample that is past a threshold completes an edge. -/
theorem first_done (b : Bool) : ∀ (n p q : ℕ), q = p + n → Past l (!b) (y.getD p 0) → Past l b (y.getD q 0) → l.falling ≤ l.rising →
    ∃ i, p < i ∧ i ≤ q ∧ Done l y b i := by
  intro n
  induction n with
  | zero =>
    intro p q e h1 h2 hl
    rw [show q = p by omega] at h2
    exact absurd h1 (past_not hl h2)
  | succ n ih =>
    intro p q e h1 h2 hl
    by_cases hex : ∃ m, p < m ∧ m < q ∧ Past l b (y.getD m 0)
    · classical
      have hm := Nat.find_spec hex
      set m := Nat.find hex
      refine ⟨m, hm.1, hm.2.1.le, hm.2.2, p, hm.1, h1, fun k a c hk => ?_⟩
      exact Nat.find_min hex c ⟨a, c.trans hm.2.1, hk⟩
    · push Not at hex
      exact ⟨q, by omega, le_rfl, h2, p, by omega, h1, hex⟩

theorem times_eq (pol : Bool) (ev : List (Bool × ℚ)) : times pol ev = ((ev.filter fun e => e.1 == pol).map Prod.snd).map some := by
  unfold times
  rw [List.map_map]
  rfl

/-- The selected edges of a time line. -/
theorem selected_timeline (ev : List (Bool × ℚ)) (p : Polarity) (h : ev.Pairwise fun a b => a.2 < b.2) :
    filterPolarity (times true ev, times false ev) p = ((ev.filter fun e => Wanted p e.1).map Prod.snd).map some := by
  cases p with
  | rising =>
    change times true ev = _
    rw [times_eq]
    congr 3
    funext e
    cases e.1 <;> rfl
  | falling =>
    change times false ev = _
    rw [times_eq]
    congr 3
    funext e
    cases e.1 <;> rfl
  | both =>
    change sortNan (times true ev ++ times false ev) = _
    have hall : (ev.filter fun e => Wanted .both e.1) = ev := List.filter_eq_self.2 fun _ _ => rfl
    rw [hall]
    refine sortNan_eq _ _ ?_ ?_
    · rw [times_eq, times_eq, ← List.map_append, ← List.map_append]
      refine List.Perm.map _ (List.Perm.map _ ?_)
      have := List.filter_append_perm (fun e : Bool × ℚ => e.1 == true) ev
      refine List.Perm.trans this.symm (List.Perm.of_eq ?_)
      congr 2
      funext e
      cases e.1 <;> rfl
    · rw [List.pairwise_map]
      exact h.imp fun hab => hab.le

/-- **C102.** The edges of a keyed signal: one for every change of the symbol, near the boundary, and no other. -/
theorem C102_edges (h : Signal l t y s T w δ sym) (h1 : l.falling ≤ l.half) (h2 : l.half ≤ l.rising) (p : Polarity) :
    ∃ es ks, selectedEdges (t, y) l p = .ok (es.map some) ∧ es.Pairwise (· < ·) ∧ Marks t s T w (w + δ) sym p es ks := by
  obtain ⟨hlen, h0⟩ := h.samples
  obtain ⟨hw0, hδ0, hw⟩ := h.wide
  have hl := h1.trans h2
  have hstart : y.getD 0 0 < l.falling ∨ l.half < y.getD 0 0 := by
    rcases h.start with a | a
    · exact .inr (lt_of_le_of_lt h2 (by simpa [Past] using a))
    · exact .inl (by simpa [Past] using a)
  obtain ⟨ev, he, hord, halt, hcross⟩ := C06_C07_timeline_partial t y l.rising l.half l.falling hlen h0 h.increasing h1 h2 hstart
  obtain ⟨rises, falls, he', R, F, -, -, hR, hF, hvR, hvF⟩ := C07_edges_schmitt t y l.rising l.half l.falling hlen h0 hl
  rw [he] at he'
  obtain ⟨rfl, rfl⟩ := Prod.mk.inj (Except.ok.inj he')
  have back : ∀ (L : List ℕ) (V : List (Option ℚ)), List.Forall₂ (EdgeTime t y l.half) L V → ∀ v ∈ V, ∃ i ∈ L, EdgeTime t y l.half i v := by
    intro L V hLV
    induction hLV with
    | nil => intro v hv; cases hv
    | cons hab _ ih =>
      intro v hv
      rcases List.mem_cons.1 hv with rfl | hv
      · exact ⟨_, by simp, hab⟩
      · obtain ⟨i, a, b⟩ := ih v hv
        exact ⟨i, List.mem_cons_of_mem _ a, b⟩
  have forth : ∀ (L : List ℕ) (V : List (Option ℚ)), List.Forall₂ (EdgeTime t y l.half) L V → ∀ i ∈ L, ∃ v ∈ V, EdgeTime t y l.half i v := by
    intro L V hLV
    induction hLV with
    | nil => intro i hi; cases hi
    | cons hab _ ih =>
      intro i hi
      rcases List.mem_cons.1 hi with rfl | hi
      · exact ⟨_, by simp, hab⟩
      · obtain ⟨v, a, b⟩ := ih i hi
        exact ⟨v, List.mem_cons_of_mem _ a, b⟩
  have mem_times : ∀ b z, some z ∈ times b ev ↔ (b, z) ∈ ev := by
    intro b z
    rw [times_eq]
    simp only [List.mem_map, List.mem_filter, beq_iff_eq]
    constructor
    · rintro ⟨_, ⟨⟨c, x⟩, ⟨g1, g2⟩, rfl⟩, g3⟩
      simp only [Option.some.injEq] at g3
      simp only at g2
      rw [← g2, ← g3]; exact g1
    · intro g
      exact ⟨z, ⟨(b, z), ⟨g, rfl⟩, rfl⟩, rfl⟩
  -- the boundary of an event
  have hdone : ∀ b i, (if b then i ∈ R else i ∈ F) ↔ i < t.length ∧ Done l y b i := by
    intro b i
    cases b
    · simp only [Bool.false_eq_true, if_false]
      rw [hF]
      exact ⟨fun g => ⟨by rw [hlen]; exact g.2.1, done_fall h.start g⟩, fun g => fall_of_done hl (by rw [← hlen]; exact g.1) g.2⟩
    · simp only [if_true]
      rw [hR]
      exact ⟨fun g => ⟨by rw [hlen]; exact g.2.1, done_rise g⟩, fun g => rise_of_done (by rw [← hlen]; exact g.1) g.2⟩
  have hev : ∀ e ∈ ev, ∃ k : ℤ, sym k = e.1 ∧ sym (k - 1) = !e.1 ∧ |e.2 - (s + k * T)| ≤ w + δ := by
    rintro ⟨b, z⟩ hbz
    have hi : ∃ i, (if b then i ∈ R else i ∈ F) ∧ EdgeTime t y l.half i (some z) := by
      cases b
      · obtain ⟨i, a, c⟩ := back F _ hvF (some z) ((mem_times false z).2 hbz)
        exact ⟨i, by simpa using a, c⟩
      · obtain ⟨i, a, c⟩ := back R _ hvR (some z) ((mem_times true z).2 hbz)
        exact ⟨i, by simpa using a, c⟩
    obtain ⟨i, hi, het⟩ := hi
    obtain ⟨hi1, hi2⟩ := (hdone b i).1 hi
    obtain ⟨k, hk1, hk2⟩ := h.place (t.getD i 0)
    obtain ⟨z', e, a, c, d⟩ := edge_near h h1 h2 b i hi1 hi2 _ het k hk1 hk2
    obtain rfl := Option.some.inj e
    exact ⟨k, a, c, d⟩
  choose! κ hκ1 hκ2 hκ3 using hev
  have hsep : ∀ a ∈ ev, ∀ b ∈ ev, a.2 < b.2 → κ a ≤ κ b := by
    intro a ha b hb hab
    by_contra hc
    have hc' : κ b + 1 ≤ κ a := by omega
    have hcq : (κ b : ℚ) + 1 ≤ κ a := by exact_mod_cast hc'
    have a1 := (abs_le.1 (hκ3 a ha)).1
    have a2 := (abs_le.1 (hκ3 b hb)).2
    have hT : 0 ≤ T := by
      have : 0 ≤ w + δ := (abs_nonneg _).trans (hκ3 a ha)
      linarith
    have := mul_le_mul_of_nonneg_right hcq hT
    linarith
  have hinc : (ev.map κ).Pairwise (· < ·) := by
    rw [← List.isChain_iff_pairwise, List.isChain_map]
    rw [List.isChain_iff_getElem] at halt ⊢
    intro i hi
    have c1 := halt i hi
    have c2 := List.pairwise_iff_getElem.1 hord i (i + 1) (by omega) hi (by omega)
    have m1 : ev[i] ∈ ev := List.getElem_mem _
    have m2 : ev[i + 1] ∈ ev := List.getElem_mem _
    refine lt_of_le_of_ne (hsep _ m1 _ m2 c2) fun e => c1 ?_
    rw [← hκ1 _ m1, ← hκ1 _ m2, e]
  refine ⟨(ev.filter fun e => Wanted p e.1).map Prod.snd, (ev.filter fun e => Wanted p e.1).map κ, ?_, ?_, ?_, ?_, ?_, ?_, ?_⟩
  · unfold selectedEdges
    rw [C07_edges_np t y _ _ _ hlen, he]
    exact congrArg Except.ok (selected_timeline ev p hord)
  · rw [List.pairwise_map]
    exact hord.sublist List.filter_sublist
  · intro z hz
    obtain ⟨e, he, rfl⟩ := List.mem_map.1 hz
    obtain ⟨j, j1, j2, j3, j4, -⟩ := hcross e (List.mem_filter.1 he).1
    rw [← hlen] at j2
    exact ⟨(h.mono (by omega) (by omega)).trans j3, j4.trans (h.mono (by omega) (by omega))⟩
  · unfold Jittered
    rw [List.forall₂_map_left_iff, List.forall₂_map_right_iff, List.forall₂_same]
    intro e he
    exact hκ3 e (List.mem_filter.1 he).1
  · rw [List.pairwise_map] at hinc ⊢
    exact hinc.sublist List.filter_sublist
  · intro k hk
    obtain ⟨e, he, rfl⟩ := List.mem_map.1 hk
    obtain ⟨m1, m2⟩ := List.mem_filter.1 he
    rw [hκ1 e m1, hκ2 e m1]
    exact ⟨by cases e.1 <;> simp, m2⟩
  · intro k hne hwk ha hb
    set b := sym k with hbdef
    have hsb : sym (k - 1) = !b := by cases hs : sym (k - 1) <;> cases hb' : b <;> simp_all
    -- a sample before and one after the boundary
    have hN : 0 < t.length := by rw [hlen]; exact h0
    have hlast : s + k * T - w < t.getD (t.length - 1) 0 := by
      by_contra hc
      have g1 := h.steady (t.length - 1) (by omega) (k - 1) (by push_cast; linarith) (by push_cast; linarith)
      have g2 := h.steady (t.length - 1) (by omega) k (by linarith) (by linarith)
      rw [hsb] at g1
      exact past_not hl g2 g1
    have hex : ∃ p, p + 1 < t.length ∧ t.getD p 0 ≤ s + k * T - w ∧ s + k * T - w < t.getD (p + 1) 0 := by
      by_contra hno2
      push Not at hno2
      have : ∀ n, n < t.length → t.getD n 0 ≤ s + k * T - w := by
        intro n
        induction n with
        | zero => intro _; exact ha
        | succ n ih => intro hn; exact hno2 n hn (ih (by omega))
      have := this (t.length - 1) (by omega)
      linarith
    obtain ⟨p0, p1, p2, p3⟩ := hex
    have hg := h.gap p0 p1
    have hpp := h.steady p0 (by omega) (k - 1) (by push_cast; linarith) (by push_cast; linarith)
    rw [hsb] at hpp
    have hp4 : t.getD p0 0 < s + k * T + w := by
      by_contra hc
      have := h.steady p0 (by omega) k (by linarith) (by linarith)
      exact past_not hl this hpp
    obtain ⟨q, q1, q2, q3, q4, q5⟩ := h.reach (s + k * T + w) (t.length - 1 - p0) p0 (t.length - 1) (by omega) (by omega) hp4 hb
    have hq := h.steady q (by omega) k q4 (by linarith)
    obtain ⟨i, i1, i2, i3⟩ := first_done b (q - p0) p0 q (by omega) hpp hq hl
    have hiN : i < t.length := by omega
    have him := (hdone b i).2 ⟨hiN, i3⟩
    have hv : ∃ v ∈ times b ev, EdgeTime t y l.half i v := by
      cases hbb : b
      · rw [hbb] at him
        exact forth F _ hvF i (by simpa using him)
      · rw [hbb] at him
        exact forth R _ hvR i (by simpa using him)
    obtain ⟨v, v1, v2⟩ := hv
    have hti : s + k * T - w < t.getD i 0 := lt_of_lt_of_le p3 (h.mono (by omega) hiN)
    have hti2 : t.getD i 0 ≤ s + (k + 1) * T - w := by
      have := h.mono i2 (by omega)
      linarith
    obtain ⟨z, rfl, -, -, hz⟩ := edge_near h h1 h2 b i hiN i3 v v2 k hti hti2
    have hmem := (mem_times b z).1 v1
    refine List.mem_map.2 ⟨(b, z), List.mem_filter.2 ⟨hmem, hwk⟩, ?_⟩
    have hz' := hκ3 (b, z) hmem
    simp only at hz'
    have e1 := abs_le.1 hz
    have e2 := abs_le.1 hz'
    have hT : 0 < T := by linarith
    by_contra hne2
    rcases lt_or_gt_of_ne hne2 with g | g
    · have : (κ (b, z) : ℚ) + 1 ≤ k := by exact_mod_cast g
      have := mul_le_mul_of_nonneg_right this hT.le
      linarith
    · have : (k : ℚ) + 1 ≤ κ (b, z) := by exact_mod_cast g
      have := mul_le_mul_of_nonneg_right this hT.le
      linarith
/-! ### Enough changes -/

/-- Of any four symbols, one is after a wanted change. -/
def Lively (sym : ℤ → Bool) (p : Polarity) : Prop := ∀ k : ℤ, ∃ j, k < j ∧ j ≤ k + 4 ∧ sym (j - 1) ≠ sym j ∧ Wanted p (sym j) = true

/-- In a range of the record there is an edge. -/
theorem marks_lively {J : ℚ} {p : Polarity} {es : List ℚ} {ks : List ℤ} (hm : Marks t s T w J sym p es ks) (hv : Lively sym p) (hT : 0 < T) (k : ℤ)
    (h1 : t.getD 0 0 ≤ s + (k + 1) * T - w) (h2 : s + (k + 4) * T + w ≤ t.getD (t.length - 1) 0) : ∃ j ∈ ks, k < j ∧ j ≤ k + 4 := by
  obtain ⟨j, j1, j2, j3, j4⟩ := hv k
  refine ⟨j, hm.all j j3 j4 ?_ ?_, j1, j2⟩
  · have : (k : ℚ) + 1 ≤ j := by exact_mod_cast j1
    have := mul_le_mul_of_nonneg_right this hT.le
    linarith
  · have : (j : ℚ) ≤ k + 4 := by exact_mod_cast j2
    have := mul_le_mul_of_nonneg_right this hT.le
    linarith

theorem forall₂_mem_right {α β : Type} {r : α → β → Prop} {a : List α} {b : List β} (h : List.Forall₂ r a b) : ∀ x ∈ b, ∃ y ∈ a, r y x := by
  induction h with
  | nil => intro x hx; cases hx
  | cons hab _ ih =>
    intro x hx
    rcases List.mem_cons.1 hx with rfl | hx
    · exact ⟨_, by simp, hab⟩
    · obtain ⟨y, h1, h2⟩ := ih x hx
      exact ⟨y, List.mem_cons_of_mem _ h1, h2⟩

/-- Neighbouring edges are at most four symbols apart. -/
theorem marks_gaps {J : ℚ} {p : Polarity} {es : List ℚ} {ks : List ℤ} (hm : Marks t s T w J sym p es ks) (hv : Lively sym p) (hw : w ≤ J)
    (hJ : 2 * J < T) (hT : 0 < T) : ∀ i (h : i + 1 < ks.length), ks[i + 1] ≤ ks[i] + 4 := by
  intro i hi
  by_contra hc
  push Not at hc
  obtain ⟨j, j1, j2, j3, j4⟩ := hv ks[i]
  have hin : ∀ k ∈ ks, t.getD 0 0 - J ≤ s + k * T ∧ s + k * T ≤ t.getD (t.length - 1) 0 + J := by
    intro k hk
    obtain ⟨e, he, hek⟩ := forall₂_mem_right hm.near k hk
    have := hm.inside e he
    have := abs_le.1 hek
    constructor <;> linarith
  have a1 := (hin ks[i] (List.getElem_mem _)).1
  have a2 := (hin ks[i + 1] (List.getElem_mem _)).2
  have c1 : (ks[i] : ℚ) + 1 ≤ j := by exact_mod_cast j1
  have c2 : (j : ℚ) + 1 ≤ ks[i + 1] := by exact_mod_cast (by omega : j + 1 ≤ ks[i + 1])
  have d1 := mul_le_mul_of_nonneg_right c1 hT.le
  have d2 := mul_le_mul_of_nonneg_right c2 hT.le
  have hj := hm.all j j3 j4 (by linarith) (by linarith)
  obtain ⟨m, m1, m2⟩ := List.getElem_of_mem hj
  have ho := List.pairwise_iff_getElem.1 hm.order
  rcases Nat.lt_or_ge i m with g | g
  · rcases Nat.lt_or_ge (i + 1) m with g' | g'
    · have := ho (i + 1) m hi m1 g'
      rw [m2] at this
      omega
    · have e : m = i + 1 := by omega
      subst e
      omega
  · rcases Nat.lt_or_eq_of_le g with g' | g'
    · have := ho m i m1 (by omega) g'
      rw [m2] at this
      omega
    · subst g'
      omega

/-- The number of symbols between the first and the last edge. -/
theorem marks_span : ∀ (ks : List ℤ) (k : ℤ), (k :: ks).Pairwise (· < ·) → (∀ i (h : i + 1 < (k :: ks).length), (k :: ks)[i + 1] ≤ (k :: ks)[i] + 4) →
    (ks.length : ℤ) ≤ (k :: ks).getLast (List.cons_ne_nil _ _) - k ∧ (k :: ks).getLast (List.cons_ne_nil _ _) - k ≤ 4 * ks.length := by
  intro ks
  induction ks with
  | nil => intro k _ _; simp
  | cons a ks ih =>
    intro k h1 h2
    have h3 := ih a (List.pairwise_cons.1 h1).2 fun i hi => h2 (i + 1) (by simpa using hi)
    have h4 := h2 0 (by simp)
    have h5 := (List.pairwise_cons.1 h1).1 a (by simp)
    simp only [List.getElem_cons_succ, List.getElem_cons_zero] at h4
    rw [List.getLast_cons (List.cons_ne_nil _ _)]
    simp only [List.length_cons]
    push_cast
    omega

end Verif.Props.Keyed
