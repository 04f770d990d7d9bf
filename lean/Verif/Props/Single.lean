import Verif.Props.LinesC
import Verif.Props.FloatStats

/-!
C12, continued: the thresholds of the compiled `crossing`, `edges`, `edges_np` are rounded to single precision.  Numbers with at most 24 significant
bits are not changed; otherwise edges move along the waveform, and may be lost.
-/

namespace Verif.Props.Single

open Verif Verif.Lines Verif.LinesC Verif.Float Verif.Props.Crossing

/-! ### Single precision -/

/-- C12: numbers with 24 significant bits are not changed. -/
theorem C12_single_fits (m k : ℤ) (hm : |m| ≤ 2 ^ 24) : single (m * 2 ^ k) = m * 2 ^ k := by
  by_cases h0 : m = 0
  · subst h0; simp [single, Float.roundEven]
  set z : ℚ := m * 2 ^ k with hz
  have hz0 : 0 < |z| := by
    rw [hz]; apply abs_pos.2; exact mul_ne_zero (by exact_mod_cast h0) (FloatStats.two_zpow_pos k).ne'
  have hl : (2:ℚ) ^ Int.log 2 |z| ≤ |z| := Int.zpow_log_le_self (by norm_num) hz0
  unfold single
  set e := Int.log 2 |z|
  have hs := FloatStats.two_zpow_pos (23 - e)
  have hint : ∃ n : ℤ, z * 2 ^ (23 - e) = n := by
    have e1 : z * 2 ^ (23 - e) = m * 2 ^ (k + (23 - e)) := by
      rw [hz, mul_assoc, ← zpow_add₀ (by norm_num)]
    by_cases hk : 0 ≤ k + (23 - e)
    · obtain ⟨j, hj⟩ := Int.eq_ofNat_of_zero_le hk
      refine ⟨m * 2 ^ j, ?_⟩
      rw [e1, hj]
      push_cast
      rw [zpow_natCast]
    · push Not at hk
      have hmq : |(m:ℚ)| ≤ 2 ^ (24:ℤ) := by
        have : ((|m| : ℤ) : ℚ) ≤ ((2 ^ 24 : ℤ) : ℚ) := by exact_mod_cast hm
        rw [Int.cast_abs] at this
        norm_num at this ⊢
        exact this
      have hza : |z| = |(m:ℚ)| * 2 ^ k := by rw [hz, abs_mul, abs_of_pos (FloatStats.two_zpow_pos k)]
      have hle : (2:ℚ) ^ e ≤ 2 ^ (24 + k) := by
        rw [zpow_add₀ (by norm_num)]
        calc (2:ℚ) ^ e ≤ |z| := hl
          _ = |(m:ℚ)| * 2 ^ k := hza
          _ ≤ _ := mul_le_mul_of_nonneg_right hmq (FloatStats.two_zpow_pos k).le
      have hek : e ≤ 24 + k := (zpow_le_zpow_iff_right₀ (by norm_num)).1 hle
      have hee : e = 24 + k := by omega
      have hme : |(m:ℚ)| = 2 ^ (24:ℤ) := by
        apply le_antisymm hmq
        rw [hee, hza, zpow_add₀ (by norm_num)] at hl
        exact le_of_mul_le_mul_right hl (FloatStats.two_zpow_pos k)
      have hkk : k + (23 - e) = -1 := by omega
      rw [e1, hkk]
      rcases (abs_eq (FloatStats.two_zpow_pos 24).le).1 hme with h | h
      · exact ⟨2 ^ 23, by rw [h]; norm_num⟩
      · exact ⟨-2 ^ 23, by rw [h]; norm_num⟩
  obtain ⟨n, hn⟩ := hint
  rw [hn, FloatStats.roundEven_int, ← hn]
  field_simp

/-- C12: the relative error of other numbers. -/
theorem C12_single_near (x : ℚ) : |single x - x| ≤ 1 / 2 ^ 24 * |x| := by
  by_cases hx : x = 0
  · subst hx; simp [single, Float.roundEven]
  · have hx' : 0 < |x| := abs_pos.2 hx
    have hl : (2:ℚ) ^ Int.log 2 |x| ≤ |x| := Int.zpow_log_le_self (by norm_num) hx'
    unfold single
    set e := Int.log 2 |x|
    have hs : (0:ℚ) < 2 ^ (23 - e) := zpow_pos (by norm_num) _
    have h1 : (Float.roundEven (x * 2 ^ (23 - e)) : ℚ) / 2 ^ (23 - e) - x =
        (Float.roundEven (x * 2 ^ (23 - e)) - x * 2 ^ (23 - e)) / 2 ^ (23 - e) := by field_simp
    rw [h1, abs_div, abs_of_pos hs, div_le_iff₀ hs]
    refine (Float.roundEven_near _).trans ?_
    have h2 : (2:ℚ) ^ e * 2 ^ (23 - e) = 2 ^ (23:ℤ) := by
      rw [← zpow_add₀ (by norm_num)]; congr 1; ring
    have h3 : (2:ℚ) ^ (23:ℤ) ≤ |x| * 2 ^ (23 - e) := by
      rw [← h2]; exact mul_le_mul_of_nonneg_right hl hs.le
    have h4 : (2:ℚ) ^ (23:ℤ) = 8388608 := by norm_num
    rw [h4] at h3
    rw [mul_assoc]
    norm_num
    linarith


/-! ### Thresholds that are not changed -/

/-- C12, only part of the claim: both versions of `crossing` return the same for values with 24 significant bits.  Missing: other values, for which
it does not hold (`C12_crossing_fails`). -/
theorem C12_crossing_partial (mem : ℤ → ℚ) (ret srch : List ℚ) (i : ℤ) (v : ℚ) (fwd : Bool) (n : ℕ)
    (hn : n ≤ srch.length) (hr : (if n = 0 then srch.length else n) ≤ ret.length) (hv : single v = v) :
    crossingPyx mem ret srch i v fwd n = crossing ret srch i v fwd n := by
  rw [LinesC.C12_crossing mem ret srch i v fwd n hn hr, hv]

/-- C12, only part of the claim: both versions of `edges` and of `edges_np` return the same for thresholds with 24 significant bits.  Missing: other
thresholds, see `C12_edges_moved` and `C12_edges_fails`. -/
theorem C12_edges_partial (mem : ℤ → ℚ) (t y : List ℚ) (r h f : ℚ) (hl : t.length = y.length) (hy : y ≠ []) (h1 : single r = r) (h2 : single h = h)
    (h3 : single f = f) : edgesPyx mem t y r h f = edges t y r h f ∧ edgesPyx mem t y r h f = edgesNp t y r h f := by
  have := LinesC.C12_edges mem t y r h f hl hy
  rwa [h1, h2, h3] at this

/-! ### Thresholds that are changed -/

theorem crossLoop_same (y : List ℚ) (v v' : ℚ) (hs : ∀ a ∈ y, a > v ↔ a > v') (fwd : Bool) (n : ℕ) : ∀ (fuel : ℕ) (i : ℤ),
    crossLoop y v' fwd n fuel i = crossLoop y v fwd n fuel i := by
  intro fuel
  induction fuel with
  | zero => intro i; rfl
  | succ fuel ih =>
    intro i
    unfold crossLoop
    split
    · unfold pyGet
      cases ha : y[i.toNat]? with
      | none => rfl
      | some a =>
        cases hb : y[i.toNat - 1]? with
        | none => rfl
        | some b =>
          have h1 := hs a (List.mem_of_getElem? ha)
          have h2 := hs b (List.mem_of_getElem? hb)
          simp only [bind, Except.bind]
          rw [ih]
          simp only [h1, h2]
    · rfl

/-- The same edge, moved along the line between two samples on both sides of the threshold, by less than the distance of the samples. -/
def Moved (t y : List ℚ) (h h' : ℚ) : Option ℚ → Option ℚ → Prop
  | none, none => True
  | some a, some b => ∃ i, i + 1 < t.length ∧ SideChange y h (i + 1) ∧
      (b - a) * (y.getD (i + 1) 0 - y.getD i 0) = (t.getD (i + 1) 0 - t.getD i 0) * (h' - h) ∧ |b - a| ≤ |t.getD (i + 1) 0 - t.getD i 0|
  | _, _ => False

theorem crossing_moved (t y : List ℚ) (v v' : ℚ) (hs : ∀ a ∈ y, a > v ↔ a > v') (i : ℤ) (fwd : Bool) (n : ℕ) :
    (∀ e, crossing t y i v fwd n = .error e → crossing t y i v' fwd n = .error e) ∧
    (∀ c, crossing t y i v fwd n = .ok c → ∃ c', crossing t y i v' fwd n = .ok c' ∧ Moved t y v v' c.1 c'.1) := by
  constructor
  · unfold crossing
    simp only [bind, Except.bind, pure, Except.pure]
    rw [crossLoop_same y v v' hs]
    generalize (if n = 0 then y.length else n) = n'
    generalize crossLoop y v fwd n' (n' + 1) i = c
    cases c with
    | error e => exact fun _ h => h
    | ok j =>
      simp only
      by_cases hj : j < 1 ∨ j ≥ n'
      · rw [if_pos hj, if_pos hj]
        exact fun _ h => h
      · rw [if_neg hj, if_neg hj]
        cases pyGet t (j.toNat - 1) with
        | error e => exact fun _ h => h
        | ok x1 =>
          cases pyGet t j.toNat with
          | error e => exact fun _ h => h
          | ok x2 =>
            cases pyGet y (j.toNat - 1) with
            | error e => exact fun _ h => h
            | ok y1 =>
              cases pyGet y j.toNat with
              | error e => exact fun _ h => h
              | ok y2 => intro e h; cases h
  · rintro ⟨z, j⟩ h
    have hidx : ∀ a, z = some a → 1 ≤ j.toNat ∧ j.toNat < t.length := fun a ha => Float.crossing_index t y i v fwd n a j (ha ▸ h)
    unfold crossing at h ⊢
    simp only [bind, Except.bind, pure, Except.pure] at h ⊢
    rw [crossLoop_same y v v' hs]
    generalize (if n = 0 then y.length else n) = n' at h ⊢
    cases hl : crossLoop y v fwd n' (n' + 1) i with
    | error e => rw [hl] at h; cases h
    | ok k =>
      rw [hl] at h
      simp only at h ⊢
      by_cases hk : k < 1 ∨ k ≥ n'
      · rw [if_pos hk] at h ⊢
        cases h
        exact ⟨_, rfl, trivial⟩
      · rw [if_neg hk] at h ⊢
        push Not at hk
        have hc := Float.crossLoop_exit y v fwd n' _ _ _ hl (by omega) hk.2
        cases h1 : pyGet t (k.toNat - 1) with
        | error e => rw [h1] at h; cases h
        | ok x1 =>
          cases h2 : pyGet t k.toNat with
          | error e => rw [h1, h2] at h; cases h
          | ok x2 =>
            cases h3 : pyGet y (k.toNat - 1) with
            | error e => rw [h1, h2, h3] at h; cases h
            | ok y1 =>
              cases h4 : pyGet y k.toNat with
              | error e => rw [h1, h2, h3, h4] at h; cases h
              | ok y2 =>
                rw [h1, h2, h3, h4] at h
                simp only [Except.ok.injEq, Prod.mk.injEq] at h
                obtain ⟨rfl, rfl⟩ := h
                obtain ⟨g1, g2⟩ := hidx _ rfl
                have m1 : y1 ∈ y := by
                  unfold pyGet at h3
                  cases hq : y[k.toNat - 1]? with
                  | none => rw [hq] at h3; cases h3
                  | some b => rw [hq] at h3; cases h3; exact List.mem_of_getElem? hq
                have m2 : y2 ∈ y := by
                  unfold pyGet at h4
                  cases hq : y[k.toNat]? with
                  | none => rw [hq] at h4; cases h4
                  | some b => rw [hq] at h4; cases h4; exact List.mem_of_getElem? hq
                refine ⟨_, rfl, k.toNat - 1, by omega, ?_⟩
                rw [show k.toNat - 1 + 1 = k.toNat by omega]
                have e := hc
                unfold SideChange at e
                rw [Float.pyGet_getD h3, Float.pyGet_getD h4] at e
                rw [Float.pyGet_getD h1, Float.pyGet_getD h2, Float.pyGet_getD h3, Float.pyGet_getD h4]
                have hne : y2 - y1 ≠ 0 := by rcases e with e | e <;> intro h0 <;> linarith
                have hd : (x2 - x1) / (y2 - y1) * (v' - y1) + x1 - ((x2 - x1) / (y2 - y1) * (v - y1) + x1) =
                    (x2 - x1) * ((v' - v) / (y2 - y1)) := by field_simp; ring
                have hb : |(v' - v) / (y2 - y1)| ≤ 1 := by
                  rw [abs_div, div_le_one (abs_pos.2 hne)]
                  have s1 := hs y1 m1
                  have s2 := hs y2 m2
                  rcases e with ⟨e1, e2⟩ | ⟨e1, e2⟩
                  · have f1 : ¬ y1 > v' := fun hh => absurd (s1.2 hh) (not_lt.2 e1)
                    have f2 := s2.1 e2
                    rw [abs_of_pos (by linarith : 0 < y2 - y1), abs_le]
                    constructor <;> linarith
                  · have f1 : ¬ y2 > v' := fun hh => absurd (s2.2 hh) (not_lt.2 e1)
                    have f2 := s1.1 e2
                    rw [abs_of_neg (by linarith : y2 - y1 < 0), abs_le]
                    constructor <;> linarith
                refine ⟨hc, ?_, ?_⟩
                · rw [hd]; field_simp
                · rw [hd, abs_mul]
                  exact mul_le_of_le_one_right (abs_nonneg _) hb

/-- C12: if no sample is between a threshold and the same threshold in single precision, the compiled `edges_np` finds the same edges (the same
exceptions), each moved along the line between the two samples by the change of the threshold, which is at most its 2^24th part
(`C12_single_near`). -/
theorem C12_edges_moved (mem : ℤ → ℚ) (t y : List ℚ) (r h f : ℚ) (hl : t.length = y.length) (hy : y ≠ [])
    (hs : ∀ a ∈ y, (a > r ↔ a > single r) ∧ (a > h ↔ a > single h) ∧ (a < f ↔ a < single f)) :
    (∀ e, edgesNp t y r h f = .error e → edgesPyx mem t y r h f = .error e) ∧
    (∀ R F, edgesNp t y r h f = .ok (R, F) → ∃ R' F', edgesPyx mem t y r h f = .ok (R', F') ∧
      List.Forall₂ (Moved t y h (single h)) R R' ∧ List.Forall₂ (Moved t y h (single h)) F F') := by
  rw [(LinesC.C12_edges mem t y r h f hl hy).2]
  generalize single r = r' at hs
  generalize single h = h' at hs
  generalize single f = f' at hs
  have hc : ∀ i : ℕ, _ := fun i : ℕ => crossing_moved t y h h' (fun a ha => (hs a ha).2.1) i false t.length
  let P : EdgeState → EdgeState → Prop := fun s s' =>
    s.low = s'.low ∧ List.Forall₂ (Moved t y h h') s.rise s'.rise ∧ List.Forall₂ (Moved t y h h') s.fall s'.fall
  have hmem : ∀ {i : ℕ} {v : ℚ}, pyGet y i = .ok v → v ∈ y := by
    intro i v hv
    unfold pyGet at hv
    cases hq : y[i]? with
    | none => rw [hq] at hv; cases hv
    | some b => rw [hq] at hv; cases hv; exact List.mem_of_getElem? hq
  have hstep : ∀ (i : ℕ) (s s' : EdgeState), P s s' →
      (∀ e, edgeStep t y r h f t.length s i = .error e → edgeStep t y r' h' f' t.length s' i = .error e) ∧
      (∀ a, edgeStep t y r h f t.length s i = .ok a → ∃ b, edgeStep t y r' h' f' t.length s' i = .ok b ∧ P a b) := by
    rintro i s s' ⟨p1, p2, p3⟩
    unfold edgeStep
    simp only [bind, Except.bind, pure, Except.pure]
    cases hg : pyGet y i with
    | error e => simp
    | ok v =>
      obtain ⟨q1, -, q3⟩ := hs v (hmem hg)
      simp only [p1, q1, q3]
      have same : P s s' := ⟨p1, p2, p3⟩
      split_ifs
      · cases hx : crossing t y i h false t.length with
        | error e => rw [(hc i).1 e hx]; simp
        | ok c =>
          obtain ⟨c', h1, h2⟩ := (hc i).2 c hx
          rw [h1]
          refine ⟨fun e h => by simp at h, fun a h => ?_⟩
          cases h
          exact ⟨_, rfl, rfl, List.rel_append p2 (List.Forall₂.cons h2 .nil), p3⟩
      · refine ⟨fun e h => by simp at h, fun a h => ?_⟩
        cases h
        exact ⟨_, rfl, same⟩
      · cases hx : crossing t y i h false t.length with
        | error e => rw [(hc i).1 e hx]; simp
        | ok c =>
          obtain ⟨c', h1, h2⟩ := (hc i).2 c hx
          rw [h1]
          refine ⟨fun e h => by simp at h, fun a h => ?_⟩
          cases h
          exact ⟨_, rfl, rfl, p2, List.rel_append p3 (List.Forall₂.cons h2 .nil)⟩
      · refine ⟨fun e h => by simp at h, fun a h => ?_⟩
        cases h
        exact ⟨_, rfl, same⟩
  unfold edgesNp
  simp only [bind, Except.bind, pure, Except.pure]
  cases hg : pyGet y 0 with
  | error e => simp
  | ok y0 =>
    simp only
    have h0 : decide (y0 < f) = decide (y0 < f') := by simp only [(hs y0 (hmem hg)).2.2]
    obtain ⟨q1, q2⟩ := Float.foldlM_rel (edgeStep t y r h f t.length) (edgeStep t y r' h' f' t.length) P
      (List.range' 1 (t.length - 1)) ⟨decide (y0 < f), [], []⟩ ⟨decide (y0 < f'), [], []⟩ ⟨h0, .nil, .nil⟩
      (fun i _ s s' hP => hstep i s s' hP)
    cases hx : (List.range' 1 (t.length - 1)).foldlM (edgeStep t y r h f t.length) ⟨decide (y0 < f), [], []⟩ with
    | error e => rw [q1 e hx]; simp
    | ok a =>
      obtain ⟨b, h1, h2⟩ := q2 a hx
      rw [h1]
      refine ⟨fun e h => by simp at h, fun r f h => ?_⟩
      cases h
      exact ⟨_, _, rfl, h2.2.1, h2.2.2⟩

/-- **C12 fails** for `crossing`: a value with 25 significant bits. -/
theorem C12_crossing_fails : ∃ (ret srch : List ℚ) (v : ℚ), (∀ mem, crossingPyx mem ret srch 1 v ≠ crossing ret srch 1 v) ∧
    ∀ x ∈ v :: ret ++ srch, double.fl x = x := by
  refine ⟨[0, 1], [0, 1], 1 / 2 + 1 / 2 ^ 25, fun mem => ?_, by decide +kernel⟩
  rw [LinesC.C12_crossing mem _ _ _ _ _ _ (by decide) (by decide)]
  decide +kernel

/-- **C12 fails** for `edges` and `edges_np`: a square wave with an amplitude of 2 on an offset of 2^24.  The fallback finds its edges, the compiled
version none. -/
theorem C12_edges_fails : ∃ (t y : List ℚ) (r h f : ℚ), edgesNp t y r h f = .ok ([some (1 / 2), some (5 / 2)], [some (3 / 2)]) ∧
    edges t y r h f = edgesNp t y r h f ∧ (∀ mem, edgesPyx mem t y r h f = .ok ([], [])) ∧ ∀ x ∈ [r, h, f] ++ t ++ y, double.fl x = x := by
  refine ⟨[0, 1, 2, 3], [16777216, 16777218, 16777216, 16777218], 16777217 + 1 / 4, 16777217, 16777217 - 1 / 4, by decide +kernel,
    by decide +kernel, fun mem => ?_, by decide +kernel⟩
  rw [(LinesC.C12_edges mem _ _ _ _ _ (by decide) (by decide)).2]
  decide +kernel

/-- The hypotheses of `C12_edges_partial` are met by the thresholds of levels 0 and 3/2 with a hysteresis of a tenth of 3/2 ... -/
example : single (3 / 4) = 3 / 4 ∧ single (7 / 8) = 7 / 8 ∧ single (5 / 8) = 5 / 8 := by decide +kernel

/-- ... and those of `C12_edges_moved` by thresholds around 0.1 between samples at 0 and 0.2; the edge moves. -/
example : (∀ a ∈ ([0, 1 / 5, 0] : List ℚ), (a > 11 / 100 ↔ a > single (11 / 100)) ∧ (a > 1 / 10 ↔ a > single (1 / 10)) ∧
      (a < 9 / 100 ↔ a < single (9 / 100))) ∧
    edgesNp [0, 1, 2] [0, 1 / 5, 0] (11 / 100) (1 / 10) (9 / 100) = .ok ([some (1 / 2)], [some (3 / 2)]) ∧
    edgesPyx (fun _ => 0) [0, 1, 2] [0, 1 / 5, 0] (11 / 100) (1 / 10) (9 / 100) =
      .ok ([some (1 / 2 + 1 / 2 ^ 27)], [some (3 / 2 - 1 / 2 ^ 27)]) := by decide +kernel

/-- `C12_single_fits`: a threshold of 0.75. -/
example : |(3 : ℤ)| ≤ 2 ^ 24 := by decide

end Verif.Props.Single
