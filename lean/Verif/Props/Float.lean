import Verif.Model.Float
import Verif.Props.Edges
import Verif.Props.Intersect

/-!
C80: `lines.crossing`, `lines.edges_np`, `lines.intersection`, `lines.hits`, `lines.is_hitting` in rounded arithmetic.
-/

namespace Verif.Props.Float

open Verif Verif.Lines Verif.Float Verif.Props.Crossing Verif.Props.Edges Verif.Props.Intersect

/-! ### Rounded operations -/

theorem rel (R : Rounding) (x : ℚ) : ∃ δ, |δ| ≤ R.u ∧ R.fl x = x * (1 + δ) := by
  have h := R.err x
  by_cases hx : x = 0
  · subst hx
    refine ⟨0, by simpa using R.u_nonneg, ?_⟩
    simpa using h
  · refine ⟨R.fl x / x - 1, ?_, by field_simp; ring⟩
    have : R.fl x / x - 1 = (R.fl x - x) / x := by field_simp
    rw [this, abs_div, div_le_iff₀ (abs_pos.2 hx)]
    exact h

theorem fl_zero (R : Rounding) : R.fl 0 = 0 := by simpa using R.err 0

/-- Rounding keeps the sign. -/
theorem fl_pos (R : Rounding) {x : ℚ} : 0 < R.fl x ↔ 0 < x := by
  obtain ⟨δ, h, e⟩ := rel R x
  have := abs_le.1 (h.trans R.u_small)
  rw [e]
  constructor
  · intro h; by_contra hx; push Not at hx; nlinarith
  · intro h; nlinarith

theorem fl_neg (R : Rounding) {x : ℚ} : R.fl x < 0 ↔ x < 0 := by
  obtain ⟨δ, h, e⟩ := rel R x
  have := abs_le.1 (h.trans R.u_small)
  rw [e]
  constructor
  · intro h; by_contra hx; push Not at hx; nlinarith
  · intro h; nlinarith

theorem fl_eq_zero (R : Rounding) {x : ℚ} : R.fl x = 0 ↔ x = 0 := by
  obtain ⟨δ, h, e⟩ := rel R x
  have := abs_le.1 (h.trans R.u_small)
  rw [e, mul_eq_zero]
  constructor
  · rintro (h | h)
    · exact h
    · linarith
  · exact Or.inl

/-- One more rounding of a product of roundings. -/
theorem step {u k x δ : ℚ} (hu : 0 ≤ u) (hs : u ≤ 1 / 100) (hk : 0 ≤ k) (hx : |x - 1| ≤ k * u) (hδ : |δ| ≤ u) :
    |x * (1 + δ) - 1| ≤ (k + 1 + k / 100) * u := by
  have h1 : x * (1 + δ) - 1 = (x - 1) + ((x - 1) * δ + δ) := by ring
  rw [h1]
  have h2 : |(x - 1) * δ| ≤ k * u * u := by
    rw [abs_mul]; exact mul_le_mul hx hδ (abs_nonneg _) (by positivity)
  have h3 : k * u * u ≤ k / 100 * u := by nlinarith [mul_nonneg hk hu]
  have := abs_add_le (x - 1) ((x - 1) * δ + δ)
  have := abs_add_le ((x - 1) * δ) δ
  nlinarith

theorem step_div {u k x δ : ℚ} (hu : 0 ≤ u) (hs : u ≤ 1 / 100) (hk : 0 ≤ k) (hx : |x - 1| ≤ k * u) (hδ : |δ| ≤ u) :
    |x / (1 + δ) - 1| ≤ ((k + 1) * (100 / 99)) * u := by
  have hd := abs_le.1 hδ
  have hp : 0 < 1 + δ := by linarith
  have h1 : x / (1 + δ) - 1 = ((x - 1) - δ) / (1 + δ) := by field_simp; ring
  rw [h1, abs_div, abs_of_pos hp, div_le_iff₀ hp]
  have h2 : |x - 1 - δ| ≤ (k + 1) * u := by
    have := abs_sub (x - 1) δ
    linarith
  have h3 : (0:ℚ) ≤ (k + 1) * u := by positivity
  nlinarith

/-- The interpolation of `crossing` in rounded arithmetic. -/
theorem interpF_near (R : Rounding) (x1 x2 y1 y2 v : ℚ) (hv : (y1 ≤ v ∧ v < y2) ∨ (y2 ≤ v ∧ v < y1)) :
    |interpF R x1 x2 y1 y2 v - ((x2 - x1) / (y2 - y1) * (v - y1) + x1)| ≤ R.u * (|x1| + 8 * |x2 - x1|) := by
  obtain ⟨a, ha, ea⟩ := rel R (x2 - x1)
  obtain ⟨b, hb, eb⟩ := rel R (y2 - y1)
  obtain ⟨c, hc, ec⟩ := rel R (R.fl (x2 - x1) / R.fl (y2 - y1))
  obtain ⟨d, hd, ed⟩ := rel R (v - y1)
  obtain ⟨e, he, ee⟩ := rel R (R.fl (R.fl (x2 - x1) / R.fl (y2 - y1)) * R.fl (v - y1))
  obtain ⟨f, hf, ef⟩ := rel R (R.fl (R.fl (R.fl (x2 - x1) / R.fl (y2 - y1)) * R.fl (v - y1)) + x1)
  have hu := R.u_nonneg
  have hs := R.u_small
  have hbp : 1 + b ≠ 0 := by have := abs_le.1 (hb.trans hs); intro h; linarith
  have hy : y2 - y1 ≠ 0 := by rcases hv with h | h <;> intro h0 <;> linarith
  set P := (1 + a) * (1 + c) * (1 + d) * (1 + e) / (1 + b) with hP
  have hPb : |P - 1| ≤ 6 * R.u := by
    have s1 : |(1 + a) - 1| ≤ 1 * R.u := by simpa using ha
    have s2 := step hu hs (by norm_num) s1 hc
    have s3 := step hu hs (by norm_num) s2 hd
    have s4 := step hu hs (by norm_num) s3 he
    have s5 := step_div hu hs (by norm_num) s4 hb
    rw [hP]
    nlinarith
  set s := (v - y1) / (y2 - y1) with hsd
  have hs01 : |s| ≤ 1 := by
    rw [hsd, abs_div, div_le_one (abs_pos.2 hy)]
    rcases hv with h | h
    · rw [abs_of_nonneg (by linarith), abs_of_pos (by linarith)]; linarith
    · rw [abs_of_neg (by linarith), abs_of_neg (by linarith)]; linarith
  have hm : R.fl (R.fl (R.fl (x2 - x1) / R.fl (y2 - y1)) * R.fl (v - y1)) = s * (x2 - x1) * P := by
    rw [ee, ec, ea, eb, ed, hP, hsd]
    field_simp
  have hex : (x2 - x1) / (y2 - y1) * (v - y1) + x1 = s * (x2 - x1) + x1 := by
    rw [hsd]; field_simp
  unfold interpF
  rw [ef, hm, hex]
  set X := x2 - x1
  have h1 : (s * X * P + x1) * (1 + f) - (s * X + x1) = s * X * (P - 1) + (s * X * (P - 1) * f + (s * X * f + x1 * f)) := by ring
  rw [h1]
  have b1 : |s * X| ≤ |X| := by
    rw [abs_mul]; nlinarith [abs_nonneg X]
  have b2 : |s * X * (P - 1)| ≤ |X| * (6 * R.u) := by
    rw [abs_mul]; exact mul_le_mul b1 hPb (abs_nonneg _) (abs_nonneg _)
  have b3 : |s * X * (P - 1) * f| ≤ |X| * (6 * R.u) * (1 / 100) := by
    rw [abs_mul]; exact mul_le_mul b2 (hf.trans hs) (abs_nonneg _) (by positivity)
  have b4 : |s * X * f| ≤ |X| * R.u := by
    rw [abs_mul]; exact mul_le_mul b1 hf (abs_nonneg _) (abs_nonneg _)
  have b5 : |x1 * f| ≤ |x1| * R.u := by
    rw [abs_mul]; exact mul_le_mul_of_nonneg_left hf (abs_nonneg _)
  have := abs_add_le (s * X * (P - 1)) (s * X * (P - 1) * f + (s * X * f + x1 * f))
  have := abs_add_le (s * X * (P - 1) * f) (s * X * f + x1 * f)
  have := abs_add_le (s * X * f) (x1 * f)
  have : 0 ≤ |X| * R.u := by positivity
  nlinarith

/-! ### Specification of the edges -/

/-- A rounded time belongs to an exact one: nan to nan, a number to a number that differs by no more than one rounding of a
time of size `M` and eight of a sample distance `H`. -/
def Close (u M H : ℚ) : Option ℚ → Option ℚ → Prop
  | none, none => True
  | some z, some z' => |z' - z| ≤ u * (M + 8 * H)
  | _, _ => False

theorem crossLoop_exit (y : List ℚ) (v : ℚ) (fwd : Bool) (n : ℕ) : ∀ (fuel : ℕ) (i j : ℤ),
    crossLoop y v fwd n fuel i = .ok j → 0 < j → j < n → SideChange y v j.toNat := by
  intro fuel
  induction fuel with
  | zero => intro i j h; cases h
  | succ fuel ih =>
    intro i j h h0 hn
    unfold crossLoop at h
    split at h
    · rename_i hi
      unfold pyGet at h
      cases ha : y[i.toNat]? with
      | none => rw [ha] at h; cases h
      | some a =>
        cases hb : y[i.toNat - 1]? with
        | none => rw [ha, hb] at h; cases h
        | some b =>
          rw [ha, hb] at h
          simp only [bind, Except.bind, pure, Except.pure] at h
          split at h
          · exact ih _ _ h h0 hn
          · rename_i hne
            cases h
            have ga : y.getD i.toNat 0 = a := by rw [List.getD_eq_getElem?_getD, ha]; rfl
            have gb : y.getD (i.toNat - 1) 0 = b := by rw [List.getD_eq_getElem?_getD, hb]; rfl
            unfold SideChange
            rw [ga, gb]
            by_cases h1 : a > v <;> by_cases h2 : b > v
            · simp [h1, h2] at hne
            · left; exact ⟨not_lt.1 h2, h1⟩
            · right; exact ⟨not_lt.1 h1, h2⟩
            · simp [h1, h2] at hne
    · cases h
      omega

theorem pyGet_getD {l : List ℚ} {i : ℕ} {a : ℚ} (h : pyGet l i = .ok a) : l.getD i 0 = a := by
  unfold pyGet at h
  rw [List.getD_eq_getElem?_getD]
  cases hl : l[i]? with
  | none => rw [hl] at h; cases h
  | some b => rw [hl] at h; cases h; rfl

/-- **C80 (crossings).** In rounded arithmetic `crossing` finds the same sample, is nan in the same cases and raises the same
errors; the interpolated value is off by no more than one rounding of the first sample and eight of the step. -/
theorem C80_crossing (R : Rounding) (x y : List ℚ) (i : ℤ) (v : ℚ) (fwd : Bool) (n : ℕ) :
    (∀ e, crossing x y i v fwd n = .error e → crossingF R x y i v fwd n = .error e) ∧
    (∀ j, crossing x y i v fwd n = .ok (none, j) → crossingF R x y i v fwd n = .ok (none, j)) ∧
    (∀ z j, crossing x y i v fwd n = .ok (some z, j) → ∃ z', crossingF R x y i v fwd n = .ok (some z', j) ∧
      |z' - z| ≤ R.u * (|x.getD (j.toNat - 1) 0| + 8 * |x.getD j.toNat 0 - x.getD (j.toNat - 1) 0|)) := by
  unfold crossing crossingF
  simp only [bind, Except.bind, pure, Except.pure]
  generalize hn : (if n = 0 then y.length else n) = n'
  cases hl : crossLoop y v fwd n' (n' + 1) i with
  | error e => simp
  | ok j =>
    simp only
    by_cases hj : j < 1 ∨ j ≥ n'
    · simp [hj]
    · simp only [hj, if_false]
      push Not at hj
      have hc := crossLoop_exit y v fwd n' _ _ _ hl (by omega) hj.2
      cases h1 : pyGet x (j.toNat - 1) with
      | error e => simp
      | ok x1 =>
        cases h2 : pyGet x j.toNat with
        | error e => simp
        | ok x2 =>
          cases h3 : pyGet y (j.toNat - 1) with
          | error e => simp
          | ok y1 =>
            cases h4 : pyGet y j.toNat with
            | error e => simp
            | ok y2 =>
              unfold SideChange at hc
              rw [pyGet_getD h3, pyGet_getD h4] at hc
              have hy : R.fl (y2 - y1) ≠ 0 := by
                rw [Ne, fl_eq_zero]
                rcases hc with h | h <;> intro h0 <;> linarith
              simp only [hy, if_false]
              refine ⟨fun e h => by simp at h, fun j h => by simp at h, fun z k h => ?_⟩
              simp only [Except.ok.injEq, Prod.mk.injEq, Option.some.injEq] at h
              obtain ⟨rfl, rfl⟩ := h
              refine ⟨_, rfl, ?_⟩
              rw [pyGet_getD h1, pyGet_getD h2]
              exact interpF_near R x1 x2 y1 y2 v hc

/-! ### Edges -/

theorem foldlM_rel {σ : Type} (f g : σ → ℕ → Except PyErr σ) (P : σ → σ → Prop) : ∀ (l : List ℕ) (s s' : σ), P s s' →
    (∀ i ∈ l, ∀ s s', P s s' → (∀ e, f s i = .error e → g s' i = .error e) ∧
      (∀ a, f s i = .ok a → ∃ b, g s' i = .ok b ∧ P a b)) →
    (∀ e, l.foldlM f s = .error e → l.foldlM g s' = .error e) ∧
      (∀ a, l.foldlM f s = .ok a → ∃ b, l.foldlM g s' = .ok b ∧ P a b) := by
  intro l
  induction l with
  | nil =>
    intro s s' hP _
    refine ⟨fun e h => (by cases h), fun a h => ?_⟩
    cases h
    exact ⟨s', rfl, hP⟩
  | cons i l ih =>
    intro s s' hP hs
    have h1 := hs i List.mem_cons_self s s' hP
    simp only [List.foldlM_cons, bind, Except.bind]
    cases hf : f s i with
    | error e =>
      rw [h1.1 e hf]
      exact ⟨fun _ h => h, fun a h => (by cases h)⟩
    | ok a =>
      obtain ⟨b, hb, hab⟩ := h1.2 a hf
      rw [hb]
      exact ih a b hab (fun i hi => hs i (List.mem_cons_of_mem _ hi))

theorem crossing_index (x y : List ℚ) (i : ℤ) (v : ℚ) (fwd : Bool) (n : ℕ) (z : ℚ) (j : ℤ)
    (h : crossing x y i v fwd n = .ok (some z, j)) : 1 ≤ j.toNat ∧ j.toNat < x.length := by
  unfold crossing at h
  simp only [bind, Except.bind, pure, Except.pure] at h
  generalize (if n = 0 then y.length else n) = n' at h
  cases hl : crossLoop y v fwd n' (n' + 1) i with
  | error e => rw [hl] at h; cases h
  | ok k =>
    rw [hl] at h
    simp only at h
    by_cases hj : k < 1 ∨ k ≥ n'
    · simp [hj] at h
    · simp only [hj, if_false] at h
      push Not at hj
      unfold pyGet at h
      by_cases hk : k.toNat < x.length
      · have h1 : x[k.toNat]? = some x[k.toNat] := List.getElem?_eq_getElem hk
        have h2 : x[k.toNat - 1]? = some x[k.toNat - 1] := List.getElem?_eq_getElem (by omega)
        rw [h1, h2] at h
        simp only at h
        cases h3 : y[k.toNat - 1]? with
        | none => rw [h3] at h; cases h
        | some y1 =>
          cases h4 : y[k.toNat]? with
          | none => rw [h3, h4] at h; cases h
          | some y2 =>
            rw [h3, h4] at h
            simp only [Except.ok.injEq, Prod.mk.injEq] at h
            obtain ⟨_, rfl⟩ := h
            exact ⟨by omega, hk⟩
      · have h1 : x[k.toNat]? = none := List.getElem?_eq_none (by omega)
        rw [h1] at h
        cases h2 : x[k.toNat - 1]? with
        | none => rw [h2] at h; cases h
        | some b => rw [h2] at h; cases h

/-- **C80 (edges).** The edges of `edges_np` in rounded arithmetic are those of the exact arithmetic: the same errors, the same number of rising
and of falling edges, nan at the same places. -/
theorem C80_edges (R : Rounding) (t y : List ℚ) (yRise yHalf yFall M H : ℚ)
    (hM : ∀ v ∈ t, |v| ≤ M) (hH : ∀ i, i + 1 < t.length → |t.getD (i + 1) 0 - t.getD i 0| ≤ H) :
    (∀ e, edgesNp t y yRise yHalf yFall = .error e → edgesNpF R t y yRise yHalf yFall = .error e) ∧
    (∀ r f, edgesNp t y yRise yHalf yFall = .ok (r, f) → ∃ r' f', edgesNpF R t y yRise yHalf yFall = .ok (r', f') ∧
      List.Forall₂ (Close R.u M H) r r' ∧ List.Forall₂ (Close R.u M H) f f') := by
  have hc : ∀ i : ℕ, (∀ e, crossing t y i yHalf false t.length = .error e → crossingF R t y i yHalf false t.length = .error e) ∧
      (∀ c, crossing t y i yHalf false t.length = .ok c → ∃ c', crossingF R t y i yHalf false t.length = .ok c' ∧
        Close R.u M H c.1 c'.1) := by
    intro i
    obtain ⟨h1, h2, h3⟩ := C80_crossing R t y i yHalf false t.length
    refine ⟨h1, ?_⟩
    rintro ⟨z, j⟩ h
    cases z with
    | none => exact ⟨_, h2 j h, trivial⟩
    | some z =>
      obtain ⟨z', h4, h5⟩ := h3 z j h
      refine ⟨_, h4, h5.trans ?_⟩
      obtain ⟨g1, g2⟩ := crossing_index _ _ _ _ _ _ _ _ h
      refine mul_le_mul_of_nonneg_left ?_ R.u_nonneg
      have e1 : |t.getD (j.toNat - 1) 0| ≤ M := by
        rw [List.getD_eq_getElem _ _ (show j.toNat - 1 < t.length by omega)]
        exact hM _ (List.getElem_mem _)
      have e2 := hH (j.toNat - 1) (by omega)
      rw [show j.toNat - 1 + 1 = j.toNat by omega] at e2
      linarith
  let P : EdgeState → EdgeState → Prop := fun s s' =>
    s.low = s'.low ∧ List.Forall₂ (Close R.u M H) s.rise s'.rise ∧ List.Forall₂ (Close R.u M H) s.fall s'.fall
  have hstep : ∀ (i : ℕ) (s s' : EdgeState), P s s' →
      (∀ e, edgeStep t y yRise yHalf yFall t.length s i = .error e → edgeStepF R t y yRise yHalf yFall t.length s' i = .error e) ∧
      (∀ a, edgeStep t y yRise yHalf yFall t.length s i = .ok a →
        ∃ b, edgeStepF R t y yRise yHalf yFall t.length s' i = .ok b ∧ P a b) := by
    rintro i s s' ⟨p1, p2, p3⟩
    unfold edgeStep edgeStepF
    simp only [bind, Except.bind, pure, Except.pure]
    cases hg : pyGet y i with
    | error e => simp
    | ok v =>
      simp only [p1]
      have same : P s s' := ⟨p1, p2, p3⟩
      split_ifs
      · cases hx : crossing t y i yHalf false t.length with
        | error e => rw [(hc i).1 e hx]; simp
        | ok c =>
          obtain ⟨c', h1, h2⟩ := (hc i).2 c hx
          rw [h1]
          refine ⟨fun e h => by simp at h, fun a h => ?_⟩
          cases h
          exact ⟨_, rfl, rfl, List.rel_append p2 (List.Forall₂.cons h2 .nil), p3⟩
      · refine ⟨fun e h => by simp at h, fun a h => ?_⟩
        cases h
        exact ⟨_, rfl, same⟩
      · cases hx : crossing t y i yHalf false t.length with
        | error e => rw [(hc i).1 e hx]; simp
        | ok c =>
          obtain ⟨c', h1, h2⟩ := (hc i).2 c hx
          rw [h1]
          refine ⟨fun e h => by simp at h, fun a h => ?_⟩
          cases h
          exact ⟨_, rfl, rfl, p2, List.rel_append p3 (List.Forall₂.cons h2 .nil)⟩
      · refine ⟨fun e h => by simp at h, fun a h => ?_⟩
        cases h
        exact ⟨_, rfl, same⟩
  unfold edgesNp edgesNpF
  simp only [bind, Except.bind, pure, Except.pure]
  cases hg : pyGet y 0 with
  | error e => simp
  | ok y0 =>
    simp only
    obtain ⟨q1, q2⟩ := foldlM_rel (edgeStep t y yRise yHalf yFall t.length) (edgeStepF R t y yRise yHalf yFall t.length) P
      (List.range' 1 (t.length - 1)) ⟨decide (y0 < yFall), [], []⟩ ⟨decide (y0 < yFall), [], []⟩ ⟨rfl, .nil, .nil⟩
      (fun i _ s s' hP => hstep i s s' hP)
    cases hx : (List.range' 1 (t.length - 1)).foldlM (edgeStep t y yRise yHalf yFall t.length) ⟨decide (y0 < yFall), [], []⟩ with
    | error e => rw [q1 e hx]; simp
    | ok a =>
      obtain ⟨b, h1, h2⟩ := q2 a hx
      rw [h1]
      refine ⟨fun e h => by simp at h, fun r f h => ?_⟩
      cases h
      exact ⟨_, _, rfl, h2.2.1, h2.2.2⟩

/-! ### Specification of the intersections -/

/-- Difference of two points. -/
def sub (a b : Pt) : Pt := (a.1 - b.1, a.2 - b.2)

/-- Cross product. -/
def cross (a b : Pt) : ℚ := a.1 * b.2 - a.2 * b.1

/-- The size of the products in a cross product: what their rounding errors are relative to. -/
def size (a b : Pt) : ℚ := |a.1 * b.2| + |a.2 * b.1|

/-- Twice the signed area of the triangle `a b z`: on which side of the line `ab` the point `z` is, and how far. -/
def area (a b z : Pt) : ℚ := cross (sub z a) (sub b a)

/-- The segments `pq` and `rs` cross: `p` and `q` are on different sides of the line `rs`, and `r` and `s` on different sides of the
line `pq`, by at least `k` roundings of the products involved (for negative `k`: at most that much on the wrong side). -/
def CrossBy (k u : ℚ) (p q r s : Pt) : Prop :=
  ∃ σ : ℚ, (σ = 1 ∨ σ = -1) ∧
    k * u * size (sub p r) (sub r s) ≤ -σ * area r s p ∧
    k * u * (size (sub p r) (sub r s) + size (sub p q) (sub r s)) ≤ σ * area r s q ∧
    k * u * size (sub p r) (sub p q) ≤ σ * area p q r ∧
    k * u * (size (sub p r) (sub p q) + size (sub p q) (sub r s)) ≤ -σ * area p q s

/-- `z` is the rounded position of the point at the fraction `t` of the segment `pq`: off by no more than one rounding of `p` and five of
the length in each coordinate. -/
def NearPoint (u : ℚ) (p q : Pt) (t : ℚ) (z : Pt) : Prop :=
  |z.1 - (p.1 + t * (q.1 - p.1))| ≤ u * (|p.1| + 5 * |q.1 - p.1|) ∧
  |z.2 - (p.2 + t * (q.2 - p.2))| ≤ u * (|p.2| + 5 * |q.2 - p.2|)

/-! ### Intersections -/

theorem prodF (R : Rounding) (a b : ℚ) : |R.fl (R.fl a * R.fl b) - a * b| ≤ 31 / 10 * R.u * |a * b| := by
  obtain ⟨x, hx, ex⟩ := rel R a
  obtain ⟨y, hy, ey⟩ := rel R b
  obtain ⟨z, hz, ez⟩ := rel R (R.fl a * R.fl b)
  have s1 : |(1 + x) - 1| ≤ 1 * R.u := by simpa using hx
  have s2 := step R.u_nonneg R.u_small (by norm_num) s1 hy
  have s3 := step R.u_nonneg R.u_small (by norm_num) s2 hz
  rw [ez, ex, ey, show a * (1 + x) * (b * (1 + y)) * (1 + z) - a * b = a * b * ((1 + x) * (1 + y) * (1 + z) - 1) by ring, abs_mul]
  have : |(1 + x) * (1 + y) * (1 + z) - 1| ≤ 31 / 10 * R.u := by
    refine s3.trans ?_
    nlinarith [R.u_nonneg]
  nlinarith [abs_nonneg (a * b)]

/-- The determinants of `intersection`: the rounded value and its sign. -/
theorem detF_near (R : Rounding) (a b c d e f g h : ℚ) :
    |detF R a b c d e f g h - ((a - b) * (c - d) - (e - f) * (g - h))|
      ≤ 5 * R.u * (|(a - b) * (c - d)| + |(e - f) * (g - h)|) := by
  have h1 := prodF R (a - b) (c - d)
  have h2 := prodF R (e - f) (g - h)
  unfold detF
  set A := (a - b) * (c - d)
  set B := (e - f) * (g - h)
  set A' := R.fl (R.fl (a - b) * R.fl (c - d))
  set B' := R.fl (R.fl (e - f) * R.fl (g - h))
  have h3 := R.err (A' - B')
  have hu := R.u_nonneg
  have hs := R.u_small
  have n1 := abs_nonneg A
  have n2 := abs_nonneg B
  have h4 : |A' - B' - (A - B)| ≤ 31 / 10 * R.u * (|A| + |B|) := by
    rw [show A' - B' - (A - B) = (A' - A) - (B' - B) by ring]
    have := abs_sub (A' - A) (B' - B)
    linarith
  have h5 : |A' - B'| ≤ (|A| + |B|) * (1 + 31 / 10 * R.u) := by
    rw [show A' - B' = (A' - B' - (A - B)) + (A - B) by ring]
    have := abs_add_le (A' - B' - (A - B)) (A - B)
    have := abs_sub A B
    linarith
  have h6 : |R.fl (A' - B') - (A - B)| ≤ |R.fl (A' - B') - (A' - B')| + |A' - B' - (A - B)| := by
    rw [show R.fl (A' - B') - (A - B) = (R.fl (A' - B') - (A' - B')) + (A' - B' - (A - B)) by ring]
    exact abs_add_le _ _
  have h7 : R.u * |A' - B'| ≤ R.u * ((|A| + |B|) * (1 + 31 / 10 * R.u)) := mul_le_mul_of_nonneg_left h5 hu
  have h8 : R.u * ((|A| + |B|) * (1 + 31 / 10 * R.u)) ≤ R.u * (|A| + |B|) * (11 / 10) := by
    have : 0 ≤ R.u * (|A| + |B|) := by positivity
    nlinarith
  nlinarith [mul_nonneg hu n1, mul_nonneg hu n2]

theorem alongF_near (R : Rounding) (p q t : ℚ) (h0 : 0 ≤ t) (h1 : t ≤ 1) :
    |alongF R p q (R.fl t) - (p + t * (q - p))| ≤ R.u * (|p| + 5 * |q - p|) := by
  have a1 := prodF R t (q - p)
  unfold alongF
  set X := q - p
  set m := R.fl (R.fl t * R.fl X)
  have a2 := R.err (p + m)
  have hu := R.u_nonneg
  have hs := R.u_small
  have nX := abs_nonneg X
  have tX : |t * X| ≤ |X| := by
    rw [abs_mul, abs_of_nonneg h0]; nlinarith
  have hX : 0 ≤ R.u * |X| := by positivity
  have a3 : |m - t * X| ≤ 31 / 10 * (R.u * |X|) := by nlinarith
  have a4 : |p + m| ≤ |p| + 11 / 10 * |X| := by
    rw [show p + m = p + (t * X + (m - t * X)) by ring]
    have := abs_add_le p (t * X + (m - t * X))
    have := abs_add_le (t * X) (m - t * X)
    nlinarith
  have a5 : |R.fl (p + m) - (p + t * X)| ≤ |R.fl (p + m) - (p + m)| + |m - t * X| := by
    rw [show R.fl (p + m) - (p + t * X) = (R.fl (p + m) - (p + m)) + (m - t * X) by ring]
    exact abs_add_le _ _
  have a6 : R.u * |p + m| ≤ R.u * (|p| + 11 / 10 * |X|) := mul_le_mul_of_nonneg_left a4 hu
  nlinarith [mul_nonneg hu (abs_nonneg p)]

/-- The three determinants of `intersection` as areas. -/
theorem dets (p q r s : Pt) :
    (p.1 - q.1) * (r.2 - s.2) - (p.2 - q.2) * (r.1 - s.1) = cross (sub p q) (sub r s) ∧
    (p.1 - r.1) * (r.2 - s.2) - (p.2 - r.2) * (r.1 - s.1) = -area r s p ∧
    (p.1 - r.1) * (p.2 - q.2) - (p.2 - r.2) * (p.1 - q.1) = area p q r ∧
    cross (sub p q) (sub r s) = -area r s p + area r s q ∧
    cross (sub p q) (sub r s) = area p q r - area p q s := by
  simp only [cross, sub, area]
  refine ⟨trivial, ?_, ?_, ?_, ?_⟩ <;> ring

/-- **C80 (crossings are found).** Segments that cross by more than the rounding errors are found by `intersection`. -/
theorem C80_found (R : Rounding) (p q r s : Pt) (hp : ¬ Parallel p q r s) (h : CrossBy 5 R.u p q r s) :
    (intersectionF R p q r s).isSome = true := by
  obtain ⟨e1, e2, e3, e4, e5⟩ := dets p q r s
  have d1 := detF_near R p.1 q.1 r.2 s.2 p.2 q.2 r.1 s.1
  have d2 := detF_near R p.1 r.1 r.2 s.2 p.2 r.2 r.1 s.1
  have d3 := detF_near R p.1 r.1 p.2 q.2 p.2 r.2 p.1 q.1
  rw [e1] at d1; rw [e2] at d2; rw [e3] at d3
  have hne : cross (sub p q) (sub r s) ≠ 0 := by
    intro h0
    apply hp
    simp only [cross, sub] at h0
    unfold Parallel
    linarith
  have hsz : R.fl (R.fl (R.fl (p.1 - q.1) * R.fl (r.2 - s.2)) - R.fl (R.fl (p.2 - q.2) * R.fl (r.1 - s.1))) =
    detF R p.1 q.1 r.2 s.2 p.2 q.2 r.1 s.1 := rfl
  have g1 := prodF R (p.1 - q.1) (r.2 - s.2)
  have g2 := prodF R (p.2 - q.2) (r.1 - s.1)
  set A' := R.fl (R.fl (p.1 - q.1) * R.fl (r.2 - s.2))
  set B' := R.fl (R.fl (p.2 - q.2) * R.fl (r.1 - s.1))
  obtain ⟨σ, hσ, c1, c2, c3, c4⟩ := h
  have z1 : (0:ℚ) ≤ size (sub p r) (sub r s) := by unfold size; positivity
  have z2 : (0:ℚ) ≤ size (sub p q) (sub r s) := by unfold size; positivity
  have z3 : (0:ℚ) ≤ size (sub p r) (sub p q) := by unfold size; positivity
  have hu := R.u_nonneg
  have g3 : |A' - B' - cross (sub p q) (sub r s)| ≤ 31 / 10 * R.u * size (sub p q) (sub r s) := by
    rw [show A' - B' - cross (sub p q) (sub r s) = (A' - (p.1 - q.1) * (r.2 - s.2)) - (B' - (p.2 - q.2) * (r.1 - s.1)) by
      rw [← e1]; ring]
    have := abs_sub (A' - (p.1 - q.1) * (r.2 - s.2)) (B' - (p.2 - q.2) * (r.1 - s.1))
    simp only [size, sub]
    linarith
  change _ ≤ 5 * R.u * size (sub p q) (sub r s) at d1
  change _ ≤ 5 * R.u * size (sub p r) (sub r s) at d2
  change _ ≤ 5 * R.u * size (sub p r) (sub p q) at d3
  set D := cross (sub p q) (sub r s)
  set sd := size (sub p q) (sub r s)
  set st := size (sub p r) (sub r s)
  set su := size (sub p r) (sub p q)
  have m1 := mul_nonneg hu z1
  have m2 := mul_nonneg hu z2
  have m3 := mul_nonneg hu z3
  have hD : 5 * R.u * sd ≤ σ * D := by
    have : σ * D = -σ * area r s p + σ * area r s q := by rw [e4]; ring
    rw [this]
    linarith
  have f1 := abs_le.1 d1
  have f2 := abs_le.1 d2
  have f3 := abs_le.1 d3
  have f4 := abs_le.1 g3
  unfold intersectionF
  rcases hσ with rfl | rfl
  · have hpos : 0 < D := by
      rcases lt_or_eq_of_le (show 0 ≤ D by linarith) with h | h
      · exact h
      · exact absurd h.symm hne
    have hDp : 0 < detF R p.1 q.1 r.2 s.2 p.2 q.2 r.1 s.1 := by
      rw [← hsz, fl_pos]
      by_cases h0 : R.u * sd = 0
      · have h1 : 31 / 10 * R.u * sd = 0 := by rw [mul_assoc, h0]; ring
        rw [h1] at f4
        linarith
      · have : 0 < R.u * sd := lt_of_le_of_ne m2 (Ne.symm h0)
        linarith
    simp only [hDp.ne', if_false, gt_iff_lt, hDp, if_true]
    rw [if_neg]
    · rfl
    · push Not
      refine ⟨by linarith, by linarith, by linarith, by linarith⟩
  · have hpos : D < 0 := by
      rcases lt_or_eq_of_le (show D ≤ 0 by linarith) with h | h
      · exact h
      · exact absurd h hne
    have hDp : detF R p.1 q.1 r.2 s.2 p.2 q.2 r.1 s.1 < 0 := by
      rw [← hsz, fl_neg]
      by_cases h0 : R.u * sd = 0
      · have h1 : 31 / 10 * R.u * sd = 0 := by rw [mul_assoc, h0]; ring
        rw [h1] at f4
        linarith
      · have : 0 < R.u * sd := lt_of_le_of_ne m2 (Ne.symm h0)
        linarith
    simp only [hDp.ne, if_false, gt_iff_lt, not_lt.2 hDp.le]
    rw [if_neg]
    · rfl
    · push Not
      refine ⟨by linarith, by linarith, by linarith, by linarith⟩

/-- **C80 (nothing else is found).** What `intersection` finds are segments that cross up to the rounding errors; the reported point is, up to
the rounding of its coordinates, a point of the segment `pq` that is on the line `rs` up to the rounding errors. -/
theorem C80_reported (R : Rounding) (p q r s z : Pt) (h : intersectionF R p q r s = some z) :
    CrossBy (-5) R.u p q r s ∧
    ∃ t, 0 ≤ t ∧ t ≤ 1 ∧ NearPoint R.u p q t z ∧
      |area r s (p.1 + t * (q.1 - p.1), p.2 + t * (q.2 - p.2))|
        ≤ 5 * R.u * (size (sub p r) (sub r s) + size (sub p q) (sub r s)) := by
  obtain ⟨e1, e2, e3, e4, e5⟩ := dets p q r s
  have d1 := detF_near R p.1 q.1 r.2 s.2 p.2 q.2 r.1 s.1
  have d2 := detF_near R p.1 r.1 r.2 s.2 p.2 r.2 r.1 s.1
  have d3 := detF_near R p.1 r.1 p.2 q.2 p.2 r.2 p.1 q.1
  rw [e1] at d1; rw [e2] at d2; rw [e3] at d3
  change _ ≤ 5 * R.u * size (sub p q) (sub r s) at d1
  change _ ≤ 5 * R.u * size (sub p r) (sub r s) at d2
  change _ ≤ 5 * R.u * size (sub p r) (sub p q) at d3
  have z1 : (0:ℚ) ≤ size (sub p r) (sub r s) := by unfold size; positivity
  have z2 : (0:ℚ) ≤ size (sub p q) (sub r s) := by unfold size; positivity
  have z3 : (0:ℚ) ≤ size (sub p r) (sub p q) := by unfold size; positivity
  have harea : ∀ t, area r s (p.1 + t * (q.1 - p.1), p.2 + t * (q.2 - p.2)) = area r s p + t * cross (sub p q) (sub r s) := by
    intro t
    simp only [area, cross, sub]
    ring
  unfold intersectionF at h
  set dF := detF R p.1 q.1 r.2 s.2 p.2 q.2 r.1 s.1
  set tF := detF R p.1 r.1 r.2 s.2 p.2 r.2 r.1 s.1
  set uF := detF R p.1 r.1 p.2 q.2 p.2 r.2 p.1 q.1
  have f1 := abs_le.1 d1
  have f2 := abs_le.1 d2
  have f3 := abs_le.1 d3
  simp only at h
  have key : ∀ t, t = tF / dF → dF ≠ 0 → 0 ≤ t → t ≤ 1 →
      z = (alongF R p.1 q.1 (R.fl (tF / dF)), alongF R p.2 q.2 (R.fl (tF / dF))) →
      ∃ t, 0 ≤ t ∧ t ≤ 1 ∧ NearPoint R.u p q t z ∧
      |area r s (p.1 + t * (q.1 - p.1), p.2 + t * (q.2 - p.2))|
        ≤ 5 * R.u * (size (sub p r) (sub r s) + size (sub p q) (sub r s)) := by
    rintro t rfl hd h0 h1 rfl
    refine ⟨tF / dF, h0, h1, ⟨alongF_near R _ _ _ h0 h1, alongF_near R _ _ _ h0 h1⟩, ?_⟩
    rw [harea]
    have : area r s p + tF / dF * cross (sub p q) (sub r s) = (tF - -area r s p) - tF / dF * (dF - cross (sub p q) (sub r s)) := by
      field_simp
      ring
    rw [this]
    have a1 := abs_sub (tF - -area r s p) (tF / dF * (dF - cross (sub p q) (sub r s)))
    have a2 : |tF / dF * (dF - cross (sub p q) (sub r s))| ≤ |dF - cross (sub p q) (sub r s)| := by
      rw [abs_mul, abs_of_nonneg h0]
      nlinarith [abs_nonneg (dF - cross (sub p q) (sub r s))]
    linarith
  by_cases hd : dF = 0
  · rw [if_pos hd] at h; cases h
  · rw [if_neg hd] at h
    by_cases hpos : dF > 0
    · simp only [hpos, if_true] at h
      split at h
      · cases h
      · rename_i hc
        push Not at hc
        obtain ⟨k1, k2, k3, k4⟩ := hc
        refine ⟨⟨1, Or.inl rfl, by linarith, by linarith, by linarith, by linarith⟩, ?_⟩
        refine key _ rfl hd (div_nonneg k1 hpos.le) ((div_le_one hpos).2 k3) ?_
        exact (Option.some.inj h).symm
    · simp only [hpos, if_false] at h
      have hneg : dF < 0 := lt_of_le_of_ne (not_lt.1 hpos) hd
      split at h
      · cases h
      · rename_i hc
        push Not at hc
        obtain ⟨k1, k2, k3, k4⟩ := hc
        refine ⟨⟨-1, Or.inr rfl, by linarith, by linarith, by linarith, by linarith⟩, ?_⟩
        refine key _ rfl hd (div_nonneg_of_nonpos k1 hneg.le) ((div_le_one_of_neg hneg).2 k3) ?_
        exact (Option.some.inj h).symm

/-! ### Hits -/

theorem isHittingPathF_eq (R : Rounding) {w path : List Pt} (hne : path ≠ []) :
    ∃ l, hitsPathF R w path = .ok l ∧ isHittingPathF R w path = .ok (decide (l ≠ [])) := by
  obtain ⟨b, hb, _⟩ := bbox_spec hne
  unfold hitsPathF isHittingPathF
  rw [hb]
  refine ⟨_, rfl, ?_⟩
  simp only [bind, Except.bind, pure, Except.pure]
  congr 1
  rw [Bool.eq_iff_iff, decide_eq_true_iff, ne_eq, List.flatMap_eq_nil_iff, List.any_eq_true]
  simp only [Bool.and_eq_true, List.any_eq_true, Bool.not_eq_true']
  constructor
  · rintro ⟨a, ha, hs, e, he, hi⟩ hall
    have := hall a ha
    rw [hs] at this
    simp only [Bool.false_eq_true, if_false, List.filterMap_eq_nil_iff] at this
    rw [this e he] at hi
    simp at hi
  · intro hall
    push Not at hall
    obtain ⟨a, ha, hn⟩ := hall
    by_cases hs : skipSeg b.1 b.2.1 b.2.2.1 b.2.2.2 a.1 a.2 = true
    · rw [if_pos hs] at hn; exact absurd rfl hn
    · rw [if_neg hs] at hn
      have hs' : skipSeg b.1 b.2.1 b.2.2.1 b.2.2.2 a.1 a.2 = false := by simpa using hs
      rw [Ne, List.filterMap_eq_nil_iff] at hn
      push Not at hn
      obtain ⟨e, he, hi⟩ := hn
      refine ⟨a, ha, hs', e, he, ?_⟩
      exact Option.ne_none_iff_isSome.1 hi

/-- **C80 (hits).** In rounded arithmetic, too, `is_hitting` is true exactly when `hits` is not empty. -/
theorem C80_is_hitting (R : Rounding) (w : List Pt) (paths : List (List Pt)) (hne : ∀ p ∈ paths, p ≠ []) :
    ∃ l, hitsF R w paths = .ok l ∧ isHittingF R w paths = .ok (decide (l ≠ [])) := by
  induction paths with
  | nil => exact ⟨[], rfl, rfl⟩
  | cons p ps ih =>
    obtain ⟨l1, h1, h2⟩ := isHittingPathF_eq R (w := w) (hne p (by simp))
    obtain ⟨l2, h3, h4⟩ := ih (fun q hq => hne q (List.mem_cons_of_mem _ hq))
    refine ⟨l1 ++ l2, by rw [hitsF, h1, h3]; rfl, ?_⟩
    rw [isHittingF, h2]
    simp only [bind, Except.bind]
    by_cases hl : l1 = []
    · subst hl
      simp [h4]
    · simp [hl, pure, Except.pure]

theorem mem_hitsF (R : Rounding) (w : List Pt) : ∀ (paths : List (List Pt)) (l : List Pt), hitsF R w paths = .ok l →
    ∀ z, z ∈ l ↔ ∃ path ∈ paths, ∃ b, bbox path = .ok b ∧ ∃ a ∈ pairs w,
      skipSeg b.1 b.2.1 b.2.2.1 b.2.2.2 a.1 a.2 = false ∧ ∃ e ∈ pairs path, intersectionF R a.2 a.1 e.2 e.1 = some z := by
  intro paths
  induction paths with
  | nil => intro l h z; cases h; simp
  | cons p ps ih =>
    intro l h z
    rw [hitsF] at h
    unfold hitsPathF at h
    simp only [bind, Except.bind, pure, Except.pure] at h
    cases hb : bbox p with
    | error e => rw [hb] at h; cases h
    | ok b =>
      rw [hb] at h
      simp only at h
      cases hr : hitsF R w ps with
      | error e => rw [hr] at h; cases h
      | ok l2 =>
        rw [hr] at h
        simp only [Except.ok.injEq] at h
        subst h
        rw [List.mem_append, ih l2 hr z]
        simp only [List.mem_flatMap, segs_eq_pairs, List.mem_cons, exists_eq_or_imp]
        apply or_congr _ Iff.rfl
        constructor
        · rintro ⟨a, ha, hz⟩
          split at hz
          · simp at hz
          · rename_i hs
            rw [List.mem_filterMap] at hz
            exact ⟨b, hb, a, ha, by simpa using hs, hz⟩
        · rintro ⟨b', hb', a, ha, hs, hz⟩
          rw [hb] at hb'
          cases hb'
          refine ⟨a, ha, ?_⟩
          rw [hs]
          simp only [Bool.false_eq_true, if_false, List.mem_filterMap]
          exact hz

/-- **C80 (hits).** If a segment of the waveform crosses a segment of a mask path by more than the rounding errors, then
`is_hitting` is true: neither the rounding nor the bounding boxes lose it. -/
theorem C80_hits_found (R : Rounding) (w : List Pt) (paths : List (List Pt)) (hw : NonDecreasing w) (hne : ∀ p ∈ paths, p ≠ [])
    (path : List Pt) (hp : path ∈ paths) (a e : Pt × Pt) (ha : a ∈ pairs w) (he : e ∈ pairs path)
    (hn : ¬ Parallel a.2 a.1 e.2 e.1) (hc : CrossBy 5 R.u a.2 a.1 e.2 e.1) : isHittingF R w paths = .ok true := by
  obtain ⟨l, h1, h2⟩ := C80_is_hitting R w paths hne
  rw [h2]
  congr 1
  rw [decide_eq_true_iff]
  obtain ⟨z, hz⟩ := Option.isSome_iff_exists.1 (C80_found R _ _ _ _ hn hc)
  apply List.ne_nil_of_mem (a := z)
  rw [mem_hitsF R w paths l h1]
  obtain ⟨b, hb, hbb⟩ := bbox_spec (hne path hp)
  refine ⟨path, hp, b, hb, a, ha, ?_, e, he, hz⟩
  by_contra hs
  have hx := skipSeg_sound hbb (hw a ha) (by simpa using hs) he
  -- the exact crossing exists
  have hex : intersection a.2 a.1 e.2 e.1 true ≠ none := by
    obtain ⟨e1, e2, e3, e4, e5⟩ := dets a.2 a.1 e.2 e.1
    have hne' : cross (sub a.2 a.1) (sub e.2 e.1) ≠ 0 := by
      intro h0
      apply hn
      simp only [cross, sub] at h0
      unfold Parallel
      linarith
    obtain ⟨σ, hσ, c1, c2, c3, c4⟩ := hc
    have z1 : (0:ℚ) ≤ 5 * R.u * size (sub a.2 e.2) (sub e.2 e.1) := by have := R.u_nonneg; unfold size; positivity
    have z2 : (0:ℚ) ≤ 5 * R.u * (size (sub a.2 e.2) (sub e.2 e.1) + size (sub a.2 a.1) (sub e.2 e.1)) := by
      have := R.u_nonneg; unfold size; positivity
    have z3 : (0:ℚ) ≤ 5 * R.u * size (sub a.2 e.2) (sub a.2 a.1) := by have := R.u_nonneg; unfold size; positivity
    have z4 : (0:ℚ) ≤ 5 * R.u * (size (sub a.2 e.2) (sub a.2 a.1) + size (sub a.2 a.1) (sub e.2 e.1)) := by
      have := R.u_nonneg; unfold size; positivity
    replace c1 := z1.trans c1
    replace c2 := z2.trans c2
    replace c3 := z3.trans c3
    replace c4 := z4.trans c4
    unfold intersection
    simp only [e1, e2, e3, hne', if_false, true_and]
    rcases hσ with rfl | rfl
    · have hpos : 0 < cross (sub a.2 a.1) (sub e.2 e.1) := lt_of_le_of_ne (by linarith) (Ne.symm hne')
      simp only [gt_iff_lt, hpos, if_true]
      rw [if_neg]
      · simp
      · push Not
        exact ⟨by linarith, by linarith, by linarith, by linarith⟩
    · have hpos : cross (sub a.2 a.1) (sub e.2 e.1) < 0 := lt_of_le_of_ne (by linarith) hne'
      simp only [gt_iff_lt, not_lt.2 hpos.le, if_false]
      rw [if_neg]
      · simp
      · push Not
        exact ⟨by linarith, by linarith, by linarith, by linarith⟩
  exact hex hx

/-- **C80 (hits).** Every reported hit comes from a segment of the waveform and a segment of a path that cross up to the rounding
errors, and is a point of that segment of the waveform up to the rounding of its coordinates. -/
theorem C80_hits_reported (R : Rounding) (w : List Pt) (paths : List (List Pt)) (l : List Pt) (h : hitsF R w paths = .ok l)
    (z : Pt) (hz : z ∈ l) : ∃ path ∈ paths, ∃ a ∈ pairs w, ∃ e ∈ pairs path, CrossBy (-5) R.u a.2 a.1 e.2 e.1 ∧
      ∃ t, 0 ≤ t ∧ t ≤ 1 ∧ NearPoint R.u a.2 a.1 t z := by
  rw [mem_hitsF R w paths l h] at hz
  obtain ⟨path, hp, b, hb, a, ha, hs, e, he, hi⟩ := hz
  obtain ⟨h1, t, h2, h3, h4, _⟩ := C80_reported R _ _ _ _ _ hi
  exact ⟨path, hp, a, ha, e, he, h1, t, h2, h3, h4⟩

/-- **C80 (hits).** A waveform that stays clear of all paths by more than the rounding errors is not reported. -/
theorem C80_clear (R : Rounding) (w : List Pt) (paths : List (List Pt)) (hne : ∀ p ∈ paths, p ≠ [])
    (hc : ∀ path ∈ paths, ∀ a ∈ pairs w, ∀ e ∈ pairs path, ¬ CrossBy (-5) R.u a.2 a.1 e.2 e.1) :
    isHittingF R w paths = .ok false ∧ hitsF R w paths = .ok [] := by
  obtain ⟨l, h1, h2⟩ := C80_is_hitting R w paths hne
  have : l = [] := by
    by_contra hl
    obtain ⟨z, hz⟩ := List.exists_mem_of_ne_nil l hl
    obtain ⟨path, hp, a, ha, e, he, h, _⟩ := C80_hits_reported R w paths l h1 z hz
    exact hc path hp a ha e he h
  subst this
  exact ⟨by simpa using h2, h1⟩

/-! ### Exact arithmetic -/

theorem crossingF_exact (x y : List ℚ) (i : ℤ) (v : ℚ) (fwd : Bool) (n : ℕ) :
    crossingF exact x y i v fwd n = crossing x y i v fwd n := by
  obtain ⟨h1, h2, h3⟩ := C80_crossing exact x y i v fwd n
  cases h : crossing x y i v fwd n with
  | error e => exact h1 e h
  | ok c =>
    obtain ⟨z, j⟩ := c
    cases z with
    | none => exact h2 j h
    | some z =>
      obtain ⟨z', h4, h5⟩ := h3 z j h
      have : z' = z := by
        have h6 : |z' - z| ≤ 0 := by simpa [exact] using h5
        exact sub_eq_zero.1 (abs_eq_zero.1 (le_antisymm h6 (abs_nonneg _)))
      rw [h4, this]

/-- **C80 (no rounding).** With exact arithmetic these are the functions of the other properties. -/
theorem C80_exact :
    (∀ t y yRise yHalf yFall, edgesNpF exact t y yRise yHalf yFall = edgesNp t y yRise yHalf yFall) ∧
    (∀ p q r s, intersectionF exact p q r s = intersection p q r s) ∧
    (∀ w paths, hitsF exact w paths = hits w paths) ∧
    (∀ w paths, isHittingF exact w paths = isHitting w paths) := by
  have hi : ∀ p q r s, intersectionF exact p q r s = intersection p q r s := by
    intro p q r s
    simp [intersectionF, intersection, detF, alongF, exact]
  refine ⟨?_, hi, ?_, ?_⟩
  · intro t y yRise yHalf yFall
    have : edgeStepF exact t y yRise yHalf yFall t.length = edgeStep t y yRise yHalf yFall t.length := by
      funext s i
      unfold edgeStepF edgeStep
      simp only [crossingF_exact]
    unfold edgesNpF edgesNp
    rw [this]
  · intro w paths
    induction paths with
    | nil => rfl
    | cons p ps ih =>
      rw [hitsF, hits, ih]
      congr 1
      unfold hitsPathF hitsPath hitsSeg
      simp only [hi]
  · intro w paths
    induction paths with
    | nil => rfl
    | cons p ps ih =>
      rw [isHittingF, isHitting, ih]
      congr 1
      unfold isHittingPathF isHittingPath
      simp only [hi]

/-! ### What doubles do -/

/-- In doubles, segments with a common end point `(0.1, 2.1)` are reported not to meet: the touched corner of a mask is lost.  The
exact arithmetic finds it (the coordinates are the doubles nearest to one decimal). -/
theorem C80_touching_fails : ∃ p q r s : Pt, (∀ v ∈ [p.1, p.2, q.1, q.2, r.1, r.2, s.1, s.2], double.fl v = v) ∧
    intersection p q r s = some q ∧ q = s ∧ intersectionF double p q r s = none := by
  refine ⟨(nearest (26 / 10), nearest (6 / 10)), (nearest (1 / 10), nearest (21 / 10)), (nearest (5 / 10), nearest 1),
    (nearest (1 / 10), nearest (21 / 10)), ?_, ?_, rfl, ?_⟩ <;> decide +kernel

/-- In doubles, segments that do not meet are reported to do so. -/
theorem C80_apart_fails : ∃ p q r s z : Pt, (∀ v ∈ [p.1, p.2, q.1, q.2, r.1, r.2, s.1, s.2], double.fl v = v) ∧
    intersection p q r s = none ∧ intersectionF double p q r s = some z := by
  refine ⟨(nearest 1, nearest (18 / 10)), (nearest (23 / 10), nearest (1 / 10)), (nearest (16 / 10), nearest (14 / 10)),
    (nearest (4 / 10), nearest (22 / 10)), (nearest 1, nearest (18 / 10)), ?_, ?_, ?_⟩ <;> decide +kernel

/-- The hypotheses of the C80 theorems are met by doubles, and the results differ from the exact ones: a crossing of a
diagonal in tenths. -/
example : edgesNpF double [0, nearest (1 / 10), nearest (2 / 10), nearest (3 / 10)] [0, 1, 0, 3] (1 / 2) (nearest (3 / 10)) (1 / 4) ≠
      edgesNp [0, nearest (1 / 10), nearest (2 / 10), nearest (3 / 10)] [0, 1, 0, 3] (1 / 2) (nearest (3 / 10)) (1 / 4) ∧
    (∀ v ∈ [0, nearest (1 / 10), nearest (2 / 10), nearest (3 / 10)], |v| ≤ 1) ∧
    ¬ Parallel (2, 2) (0, 0) (2, 0) (0, 2) ∧ CrossBy 5 double.u (2, 2) (0, 0) (2, 0) (0, 2) ∧
    intersectionF double (2, 2) (0, 0) (2, 0) (0, 2) = some (1, 1) ∧
    ¬ CrossBy (-5) double.u (2, 2) (0, 0) (5, 0) (5, 2) := by
  refine ⟨by decide +kernel, by decide +kernel, by norm_num [Parallel], ⟨-1, Or.inr rfl, ?_⟩, by decide +kernel, ?_⟩
  · norm_num [size, area, cross, sub, double]
  · rintro ⟨σ, rfl | rfl, h⟩ <;> norm_num [size, area, cross, sub, double] at h

end Verif.Props.Float
