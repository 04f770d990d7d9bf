import Verif.Props.Invert
import Verif.Props.Together
import Verif.Props.Pam2Clock

/-!
C92: the eye diagram of an inverted signal is the inverted eye diagram.
-/

namespace Verif.Props.InvertEye

open Verif Verif.Props Verif.Lines Verif.Eye Verif.Pam2 Verif.Pipeline Verif.Mask Verif.Props.Affine Verif.Props.Invert Verif.Props.Pipeline
  Verif.Props.EyeWindow Verif.Props.EyeMask Verif.Props.EyeImage Verif.Props.EyeBathtub Verif.Props.Pam2Vertical Verif.Props.Together
  Verif.Props.Pam2Bits

/-! ### Specification -/

/-- The waveform upside down, with the same symbols. -/
def invWf (σ : ℚ) (w : Wf) : Wf := ⟨w.y.map (inv σ), w.centers⟩

/-- The waveform upside down. -/
def invW (σ : ℚ) (w : Wave) : Wave := (w.1, w.2.map (inv σ))

/-- The vertical samples: ones are zeros, rising edges are falling edges. -/
def invV (σ : ℚ) (v : VOut) : VOut :=
  ⟨v.y1.map (inv σ), v.y0.map (inv σ), v.cross.map (inv σ), v.y1Cross.map (inv σ), v.y0Cross.map (inv σ), v.avg.map (inv σ),
    fun a b c => v.trans (!a) (!b) (!c), v.edgeDir.map (- ·)⟩

/-- The horizontal samples: the upper level of a falling edge is the lower level of a rising edge. -/
def invH (h : HOut) : HOut :=
  ⟨h.fallUpper, h.fallLower, h.fallHalf, h.riseUpper, h.riseLower, h.riseHalf, h.crossLeft, h.crossRight⟩

/-- A point of the eye, upside down. -/
def flip (p : Pt) : Pt := (p.1, 1 - p.2)

/-- The decision about a symbol is clear: the average of the samples is not exactly at the threshold. -/
def Clear (half : ℚ) (l : List ℚ) : Prop := l ≠ [] ∧ l.sum / l.length ≠ half

/-- All decisions are clear. -/
def AllClear (T δ half lw : ℚ) (ws : List Wf) : Prop :=
  ∀ w ∈ ws, ∀ c ∈ w.centers, ∀ u ∈ ([-1 / 2, 1 / 2, 3 / 2] : List ℚ), Clear half (slot (around w.y T δ c) u (decisionWidth lw T δ))

/-! ### Vertical samples -/

theorem above_inv (σ half : ℚ) (l : List ℚ) (h : Clear half l) : above (inv σ half) (l.map (inv σ)) = !above half l := by
  unfold above
  have : mean (l.map (inv σ)) = (mean l).map (inv σ) := mean_aff l
  rw [this]
  have hm : mean l = some (l.sum / l.length) := by unfold mean; rw [if_neg h.1]
  rw [hm]
  simp only [Option.map_some, inv_eq, gt_iff_lt, sub_lt_sub_iff_left]
  rw [← decide_not, decide_eq_decide, not_lt]
  exact ⟨le_of_lt, fun x => lt_of_le_of_ne x h.2⟩

theorem bump_inv (f : Bool → Bool → Bool → ℕ) (a b c : Bool) :
    bump (fun x y z => f (!x) (!y) (!z)) (!a) (!b) (!c) = fun x y z => bump f a b c (!x) (!y) (!z) := by
  funext x y z
  unfold bump
  cases a <;> cases b <;> cases c <;> cases x <;> cases y <;> cases z <;> rfl

theorem vStep_inv (σ half : ℚ) (s : Samples) (v : VOut) (ha : Clear half s.a) (hb : Clear half s.b) (hc : Clear half s.c) :
    vStep (above (inv σ half)) (affSamples (-1) σ s) (invV σ v) = invV σ (vStep (above half) s v) := by
  have ea := above_inv σ half s.a ha
  have eb := above_inv σ half s.b hb
  have ec := above_inv σ half s.c hc
  unfold inv at ea eb ec
  unfold vStep affSamples invV
  simp only [inv] at *
  unfold inv
  simp only [ea, eb, ec, bump_inv]
  cases above half s.a <;> cases above half s.b <;> simp

theorem around_points (ys : List ℚ) (T δ : ℚ) (hT : 0 < T) (hδ : 0 < δ) (c : Center) (hc : Inside T δ ys.length c) :
    points ys T δ c = .ok (around ys T δ c) := by
  rw [points_eq ys T δ hT hδ c hc]

theorem abc_eq (lw T δ : ℚ) : abcWidth lw δ T = decisionWidth lw T δ := by
  unfold abcWidth decisionWidth
  rw [mul_div_assoc]

theorem sampleVertical_inv (σ : ℚ) (w : Wf) (T δ half lw cw : ℚ) (hT : 0 < T) (hδ : 0 < δ) (hin : ∀ c ∈ w.centers, Inside T δ w.y.length c)
    (hcl : AllClear T δ half lw [w]) :
    sampleVertical (w.y.map (inv σ)) w.centers δ T (inv σ half) lw cw = (sampleVertical w.y w.centers δ T half lw cw).map (invV σ) := by
  have key : ∀ (cs : List Center), (∀ c ∈ cs, c ∈ w.centers) → ∀ v : VOut,
      cs.foldlM (fun v c => do
        let ps ← points (w.y.map (inv σ)) T δ c
        return vStep (above (inv σ half)) (samples lw cw (abcWidth lw δ T) ps) v) (invV σ v) =
      (cs.foldlM (fun v c => do
        let ps ← points w.y T δ c
        return vStep (above half) (samples lw cw (abcWidth lw δ T) ps) v) v).map (invV σ) := by
    intro cs
    induction cs with
    | nil => intro _ v; rfl
    | cons c cs ih =>
      intro hm v
      have hc := hm c (by simp)
      have hp := around_points w.y T δ hT hδ c (hin c hc)
      have hp' : points (w.y.map (inv σ)) T δ c = .ok ((around w.y T δ c).map fun p => (p.1, aff (-1) σ p.2)) := by
        have := points_aff (α := -1) (β := σ) w.y T δ c
        rw [hp] at this
        exact this
      rw [List.foldlM_cons, List.foldlM_cons, hp, hp']
      simp only [bind, Except.bind, pure, Except.pure]
      have hsl := fun u hu => hcl w (by simp) c hc u hu
      rw [samples_aff]
      have e := samples_eq lw cw (abcWidth lw δ T) (around w.y T δ c)
      rw [vStep_inv σ half _ v]
      · exact ih (fun x hx => hm x (List.mem_cons_of_mem _ hx)) _
      · rw [e, abc_eq]; exact hsl _ (by simp)
      · rw [e, abc_eq]; exact hsl _ (by simp)
      · rw [e, abc_eq]; exact hsl _ (by simp)
  exact key w.centers (fun _ h => h) VOut.empty

/-! ### Bits -/

theorem bitsM_inv (d : List ℤ) : bitsM (d.map (- ·)) = bitsM d := by
  unfold bitsM
  rw [List.map_map]
  simp [Function.comp_def, abs_neg]

theorem bitsFrom_inv (d : List ℤ) (hd : ∀ x ∈ d, x = -1 ∨ x = 0 ∨ x = 1) (s : ℤ) : bitsFrom (1 - s) (d.map (- ·)) = (bitsFrom s d).map (1 - ·) := by
  induction d generalizing s with
  | nil => rfl
  | cons x d ih =>
    have h := ih fun y hy => hd y (List.mem_cons_of_mem _ hy)
    simp only [List.map_cons, bitsFrom]
    have e : (if -x = 1 then (1 : ℤ) else if -x = -1 then 0 else 1 - s) = 1 - (if x = 1 then 1 else if x = -1 then 0 else s) := by
      rcases hd x (by simp) with rfl | rfl | rfl <;> norm_num
    rw [e, h]

theorem bitsL_inv (d : List ℤ) (hd : ∀ x ∈ d, x = -1 ∨ x = 0 ∨ x = 1) (hne : ∃ x ∈ d, x ≠ 0) : bitsL (d.map (- ·)) = (bitsL d).map (1 - ·) := by
  unfold bitsL
  have hf : (d.map (- ·)).filter (· ≠ 0) = (d.filter (· ≠ 0)).map (- ·) := by
    rw [List.filter_map]
    congr 1
    apply List.filter_congr
    intro x _
    simp
  simp only [hf, List.length_map]
  obtain ⟨x, hx, hx0⟩ := hne
  cases he : d.filter (· ≠ 0) with
  | nil => exact absurd (he ▸ List.mem_filter.2 ⟨hx, by simpa using hx0⟩) (by simp)
  | cons y l =>
    have hy : y ∈ d ∧ y ≠ 0 := by
      have : y ∈ d.filter (· ≠ 0) := by rw [he]; simp
      simpa using List.mem_filter.1 this
    rw [← bitsFrom_inv d hd]
    congr 1
    rcases hd y hy.1 with rfl | rfl | rfl
    · simp
    · exact absurd rfl hy.2
    · simp

/-! ### Normalised values -/

theorem normalise_inv (σ : ℚ) (y : List ℚ) (z u : ℚ) (hu : u ≠ 0) : normalise (y.map (inv σ)) (inv σ (z + u)) u = (normalise y z u).map (inv 1) := by
  unfold normalise
  rw [List.map_map, List.map_map]
  apply List.map_congr_left
  intro v _
  simp only [Function.comp, inv_eq]
  field_simp
  ring

theorem pySlice_map {α β : Type} (f : α → β) (l : List α) (a b : ℤ) : pySlice (l.map f) a b = (pySlice l a b).map f := by
  unfold pySlice
  simp only [List.length_map, List.map_drop, List.map_take]

theorem window_inv (ys : List ℚ) (T δ : ℚ) (c : Center) : window (ys.map (inv 1)) T δ c = (window ys T δ c).map flip := by
  unfold window
  simp only [pySlice_map]
  rw [List.zip_map_right]
  apply List.map_congr_left
  intro p _
  simp [flip, Prod.map, inv_eq]

/-! ### Horizontal samples -/

theorem within_inv (u w y : ℚ) : within (1 - u - w / 2) (1 - u + w / 2) (1 - y) = within (u - w / 2) (u + w / 2) y := by
  rw [within_iff, within_iff, decide_eq_decide, show 1 - y - (1 - u) = -(y - u) by ring, abs_neg]

/-- The windows, upside down. -/
def invWin (h : HWin) : HWin := ⟨1 - h.upper, 1 - h.lower, h.cross.map (inv 1), h.height⟩

theorem crossStep_inv (h : HWin) (v : HOut) (p : Pt) : crossStep (invWin h) (invH v) (flip p) = invH (crossStep h v p) := by
  have ha : atCross (invWin h) (flip p).2 = atCross h p.2 := by
    unfold atCross invWin flip
    cases h.cross with
    | none => rfl
    | some c => simp only [Option.map_some, inv_eq, within_inv]
  unfold crossStep
  rw [ha]
  by_cases h1 : atCross h p.2 = true
  · rw [if_pos h1, if_pos h1]
    by_cases h2 : within (-1 / 2) (1 / 2) p.1 = true
    · rw [if_pos h2]
      exact if_pos h2
    · rw [if_neg h2]
      refine (if_neg h2).trans ?_
      by_cases h3 : 1 / 2 < p.1 ∧ p.1 ≤ 3 / 2
      · rw [if_pos h3]
        exact if_pos h3
      · rw [if_neg h3]
        exact if_neg h3
  · rw [if_neg h1, if_neg h1]

theorem edgeStep_inv (h : HWin) (d : ℤ) (hd : d = 1 ∨ d = -1) (v : HOut) (p : Pt) :
    Pam2.edgeStep (invWin h) (-d) (invH v) (flip p) = invH (Pam2.edgeStep h d v p) := by
  have e3 : within (1 / 2 - h.height / 2) (1 / 2 + h.height / 2) (1 - p.2) = within (1 / 2 - h.height / 2) (1 / 2 + h.height / 2) p.2 := by
    have := within_inv (1 / 2) h.height p.2
    rwa [show (1 : ℚ) - 1 / 2 = 1 / 2 by norm_num] at this
  unfold Pam2.edgeStep invWin flip
  simp only [within_inv, e3]
  cases within (h.lower - h.height / 2) (h.lower + h.height / 2) p.2 <;> cases within (h.upper - h.height / 2) (h.upper + h.height / 2) p.2 <;>
    cases within (1 / 2 - h.height / 2) (1 / 2 + h.height / 2) p.2 <;> rcases hd with rfl | rfl <;> simp [invH]

theorem argmin_shift (k : ℚ) (l : List ℚ) : argmin (l.map fun x => x + k) = argmin l := by
  cases l with
  | nil => rfl
  | cons a l =>
    simp only [argmin, List.map_cons]
    have key : ∀ (l : List ℚ) (n : ℕ) (m : ℚ × ℕ),
        ((l.map fun x => x + k).zipIdx n).foldl (fun m p => if p.1 < m.1 then p else m) (m.1 + k, m.2) =
          (((l.zipIdx n).foldl (fun m p => if p.1 < m.1 then p else m) m).1 + k, ((l.zipIdx n).foldl (fun m p => if p.1 < m.1 then p else m) m).2) := by
      intro l
      induction l with
      | nil => intro n m; rfl
      | cons b l ih =>
        intro n m
        simp only [List.map_cons, List.zipIdx_cons, List.foldl_cons, add_lt_add_iff_right]
        by_cases h : b < m.1
        · rw [if_pos h, if_pos h]; exact ih (n + 1) (b, n)
        · rw [if_neg h, if_neg h]; exact ih (n + 1) m
    have h := congrArg Prod.snd (key l 1 (a, 0))
    exact congrArg Except.ok (h.trans rfl)

theorem argmax_inv (l : List ℚ) : argmax (l.map (inv 1)) = argmin l := by
  unfold argmax
  rw [List.map_map, ← argmin_shift (-1) l]
  congr 1
  apply List.map_congr_left
  intro x _
  simp only [Function.comp, inv_eq]
  ring

theorem argmin_inv (l : List ℚ) : argmin (l.map (inv 1)) = argmax l := by
  unfold argmax
  rw [← argmin_shift 1 (l.map fun x => -x), List.map_map]
  congr 1
  apply List.map_congr_left
  intro x _
  simp only [Function.comp, inv_eq]
  ring

theorem edgeRange_inv (ys : List ℚ) (w off : ℤ) (c : Center) (d : ℤ) (hd : d = 1 ∨ d = -1) :
    edgeRange (ys.map (inv 1)) w off c (-d) = edgeRange ys w off c d := by
  unfold edgeRange
  simp only [pySlice_map, argmax_inv, argmin_inv]
  rcases hd with rfl | rfl <;> norm_num

theorem foldl_conj {α β σ τ : Type} (g : σ → τ) (k : α → β) (F : σ → α → σ) (F' : τ → β → τ) (h : ∀ v a, F' (g v) (k a) = g (F v a)) (l : List α)
    (v : σ) : (l.map k).foldl F' (g v) = g (l.foldl F v) := by
  induction l generalizing v with
  | nil => rfl
  | cons a l ih => rw [List.map_cons, List.foldl_cons, List.foldl_cons, h, ih]

theorem fold_tail (h : HWin) (d : ℤ) (hd : d = 1 ∨ d = -1) (v : HOut) (es : Except PyErr (List Pt)) :
    ((es.map fun r => r.map flip) >>= fun es => .ok (es.foldl (Pam2.edgeStep (invWin h) (-d)) (invH v))) =
      (es >>= fun es => (.ok (es.foldl (Pam2.edgeStep h d) v) : Except PyErr HOut)).map invH := by
  cases es with
  | error e => rfl
  | ok es =>
    simp only [Except.map, bind, Except.bind]
    rw [foldl_conj invH flip (Pam2.edgeStep h d) (Pam2.edgeStep (invWin h) (-d)) (edgeStep_inv h d hd)]

theorem hStep_inv (ys : List ℚ) (T δ : ℚ) (h : HWin) (v : HOut) (c : Center) (d : ℤ) (hd : d = -1 ∨ d = 0 ∨ d = 1) :
    hStep (ys.map (inv 1)) T δ (invWin h) (invH v) (c, -d) = (hStep ys T δ h v (c, d)).map invH := by
  have hf : (fun p : Pt => (p.1, aff (-1) 1 p.2)) = flip := by
    funext p
    simp only [flip, Prod.mk.injEq, true_and]
    exact inv_eq 1 p.2
  have hp : points (ys.map (inv 1)) T δ c = (points ys T δ c).map fun ps => ps.map flip := by
    rw [← hf]
    exact points_aff (α := -1) (β := 1) ys T δ c
  unfold hStep
  simp only [hp]
  cases points ys T δ c with
  | error e => rfl
  | ok ps =>
    simp only [Except.map, bind, Except.bind, pure, Except.pure]
    rw [foldl_conj invH flip (crossStep h) (crossStep (invWin h)) (crossStep_inv h)]
    by_cases h0 : d = 0
    · simp [h0]
    · have hd' : d = 1 ∨ d = -1 := by rcases hd with h | h | h <;> simp_all
      rw [if_neg (by simpa using h0), if_neg h0, edgeRange_inv ys _ _ c d hd']
      cases edgeRange ys (iWidth T δ) ((2 * iWidth T δ + 1) / 4) c d with
      | error e => rfl
      | ok r =>
        simp only
        have hes := mapM_map' flip (fun ii : ℕ => do
            let t ← pyGet (gridT T δ) ii
            let y ← pyGetZ ys (c.i - iWidth T δ + ii)
            return ((t + c.t / T, y) : Pt)) (fun ii : ℕ => do
            let t ← pyGet (gridT T δ) ii
            let y ← pyGetZ (ys.map (inv 1)) (c.i - iWidth T δ + ii)
            return ((t + c.t / T, y) : Pt)) id (by
              intro ii
              simp only [id, pyGetZ_map]
              cases pyGet (gridT T δ) ii with
              | error e => rfl
              | ok t =>
                cases pyGetZ ys (c.i - iWidth T δ + ii) with
                | error e => rfl
                | ok y => simp only [Except.map, bind, Except.bind, pure, Except.pure, flip, inv_eq]) (List.range' r.1 (r.2 + 1 - r.1))
        rw [List.map_id] at hes
        simp only [bind, Except.bind, pure, Except.pure] at hes
        rw [hes]
        have ht := fold_tail h d hd' (ps.foldl (crossStep h) v) ((List.range' r.1 (r.2 + 1 - r.1)).mapM fun ii : ℕ => do
            let t ← pyGet (gridT T δ) ii
            let y ← pyGetZ ys (c.i - iWidth T δ + ii)
            return ((t + c.t / T, y) : Pt))
        simp only [Except.map, bind, Except.bind, pure, Except.pure] at ht ⊢
        exact ht

theorem sampleHorizontal_inv (σ : ℚ) (ys : List ℚ) (cs : List Center) (dirs : List ℤ) (hd : ∀ d ∈ dirs, d = -1 ∨ d = 0 ∨ d = 1) (δ T z u : ℚ)
    (hu : u ≠ 0) (cross : Option ℚ) (height lower upper : ℚ) :
    sampleHorizontal (ys.map (inv σ)) cs (dirs.map (- ·)) δ T (inv σ (z + u)) u (cross.map (inv σ)) height (1 - upper) (1 - lower) =
      (sampleHorizontal ys cs dirs δ T z u cross height lower upper).map invH := by
  have hw : hWin (inv σ (z + u)) u (cross.map (inv σ)) height (1 - upper) (1 - lower) = invWin (hWin z u cross height lower upper) := by
    unfold hWin invWin
    cases cross with
    | none => rfl
    | some c =>
      simp only [Option.map_some, inv_eq, HWin.mk.injEq, Option.some.injEq, true_and, and_true]
      field_simp
      ring
  unfold sampleHorizontal
  rw [hw, normalise_inv σ ys z u hu, List.zip_map_right]
  have key : ∀ (l : List (Center × ℤ)), (∀ x ∈ l, x.2 = -1 ∨ x.2 = 0 ∨ x.2 = 1) → ∀ v,
      (l.map (Prod.map id (- ·))).foldlM (hStep ((normalise ys z u).map (inv 1)) T δ (invWin (hWin z u cross height lower upper))) (invH v) =
        (l.foldlM (hStep (normalise ys z u) T δ (hWin z u cross height lower upper)) v).map invH := by
    intro l
    induction l with
    | nil => intro _ v; rfl
    | cons x l ih =>
      intro hx v
      rw [List.map_cons, List.foldlM_cons, List.foldlM_cons]
      simp only [Prod.map, id]
      rw [hStep_inv _ T δ _ v x.1 x.2 (hx x (by simp))]
      cases hStep (normalise ys z u) T δ (hWin z u cross height lower upper) v (x.1, x.2) with
      | error e => rfl
      | ok v' => exact ih (fun y hy => hx y (List.mem_cons_of_mem _ hy)) v'
  exact key (cs.zip dirs) (fun x hx => hd x.2 (List.of_mem_zip hx).2) HOut.empty

/-! ### Hits -/

theorem intersection_flip (p q r s : Pt) : intersection (flip p) (flip q) (flip r) (flip s) = (intersection p q r s).map flip := by
  unfold intersection flip
  simp only
  set d := (p.1 - q.1) * (r.2 - s.2) - (p.2 - q.2) * (r.1 - s.1) with hd
  set tn := (p.1 - r.1) * (r.2 - s.2) - (p.2 - r.2) * (r.1 - s.1) with htn
  set un := (p.1 - r.1) * (p.2 - q.2) - (p.2 - r.2) * (p.1 - q.1) with hun
  have e1 : (p.1 - q.1) * (1 - r.2 - (1 - s.2)) - (1 - p.2 - (1 - q.2)) * (r.1 - s.1) = -d := by rw [hd]; ring
  have e2 : (p.1 - r.1) * (1 - r.2 - (1 - s.2)) - (1 - p.2 - (1 - r.2)) * (r.1 - s.1) = -tn := by rw [htn]; ring
  have e3 : (p.1 - r.1) * (1 - p.2 - (1 - q.2)) - (1 - p.2 - (1 - r.2)) * (p.1 - q.1) = -un := by rw [hun]; ring
  rw [e1, e2, e3]
  by_cases h0 : d = 0
  · simp [h0]
  · rw [if_neg (by simpa using h0), if_neg h0]
    have hc : (if -d > 0 then -tn < 0 ∨ -un < 0 ∨ -tn > -d ∨ -un > -d else -tn > 0 ∨ -un > 0 ∨ -tn < -d ∨ -un < -d) ↔
        (if d > 0 then tn < 0 ∨ un < 0 ∨ tn > d ∨ un > d else tn > 0 ∨ un > 0 ∨ tn < d ∨ un < d) := by
      rcases lt_or_gt_of_ne h0 with h | h
      · rw [if_pos (by linarith), if_neg (by linarith)]
        simp only [gt_iff_lt, neg_lt_neg_iff, neg_lt_zero]
      · rw [if_neg (by linarith), if_pos h]
        simp only [gt_iff_lt, neg_lt_neg_iff, neg_pos]
    simp only [hc, neg_div_neg_eq]
    by_cases hP : (if d > 0 then tn < 0 ∨ un < 0 ∨ tn > d ∨ un > d else tn > 0 ∨ un > 0 ∨ tn < d ∨ un < d)
    · rw [if_pos ⟨trivial, hP⟩, if_pos ⟨trivial, hP⟩]
      rfl
    · rw [if_neg (fun h => hP h.2), if_neg (fun h => hP h.2)]
      simp only [Option.map_some, Option.some.injEq, Prod.mk.injEq, true_and]
      ring

theorem intersection_swap (p q r s : Pt) : intersection p q s r = intersection p q r s := by
  unfold intersection
  simp only
  set d := (p.1 - q.1) * (r.2 - s.2) - (p.2 - q.2) * (r.1 - s.1) with hd
  set tn := (p.1 - r.1) * (r.2 - s.2) - (p.2 - r.2) * (r.1 - s.1) with htn
  set un := (p.1 - r.1) * (p.2 - q.2) - (p.2 - r.2) * (p.1 - q.1) with hun
  have e1 : (p.1 - q.1) * (s.2 - r.2) - (p.2 - q.2) * (s.1 - r.1) = -d := by rw [hd]; ring
  have e2 : (p.1 - s.1) * (s.2 - r.2) - (p.2 - s.2) * (s.1 - r.1) = -tn := by rw [htn]; ring
  have e3 : (p.1 - s.1) * (p.2 - q.2) - (p.2 - s.2) * (p.1 - q.1) = un - d := by rw [hun, hd]; ring
  rw [e1, e2, e3]
  by_cases h0 : d = 0
  · simp [h0]
  · rw [if_neg (by simpa using h0), if_neg h0]
    have hc : (if -d > 0 then -tn < 0 ∨ un - d < 0 ∨ -tn > -d ∨ un - d > -d else -tn > 0 ∨ un - d > 0 ∨ -tn < -d ∨ un - d < -d) ↔
        (if d > 0 then tn < 0 ∨ un < 0 ∨ tn > d ∨ un > d else tn > 0 ∨ un > 0 ∨ tn < d ∨ un < d) := by
      have a1 : un - d < 0 ↔ un < d := sub_neg
      have a2 : un - d > 0 ↔ un > d := sub_pos
      have a3 : un - d > -d ↔ un > 0 := by constructor <;> intro h <;> linarith
      have a4 : un - d < -d ↔ un < 0 := by constructor <;> intro h <;> linarith
      have a5 : -tn < 0 ↔ tn > 0 := neg_lt_zero
      have a6 : -tn > 0 ↔ tn < 0 := neg_pos
      have a7 : -tn > -d ↔ tn < d := neg_lt_neg_iff
      have a8 : -tn < -d ↔ tn > d := neg_lt_neg_iff
      rw [a1, a2, a3, a4, a5, a6, a7, a8]
      clear_value d tn un
      clear e1 e2 e3 a1 a2 a3 a4 a5 a6 a7 a8 hd htn hun
      rcases lt_or_gt_of_ne h0 with h | h
      · rw [if_pos (by linarith), if_neg (by linarith)]
        constructor <;> rintro (h | h | h | h) <;> simp [h]
      · rw [if_neg (by linarith), if_pos h]
        constructor <;> rintro (h | h | h | h) <;> simp [h]
    simp only [hc, neg_div_neg_eq]

theorem segs_map (f : Pt → Pt) (l : List Pt) : segs (l.map f) = (segs l).map (Prod.map f f) := by
  induction l with
  | nil => rfl
  | cons a l ih =>
    cases l with
    | nil => rfl
    | cons b l =>
      simp only [List.map_cons, segs] at ih ⊢
      rw [ih]
      rfl

theorem bbox_flip (path : List Pt) : bbox (path.map flip) = (bbox path).map fun b => (b.1, b.2.1, 1 - b.2.2.2, 1 - b.2.2.1) := by
  cases path with
  | nil => rfl
  | cons p ps =>
    have k1 : ∀ (f : ℚ → ℚ → ℚ) (l : List Pt) (a : ℚ), (l.map flip).foldl (fun m q => f m q.1) a = l.foldl (fun m q => f m q.1) a := by
      intro f l a
      rw [List.foldl_map]
      rfl
    have k2 : ∀ (l : List Pt) (a : ℚ), (l.map flip).foldl (fun m q => min m q.2) (1 - a) = 1 - l.foldl (fun m q => max m q.2) a := by
      intro l
      induction l with
      | nil => intro a; rfl
      | cons q l ih =>
        intro a
        rw [List.map_cons, List.foldl_cons, List.foldl_cons, ← ih]
        congr 1
        exact min_sub_sub_left 1 a q.2
    have k3 : ∀ (l : List Pt) (a : ℚ), (l.map flip).foldl (fun m q => max m q.2) (1 - a) = 1 - l.foldl (fun m q => min m q.2) a := by
      intro l
      induction l with
      | nil => intro a; rfl
      | cons q l ih =>
        intro a
        rw [List.map_cons, List.foldl_cons, List.foldl_cons, ← ih]
        congr 1
        exact max_sub_sub_left 1 a q.2
    simp only [bbox, List.map_cons, Except.map]
    rw [k1 min, k1 max, show (flip p).2 = 1 - p.2 from rfl, k2, k3]
    rfl

theorem skipSeg_flip (a b c d : ℚ) (p q : Pt) : skipSeg a b (1 - d) (1 - c) (flip p) (flip q) = skipSeg a b c d p q := by
  unfold skipSeg flip
  simp only [gt_iff_lt, sub_lt_sub_iff_left]
  split
  · rfl
  · rcases lt_trichotomy p.2 q.2 with h | h | h
    · rw [if_neg (by linarith), if_pos h, decide_eq_decide]
    · rw [if_neg (by linarith), if_neg (by linarith), decide_eq_decide, h, or_comm]
    · rw [if_pos h, if_neg (by linarith), decide_eq_decide]

theorem hitsPath_flip (w path : List Pt) : hitsPath (w.map flip) (path.map flip) = (hitsPath w path).map fun h => h.map flip := by
  unfold hitsPath
  rw [bbox_flip]
  cases bbox path with
  | error e => rfl
  | ok b =>
    simp only [Except.map, bind, Except.bind, pure, Except.pure, segs_map, List.flatMap_map, List.map_flatMap]
    congr 1
    apply List.flatMap_congr
    intro s _
    simp only [Prod.map]
    rw [skipSeg_flip]
    split
    · rfl
    · unfold hitsSeg
      rw [segs_map, List.filterMap_map, List.map_filterMap]
      congr 1
      funext e
      exact intersection_flip _ _ _ _

/-- A level is the same upside down: the times at which half the amplitude is crossed. -/
theorem hits_half (w : List Pt) : hits (w.map flip) [[(0, 1 / 2), (1, 1 / 2)]] = (hits w [[(0, 1 / 2), (1, 1 / 2)]]).map fun h => h.map flip := by
  have hp : ([(0, 1 / 2), (1, 1 / 2)] : List Pt) = [(0, 1 / 2), (1, 1 / 2)].map flip := by
    simp [flip]; norm_num
  unfold hits
  conv_lhs => rw [hp]
  rw [hitsPath_flip]
  cases hitsPath w [(0, 1 / 2), (1, 1 / 2)] with
  | error e => rfl
  | ok h => simp [hits, Except.map, bind, Except.bind, pure, Except.pure]

theorem bathtub_inv (σ : ℚ) (ws : List Wf) (δ T z u : ℚ) (hu : u ≠ 0) :
    bathtubCurve (ws.map (invWf σ)) δ T (inv σ (z + u)) u (1 / 2) = bathtubCurve ws δ T z u (1 / 2) := by
  have h : ∀ w : Wf, ySlice (invWf σ w) δ T (inv σ (z + u)) u (1 / 2) = ySlice w δ T z u (1 / 2) := by
    intro w
    unfold ySlice invWf
    simp only [normalise_inv σ w.y z u hu, window_inv, hits_half]
    congr 1
    funext acc c
    cases hits (window (normalise w.y z u) T δ c) [[(0, 1 / 2), (1, 1 / 2)]] with
    | error e => rfl
    | ok h =>
      simp only [Except.map, bind, Except.bind, pure, Except.pure, List.map_map]
      rfl
  unfold bathtubCurve
  rw [List.mapM_map]
  simp only [Function.comp_def, h]

/-! ### Masks -/

/-- The mask upside down: the limits above and below are exchanged. -/
def swapHex (m : Hexagon) : Hexagon := { m with yl := m.yu, yu := m.yl }

/-- The mask upside down. -/
def swapDec (m : Decagon) : Decagon := { m with yl := m.yu, yu := m.yl }

/-- The result of the mask test upside down: the same symbols offend, with the same margin, and the hits are upside down (in another order). -/
structure FlippedMask (r r' : MaskAll) : Prop where
  offenders : r'.offenders = r.offenders
  margin : r'.margin = r.margin
  count : r'.count = r.count
  hits : r'.hits.Perm (r.hits.map flip)

/-- A mask and the mask upside down. -/
def MirrorMask (σ : ℚ) (mask mask' : Option MaskFn) : Prop :=
  match mask, mask' with
  | none, none => True
  | some f, some f' => ∀ δ T z u ws r, u ≠ 0 → f δ T z u ws = .ok r →
      ∃ r', f' δ T (inv σ (z + u)) u (ws.map (invWf σ)) = .ok r' ∧ FlippedMask r r'
  | _, _ => False

theorem flip_flip (p : Pt) : flip (flip p) = p := by simp [flip]

theorem segs_append (l : List Pt) (b a : Pt) : segs (l ++ [b, a]) = segs (l ++ [b]) ++ [(b, a)] := by
  induction l with
  | nil => rfl
  | cons x l ih =>
    cases l with
    | nil => rfl
    | cons y l =>
      simp only [List.cons_append, segs] at ih ⊢
      rw [ih]

theorem segs_reverse (l : List Pt) : segs l.reverse = ((segs l).map Prod.swap).reverse := by
  induction l with
  | nil => rfl
  | cons a l ih =>
    cases l with
    | nil => rfl
    | cons b l =>
      rw [List.reverse_cons, List.reverse_cons, List.append_assoc, List.singleton_append, segs_append, ← List.reverse_cons, ih]
      simp [segs]

theorem bbox_perm (p : Pt) (l l' : List Pt) (h : l'.Perm l) : bbox (p :: l') = bbox (p :: l) := by
  have c1 : ∀ (f : ℚ → ℚ → ℚ) (g : Pt → ℚ), (∀ a b c, f (f a b) c = f (f a c) b) → l'.foldl (fun m q => f m (g q)) (g p) = l.foldl (fun m q => f m (g q)) (g p) :=
    fun f g hf => h.foldl_eq' (fun x _ y _ z => hf z (g x) (g y)) (g p)
  simp only [bbox]
  rw [c1 min Prod.fst min_right_comm, c1 max Prod.fst max_right_comm, c1 min Prod.snd min_right_comm, c1 max Prod.snd max_right_comm]

theorem hitsPath_ok (w : List Pt) (p : Pt) (ps : List Pt) :
    ∃ H, hitsPath w (p :: ps) = .ok H ∧ isHittingPath w (p :: ps) = .ok (decide (H ≠ [])) := by
  refine ⟨_, rfl, ?_⟩
  unfold isHittingPath
  simp only [bbox, bind, Except.bind, pure, Except.pure]
  congr 1
  rw [Bool.eq_iff_iff]
  simp only [List.any_eq_true, Bool.and_eq_true, Bool.not_eq_true', decide_eq_true_eq, ne_eq, List.flatMap_eq_nil_iff, not_forall]
  constructor
  · rintro ⟨s, hs, h1, e, he, h2⟩
    refine ⟨s, hs, ?_⟩
    rw [if_neg (by simp [h1])]
    intro h
    unfold hitsSeg at h
    rw [List.filterMap_eq_nil_iff] at h
    rw [h e he] at h2
    cases h2
  · rintro ⟨s, hs, h⟩
    by_cases hk : skipSeg (ps.foldl (fun m q => min m q.1) p.1) (ps.foldl (fun m q => max m q.1) p.1) (ps.foldl (fun m q => min m q.2) p.2)
        (ps.foldl (fun m q => max m q.2) p.2) s.1 s.2 = true
    · rw [if_pos hk] at h
      exact absurd rfl h
    · rw [if_neg hk] at h
      refine ⟨s, hs, by simpa using hk, ?_⟩
      unfold hitsSeg at h
      rw [List.filterMap_eq_nil_iff] at h
      push Not at h
      obtain ⟨e, he, h⟩ := h
      exact ⟨e, he, Option.isSome_iff_ne_none.2 h⟩

/-- Backwards along a closed path. -/
theorem hitsPath_reverse (w : List Pt) (p : Pt) (ps ps' : List Pt) (hr : (p :: ps).reverse = p :: ps') :
    ∃ H H', hitsPath w (p :: ps) = .ok H ∧ hitsPath w (p :: ps') = .ok H' ∧ H'.Perm H := by
  have hp : ps'.Perm ps := by
    have := List.reverse_perm (p :: ps)
    rw [hr] at this
    exact this.cons_inv
  refine ⟨_, ?_, rfl, ?h1, ?h2⟩
  case h1 =>
    unfold hitsPath
    rw [bbox_perm p ps ps' hp]
    rfl
  case h2 =>
    apply List.Perm.flatMap_left
    intro s _
    split
    · exact .refl _
    · unfold hitsSeg
      rw [← hr, segs_reverse]
      refine ((List.reverse_perm _).filterMap _).trans ?_
      rw [List.filterMap_map]
      have : ((fun e : Pt × Pt => intersection s.2 s.1 e.2 e.1) ∘ Prod.swap) = fun e => intersection s.2 s.1 e.2 e.1 := by
        funext e
        exact intersection_swap s.2 s.1 e.2 e.1
      rw [this]

/-- Paths that are hit upside down where the others are hit. -/
def Mirror (p p' : List (List Pt)) : Prop :=
  ∀ w, ∃ H H', hits w p = .ok H ∧ hits (w.map flip) p' = .ok H' ∧ H'.Perm (H.map flip) ∧ isHitting w p = .ok (decide (H ≠ [])) ∧
    isHitting (w.map flip) p' = .ok (decide (H ≠ []))

theorem isHitting_cons (w path : List Pt) (rest : List (List Pt)) (a b : Bool) (h1 : isHittingPath w path = .ok a) (h2 : isHitting w rest = .ok b) :
    isHitting w (path :: rest) = .ok (a || b) := by
  unfold isHitting
  rw [h1]
  cases a
  · simpa [bind, Except.bind] using h2
  · rfl

theorem hits_three (w : List Pt) (a b c : List Pt) (ha : a ≠ []) (hb : b ≠ []) (hc : c ≠ []) :
    ∃ A B C, hitsPath w a = .ok A ∧ hitsPath w b = .ok B ∧ hitsPath w c = .ok C ∧ hits w [a, b, c] = .ok (A ++ (B ++ C)) ∧
      isHitting w [a, b, c] = .ok (decide (A ++ (B ++ C) ≠ [])) := by
  obtain ⟨p, a, rfl⟩ := List.exists_cons_of_ne_nil ha
  obtain ⟨q, b, rfl⟩ := List.exists_cons_of_ne_nil hb
  obtain ⟨r, c, rfl⟩ := List.exists_cons_of_ne_nil hc
  obtain ⟨A, a1, a2⟩ := hitsPath_ok w p a
  obtain ⟨B, b1, b2⟩ := hitsPath_ok w q b
  obtain ⟨C, c1, c2⟩ := hitsPath_ok w r c
  refine ⟨A, B, C, a1, b1, c1, ?_, ?_⟩
  · simp only [hits, a1, b1, c1, bind, Except.bind, pure, Except.pure, List.append_nil]
  · rw [isHitting_cons w _ _ _ _ a2 (isHitting_cons w _ _ _ _ b2 (isHitting_cons w _ _ _ _ c2 rfl))]
    congr 1
    rw [Bool.eq_iff_iff]
    simp only [Bool.or_eq_true, decide_eq_true_eq, ne_eq, List.append_eq_nil_iff, Bool.false_eq_true, or_false]
    tauto

theorem mirror_three (p : Pt) (ps : List Pt) (u l : List Pt) (hu : u ≠ []) (hl : l ≠ []) (hc : (p :: ps).map flip = (p :: ps).reverse)
    (hp : flip p = p) : Mirror [p :: ps, u, l] [p :: ps, l.map flip, u.map flip] := by
  intro w
  obtain ⟨A, B, C, a1, b1, c1, e1, e2⟩ := hits_three w (p :: ps) u l (by simp) hu hl
  obtain ⟨A', C', B', a1', c1', b1', e1', e2'⟩ := hits_three (w.map flip) (p :: ps) (l.map flip) (u.map flip) (by simp) (by simpa using hl)
    (by simpa using hu)
  rw [hitsPath_flip, b1] at b1'
  rw [hitsPath_flip, c1] at c1'
  obtain rfl := Except.ok.inj b1'
  obtain rfl := Except.ok.inj c1'
  have hA : A'.Perm (A.map flip) := by
    rw [List.map_cons, hp] at hc
    obtain ⟨H, H', h1, h2, h3⟩ := hitsPath_reverse w p ps _ hc.symm
    obtain rfl : A = H := Except.ok.inj (a1.symm.trans h1)
    have h4 : hitsPath (w.map flip) (p :: ps) = .ok (H'.map flip) := by
      have := hitsPath_flip w (p :: ps.map flip)
      rw [h2, List.map_cons, hp, List.map_map, show flip ∘ flip = id from funext flip_flip, List.map_id] at this
      exact this
    obtain rfl := Except.ok.inj (a1'.symm.trans h4)
    exact h3.map flip
  have hperm : (A' ++ (C.map flip ++ B.map flip)).Perm ((A ++ (B ++ C)).map flip) := by
    rw [List.map_append, List.map_append]
    exact hA.append List.perm_append_comm
  refine ⟨_, _, e1, e1', hperm, e2, ?_⟩
  rw [e2']
  congr 1
  rw [decide_eq_decide, ne_eq, ne_eq, not_iff_not]
  constructor
  · intro h
    rw [h] at hperm
    simpa using hperm.symm.eq_nil
  · intro h
    rw [h] at hperm
    exact hperm.eq_nil

theorem upper_flip (y : ℚ) : (pathUpper y).map flip = pathLower y := by
  simp only [pathUpper, pathLower, List.map_cons, List.map_nil, flip]
  norm_num

theorem lower_flip (y : ℚ) : (pathLower y).map flip = pathUpper y := by
  simp only [pathUpper, pathLower, List.map_cons, List.map_nil, flip]
  norm_num

theorem hexagon_mirror (m : Hexagon) (P : List (List Pt)) (h : m.paths = .ok P) : ∃ P', (swapHex m).paths = .ok P' ∧ Mirror P P' := by
  unfold Hexagon.paths at h ⊢
  by_cases hc : m.converted = true
  · rw [if_pos hc] at h
    obtain rfl := Except.ok.inj h
    rw [if_pos (show (swapHex m).converted = true from hc)]
    refine ⟨_, rfl, ?_⟩
    have := mirror_three (m.x1.v, 1 / 2) [(m.x2.v, 1 - m.y1.v), (1 - m.x2.v, 1 - m.y1.v), (1 - m.x1.v, 1 / 2), (1 - m.x2.v, m.y1.v), (m.x2.v, m.y1.v),
      (m.x1.v, 1 / 2)] (pathUpper m.yu.v) (pathLower m.yl.v) (by simp [pathUpper]) (by simp [pathLower]) (by simp [flip]; norm_num) (by simp [flip]; norm_num)
    rw [upper_flip, lower_flip] at this
    exact this
  · rw [if_neg hc] at h
    cases h

theorem decagon_mirror (m : Decagon) (P : List (List Pt)) (h : m.paths = .ok P) : ∃ P', (swapDec m).paths = .ok P' ∧ Mirror P P' := by
  unfold Decagon.paths at h ⊢
  by_cases hc : m.converted = true
  · rw [if_pos hc] at h
    obtain rfl := Except.ok.inj h
    rw [if_pos (show (swapDec m).converted = true from hc)]
    refine ⟨_, rfl, ?_⟩
    have := mirror_three (m.x1.v, 1 / 2) [(m.x2.v, 1 - m.y2.v), (m.x3.v, 1 - m.y1.v), (1 - m.x3.v, 1 - m.y1.v), (1 - m.x2.v, 1 - m.y2.v),
      (1 - m.x1.v, 1 / 2), (1 - m.x2.v, m.y2.v), (1 - m.x3.v, m.y1.v), (m.x3.v, m.y1.v), (m.x2.v, m.y2.v), (m.x1.v, 1 / 2)]
      (pathUpper m.yu.v) (pathLower m.yl.v) (by simp [pathUpper]) (by simp [pathLower]) (by simp [flip]; norm_num) (by simp [flip]; norm_num)
    rw [upper_flip, lower_flip] at this
    exact this
  · rw [if_neg hc] at h
    cases h

theorem mapM_rel {α β γ : Type} (R : β → γ → Prop) (f : α → Except PyErr β) (g : α → Except PyErr γ)
    (h : ∀ a b, f a = .ok b → ∃ c, g a = .ok c ∧ R b c) (l : List α) (r : List β) (hr : l.mapM f = .ok r) :
    ∃ r', l.mapM g = .ok r' ∧ List.Forall₂ R r r' := by
  induction l generalizing r with
  | nil => obtain rfl := Except.ok.inj hr; exact ⟨[], rfl, .nil⟩
  | cons a l ih =>
    rw [List.mapM_cons] at hr
    cases h1 : f a with
    | error e => rw [h1] at hr; cases hr
    | ok b =>
      cases h2 : l.mapM f with
      | error e => rw [h1, h2] at hr; cases hr
      | ok bs =>
        rw [h1, h2] at hr
        obtain rfl := Except.ok.inj hr
        obtain ⟨c, k1, k2⟩ := h a b h1
        obtain ⟨cs, k3, k4⟩ := ih bs h2
        refine ⟨c :: cs, ?_, .cons k2 k4⟩
        rw [List.mapM_cons, k1, k3]
        rfl

theorem advance_inv (w : List Pt) (P P' : List (List (List Pt))) (h : List.Forall₂ Mirror P P') (k : ℕ) :
    advance (w.map flip) P' k = advance w P k := by
  induction h generalizing k with
  | nil => rfl
  | cons h _ ih =>
    obtain ⟨H, H', -, -, -, h1, h2⟩ := h w
    unfold advance
    rw [h1, h2]
    simp only [bind, Except.bind, ih]

/-- The states of the two mask tests. -/
def SameState (s s' : MaskState) : Prop := s'.iMargin = s.iMargin ∧ s'.offenders = s.offenders ∧ s'.hits.Perm (s.hits.map flip)

theorem maskStep_inv (P P' : List (List (List Pt))) (h : List.Forall₂ Mirror P P') (z z' : List (List Pt)) (hz : Mirror z z') (i : ℕ) (s s' r : MaskState)
    (hs : SameState s s') (n : ℕ) (w : List Pt) (hr : maskStep P z i s (n, w) = .ok r) :
    ∃ r', maskStep P' z' i s' (n, w.map flip) = .ok r' ∧ SameState r r' := by
  obtain ⟨s1, s2, s3⟩ := hs
  obtain ⟨H, H', h1, h2, h3, -⟩ := hz w
  unfold maskStep at hr ⊢
  simp only [s1, advance_inv w _ _ (List.forall₂_drop s.iMargin h), h2] at hr ⊢
  cases ha : advance w (P.drop s.iMargin) s.iMargin with
  | error e => simp only [ha, bind, Except.bind] at hr; cases hr
  | ok m =>
    simp only [ha, h1, bind, Except.bind, pure, Except.pure] at hr ⊢
    by_cases hm : m < i
    · rw [if_pos hm] at hr ⊢
      obtain rfl := Except.ok.inj hr
      exact ⟨_, rfl, rfl, s2, s3⟩
    · rw [if_neg hm] at hr ⊢
      have hiff : H' = [] ↔ H = [] := by
        constructor
        · intro e
          rw [e] at h3
          simpa using h3.symm.eq_nil
        · intro e
          rw [e] at h3
          exact h3.eq_nil
      by_cases hH : H = []
      · rw [if_pos hH] at hr
        rw [if_pos (hiff.2 hH)]
        obtain rfl := Except.ok.inj hr
        exact ⟨_, rfl, rfl, s2, s3⟩
      · rw [if_neg hH] at hr
        rw [if_neg (fun e => hH (hiff.1 e))]
        obtain rfl := Except.ok.inj hr
        refine ⟨_, rfl, rfl, by rw [s2], ?_⟩
        rw [List.map_append]
        exact s3.append h3

theorem mirror_get (P P' : List (List (List Pt))) (h : List.Forall₂ Mirror P P') (i : ℕ) : Mirror (P.getD i []) (P'.getD i []) := by
  have h0 : Mirror [] [] := fun w => ⟨[], [], rfl, rfl, .nil, rfl, rfl⟩
  induction h generalizing i with
  | nil => exact h0
  | cons h _ ih =>
    cases i with
    | zero => exact h
    | succ i => exact ih i

theorem sampleMask_inv (σ : ℚ) (w : Wf) (δ T z u : ℚ) (hu : u ≠ 0) (P P' : List (List (List Pt))) (h : List.Forall₂ Mirror P P') (ms : List ℚ)
    (o : MaskOut) (ho : sampleMask w.y w.centers δ T z u P ms = .ok o) :
    ∃ o', sampleMask (invWf σ w).y (invWf σ w).centers δ T (inv σ (z + u)) u P' ms = .ok o' ∧ o'.offenders = o.offenders ∧ o'.margin = o.margin ∧
      o'.hits.Perm (o.hits.map flip) := by
  have key : ∀ (l : List (ℕ × List Pt)) (s s' r : MaskState), SameState s s' →
      l.foldlM (maskStep P (P.getD (ms.length / 2) []) (ms.length / 2)) s = .ok r →
      ∃ r', (l.map fun x => (x.1, x.2.map flip)).foldlM (maskStep P' (P'.getD (ms.length / 2) []) (ms.length / 2)) s' = .ok r' ∧ SameState r r' := by
    intro l
    induction l with
    | nil => intro s s' r hs hr; obtain rfl := Except.ok.inj hr; exact ⟨s', rfl, hs⟩
    | cons x l ih =>
      intro s s' r hs hr
      rw [List.foldlM_cons] at hr
      cases h1 : maskStep P (P.getD (ms.length / 2) []) (ms.length / 2) s x with
      | error e => rw [h1] at hr; cases hr
      | ok s1 =>
        rw [h1] at hr
        obtain ⟨s1', k1, k2⟩ := maskStep_inv P P' h _ _ (mirror_get P P' h (ms.length / 2)) _ s s' s1 hs x.1 x.2 h1
        obtain ⟨r', k3, k4⟩ := ih s1 s1' r k2 hr
        refine ⟨r', ?_, k4⟩
        rw [List.map_cons, List.foldlM_cons, k1]
        exact k3
  unfold sampleMask at ho ⊢
  simp only [invWf, normalise_inv σ w.y z u hu, List.length_map] at ho ⊢
  have hw : w.centers.map (window ((normalise w.y z u).map (inv 1)) T δ) = (w.centers.map (window (normalise w.y z u) T δ)).map fun l => l.map flip := by
    rw [List.map_map]
    apply List.map_congr_left
    intro c _
    exact window_inv _ T δ c
  rw [hw, List.zip_map_right]
  cases hs : ((List.range w.centers.length).zip (w.centers.map (window (normalise w.y z u) T δ))).foldlM
      (maskStep P (P.getD (ms.length / 2) []) (ms.length / 2)) ⟨0, [], []⟩ with
  | error e => simp only [hs, bind, Except.bind] at ho; cases ho
  | ok s =>
    obtain ⟨s', k1, k2, k3, k4⟩ := key _ _ ⟨0, [], []⟩ s ⟨rfl, rfl, .nil⟩ hs
    simp only [hs, bind, Except.bind, pure, Except.pure] at ho
    cases hm : marginAt ms s.iMargin with
    | error e => rw [hm] at ho; cases ho
    | ok g =>
      rw [hm] at ho
      obtain rfl := Except.ok.inj ho
      refine ⟨⟨s'.offenders, s'.hits, g⟩, ?_, k3, rfl, k4⟩
      have e : (Prod.map id fun l : List Pt => l.map flip) = fun x : ℕ × List Pt => (x.1, x.2.map flip) := rfl
      rw [e, k1]
      simp only [bind, Except.bind, k2, hm, pure, Except.pure]

theorem maskLoop_inv (σ : ℚ) (δ T z u : ℚ) (hu : u ≠ 0) (P P' : List (List (List Pt))) (h : List.Forall₂ Mirror P P') (ws : List Wf) (a a' r : MaskAll)
    (ha : FlippedMask a a') (hr : maskLoop δ T z u P ws a = .ok r) :
    ∃ r', maskLoop δ T (inv σ (z + u)) u P' (ws.map (invWf σ)) a' = .ok r' ∧ FlippedMask r r' := by
  induction ws generalizing a a' with
  | nil => obtain rfl := Except.ok.inj hr; exact ⟨a', rfl, ha⟩
  | cons w ws ih =>
    unfold maskLoop at hr
    cases ho : sampleMask w.y w.centers δ T z u P margins with
    | error e => rw [ho] at hr; cases hr
    | ok o =>
      rw [ho] at hr
      obtain ⟨o', k1, k2, k3, k4⟩ := sampleMask_inv σ w δ T z u hu P P' h margins o ho
      obtain ⟨r', e, hf⟩ := ih _ ⟨a'.offenders ++ [o'.offenders], a'.hits ++ o'.hits, min a'.margin o'.margin, a'.count + o'.offenders.length⟩
        ⟨by rw [ha.offenders, k2], by rw [ha.margin, k3], by rw [ha.count, k2], by rw [List.map_append]; exact ha.hits.append k4⟩ hr
      refine ⟨r', ?_, hf⟩
      rw [List.map_cons]
      unfold maskLoop
      rw [k1]
      exact e

theorem hex_convert (m : Hexagon) (a b : ℚ) : (swapHex m).convert a b = (m.convert a b).map swapHex := by
  obtain ⟨⟨r1, v1⟩, ⟨r2, v2⟩, ⟨r3, v3⟩, ⟨r4, v4⟩, ⟨r5, v5⟩, zr, cv⟩ := m
  unfold Hexagon.convert convertUnit swapHex
  by_cases ha : a = 0 <;> by_cases hb : b = 0 <;> cases r1 <;> cases r2 <;> cases r3 <;> cases r4 <;> cases r5 <;> cases zr <;>
    simp [ha, hb, bind, Except.bind, pure, Except.pure, Except.map, Hexagon.new]

theorem dec_convert (m : Decagon) (a b : ℚ) : (swapDec m).convert a b = (m.convert a b).map swapDec := by
  obtain ⟨⟨r1, v1⟩, ⟨r2, v2⟩, ⟨r3, v3⟩, ⟨r4, v4⟩, ⟨r5, v5⟩, ⟨r6, v6⟩, ⟨r7, v7⟩, zr, cv⟩ := m
  unfold Decagon.convert swapDec
  have hX : ∀ q : Qty, convertUnit q a = .error .zeroDivision ∨ ∃ v, convertUnit q a = .ok v := by
    intro q
    unfold convertUnit
    split
    · split
      · exact .inl rfl
      · exact .inr ⟨_, rfl⟩
    · exact .inr ⟨_, rfl⟩
  simp only
  cases convertUnit ⟨r1, v1⟩ b with
  | error e => rfl
  | ok x1 =>
  cases convertUnit ⟨r2, v2⟩ b with
  | error e => rfl
  | ok x2 =>
  cases convertUnit ⟨r3, v3⟩ b with
  | error e => rfl
  | ok x3 =>
  cases convertUnit ⟨r4, v4⟩ a with
  | error e => rfl
  | ok y1 =>
  cases convertUnit ⟨r5, v5⟩ a with
  | error e => rfl
  | ok y2 =>
  rcases hX ⟨r6, v6⟩ with h6 | ⟨y6, h6⟩ <;> rcases hX ⟨r7, v7⟩ with h7 | ⟨y7, h7⟩ <;> rw [h6, h7] <;> cases zr <;> rfl

theorem hex_adjust (m : Hexagon) (f : ℚ) : (swapHex m).adjust f = (m.adjust f).map swapHex := by
  unfold Hexagon.adjust swapHex
  simp only
  split
  · split <;> rfl
  · rfl

theorem dec_adjust (m : Decagon) (f : ℚ) : (swapDec m).adjust f = (m.adjust f).map swapDec := by
  unfold Decagon.adjust swapDec
  simp only
  split
  · split <;> rfl
  · rfl

/-- **C92.** A hexagon mask with the limits above and below exchanged is the mask upside down. -/
theorem C92_hexagon (σ : ℚ) (m : Hexagon) : MirrorMask σ (some (sampleHexMask m)) (some (sampleHexMask (swapHex m))) := by
  intro δ T z u ws r hu hr
  unfold sampleHexMask at hr ⊢
  rw [hex_convert]
  cases hc : m.convert u T with
  | error e => rw [hc] at hr; cases hr
  | ok c =>
    simp only [hc, bind, Except.bind, Except.map] at hr ⊢
    cases hp : hexMaskPaths c with
    | error e => rw [hp] at hr; cases hr
    | ok P =>
      rw [hp] at hr
      obtain ⟨P', k1, k2⟩ := mapM_rel Mirror _ (fun f => do ((← (swapHex c).adjust f).paths)) (by
        intro f Q hQ
        rw [hex_adjust]
        cases ha : c.adjust f with
        | error e => rw [ha] at hQ; cases hQ
        | ok m' =>
          rw [ha] at hQ
          exact hexagon_mirror m' Q hQ) margins P hp
      unfold hexMaskPaths
      rw [k1]
      exact maskLoop_inv σ δ T z u hu P P' k2 ws _ _ r ⟨rfl, rfl, rfl, .nil⟩ hr

/-- **C92.** A decagon mask with the limits above and below exchanged is the mask upside down. -/
theorem C92_decagon (σ : ℚ) (m : Decagon) : MirrorMask σ (some (sampleDecMask m)) (some (sampleDecMask (swapDec m))) := by
  intro δ T z u ws r hu hr
  unfold sampleDecMask at hr ⊢
  rw [dec_convert]
  cases hc : m.convert u T with
  | error e => rw [hc] at hr; cases hr
  | ok c =>
    simp only [hc, bind, Except.bind, Except.map] at hr ⊢
    cases hp : decMaskPaths c with
    | error e => rw [hp] at hr; cases hr
    | ok P =>
      rw [hp] at hr
      obtain ⟨P', k1, k2⟩ := mapM_rel Mirror _ (fun f => do ((← (swapDec c).adjust f).paths)) (by
        intro f Q hQ
        rw [dec_adjust]
        cases ha : c.adjust f with
        | error e => rw [ha] at hQ; cases hQ
        | ok m' =>
          rw [ha] at hQ
          exact decagon_mirror m' Q hQ) margins P hp
      unfold decMaskPaths
      rw [k1]
      exact maskLoop_inv σ δ T z u hu P P' k2 ws _ _ r ⟨rfl, rfl, rfl, .nil⟩ hr

/-! ### Levels -/

/-- The level settings upside down. -/
def invC (σ : ℚ) (c : LevelConfig ℚ) : LevelConfig ℚ := ⟨c.y1.map (inv σ), c.y0.map (inv σ), c.yTh.map (inv σ), c.hys, c.hysUa⟩

/-- The measured levels upside down. -/
def invM (σ : ℚ) (m : Level ℚ × Level ℚ) : Level ℚ × Level ℚ := (⟨inv σ m.2.value, m.2.stddev⟩, ⟨inv σ m.1.value, m.1.stddev⟩)

/-- The levels upside down: what was a one is a zero, the threshold of rising edges is that of falling edges; the amplitude is the same. -/
def invLevels (σ : ℚ) (l : Levels ℚ) : Levels ℚ := ⟨inv σ (l.zero + l.ua), l.ua, inv σ l.half, inv σ l.falling, inv σ l.rising, l.lowSnr⟩

/-- The other polarity. -/
def other : Polarity → Polarity
  | .rising => .falling
  | .falling => .rising
  | .both => .both

/-- The settings upside down. -/
def invS (σ : ℚ) (s : Settings) : Settings :=
  { s with level := invC σ s.level, polarity := other s.polarity, edgeLower := 1 - s.edgeUpper, edgeUpper := 1 - s.edgeLower }

theorem levels_inv (σ : ℚ) (c : LevelConfig ℚ) (m : Level ℚ × Level ℚ) : levels (invC σ c) (invM σ m) = invLevels σ (levels c m) := by
  obtain ⟨y0, y1, yTh, hys, u⟩ := c
  obtain ⟨⟨v0, s0⟩, ⟨v1, s1⟩⟩ := m
  have key : ∀ a b s t : ℚ, (if t + s = 0 then false else decide ((inv σ a - inv σ b) / (t + s) < 2)) =
      (if s + t = 0 then false else decide ((b - a) / (s + t) < 2)) := by
    intro a b s t
    rw [add_comm t s, inv_eq, inv_eq, show σ - a - (σ - b) = b - a by ring]
  rcases y0 with _ | y0 <;> rcases y1 with _ | y1 <;> rcases yTh with _ | yTh <;> rcases hys with _ | h <;>
    simp only [levels, startLevels, invC, invM, invLevels, Option.map_none, Option.map_some, Option.getD_none, Option.getD_some, reduceCtorEq,
      true_or, or_true, or_self, if_true, if_false, key, Levels.mk.injEq, and_true, true_and, add_zero] <;>
    (simp only [inv_eq]; and_intros <;> ring)

theorem newLevels_inv (σ : ℚ) (c : LevelConfig ℚ) (hc : c.y0 = none ↔ c.y1 = none) (m0 m1 : Option ℚ) (l : Levels ℚ)
    (hl : ∀ a b, c.y0 = some a → c.y1 = some b → l.zero = a ∧ l.ua = b - a) :
    newLevels (invC σ c) (m1.map (inv σ)) (m0.map (inv σ)) (invLevels σ l) = (newLevels c m0 m1 l).map (invLevels σ) := by
  obtain ⟨y0, y1, yTh, hys, u⟩ := c
  simp only at hc hl
  rcases y0 with _ | y0 <;> rcases y1 with _ | y1
  · rcases m0 with _ | m0 <;> rcases m1 with _ | m1 <;> rcases yTh with _ | yTh <;>
      simp only [newLevels, updateLevels, invC, invLevels, Option.map_none, Option.map_some, Option.some.injEq, Levels.mk.injEq, and_true,
        inv_eq] <;>
      (try (and_intros <;> ring))
  · simp at hc
  · simp at hc
  · obtain ⟨h1, h2⟩ := hl y0 y1 rfl rfl
    rcases yTh with _ | yTh <;>
      simp only [newLevels, updateLevels, invC, invLevels, Option.map_none, Option.map_some, Option.some.injEq, Levels.mk.injEq, and_true, true_and,
        inv_eq, h1, h2] <;>
      (and_intros <;> ring)

/-! ### Clock -/

/-- The edges of a waveform are the same upside down: no sample is at the threshold exactly, and the waveform does not start between the thresholds of
rising and falling edges (unless it stays there). -/
def Clean (l : Levels ℚ) (w : Wave) : Prop :=
  w.1.length = w.2.length ∧ 0 < w.2.length ∧ (∀ v ∈ w.2, v ≠ l.half) ∧
    (FirstOut w.2 l.rising l.falling 0 ∨ ∀ k, ¬ FirstOut w.2 l.rising l.falling k)

/-- The clock is the same upside down: given edges, the fallback clock or the edges of clean waveforms. -/
def SameClock (given : Option (List (List (Option ℚ)))) (clocks : Option (List Wave)) (wfs : List Wave) (l : Levels ℚ) : Prop :=
  given ≠ none ∨ (clocks = none ∧ l.lowSnr = true) ∨ (l.falling ≤ l.rising ∧ ∀ w ∈ clocks.getD wfs, Clean l w)

theorem sortNan_comm (a b : List (Option ℚ)) : sortNan (b ++ a) = sortNan (a ++ b) := by
  obtain ⟨p1, o1⟩ := Verif.Props.Pam2Clock.sort_spec (b ++ a)
  obtain ⟨p2, o2⟩ := Verif.Props.Pam2Clock.sort_spec (a ++ b)
  refine List.Perm.eq_of_pairwise ?_ o1 o2 (p1.trans (List.perm_append_comm.trans p2.symm))
  rintro (_ | x) (_ | y) _ _ h1 h2
  · rfl
  · exact absurd h1 (by simp [Verif.Props.Pam2Clock.Before])
  · exact absurd h2 (by simp [Verif.Props.Pam2Clock.Before])
  · exact congrArg some (le_antisymm (by simpa [Verif.Props.Pam2Clock.Before] using h1) (by simpa [Verif.Props.Pam2Clock.Before] using h2))

theorem selected_inv (σ : ℚ) (l : Levels ℚ) (h : l.falling ≤ l.rising) (p : Polarity) (w : Wave) (hw : Clean l w) :
    selectedEdges (invW σ w) (invLevels σ l) (other p) = selectedEdges w l p := by
  obtain ⟨h1, h2, h3, h4⟩ := hw
  obtain ⟨R, F, R', F', e, e', hx⟩ := C92_edges_partial σ w.1 w.2 l.rising l.half l.falling h1 h2 h h3
  have hRF : R' = F ∧ F' = R := by
    rcases h4 with h | h
    · exact hx.outside h
    · obtain ⟨rfl, rfl, rfl, rfl⟩ := hx.never h
      exact ⟨rfl, rfl⟩
  obtain ⟨rfl, rfl⟩ := hRF
  unfold selectedEdges invW invLevels
  simp only
  rw [Edges.edgesNp_eq_edges_aux _ _ _ _ _ (by simpa using h1), Edges.edgesNp_eq_edges_aux _ _ _ _ _ h1, e, e']
  simp only [bind, Except.bind, pure, Except.pure]
  congr 1
  cases p
  · rfl
  · rfl
  · exact sortNan_comm _ _

theorem mapM_congr' {α β : Type} (f g : α → Except PyErr β) (l : List α) (h : ∀ a ∈ l, f a = g a) : l.mapM f = l.mapM g := by
  induction l with
  | nil => rfl
  | cons a l ih => rw [List.mapM_cons, List.mapM_cons, h a (by simp), ih fun b hb => h b (List.mem_cons_of_mem _ hb)]

theorem mapM_conj {α β γ ε : Type} (k : α → β) (g : γ → ε) (f : α → Except PyErr γ) (f' : β → Except PyErr ε) (l : List α)
    (h : ∀ a ∈ l, f' (k a) = (f a).map g) : (l.map k).mapM f' = (l.mapM f).map fun r => r.map g := by
  induction l with
  | nil => rfl
  | cons a l ih =>
    rw [List.map_cons, List.mapM_cons, List.mapM_cons, h a (by simp), ih fun b hb => h b (List.mem_cons_of_mem _ hb)]
    cases f a <;> cases l.mapM f <;> rfl

theorem clock_inv (σ : ℚ) (given : Option (List (List (Option ℚ)))) (clocks : Option (List Wave)) (wfs : List Wave) (l : Levels ℚ) (p : Polarity)
    (cdr : List (Option ℚ) → Except PyErr (List (Option ℚ))) (period : Option ℚ) (h : SameClock given clocks wfs l) :
    clockEdges given (clocks.map fun c => c.map (invW σ)) (wfs.map (invW σ)) (invLevels σ l) (other p) cdr period =
      clockEdges given clocks wfs l p cdr period := by
  unfold clockEdges
  cases given with
  | some e => rfl
  | none =>
    rcases h with h | ⟨rfl, h⟩ | ⟨ho, h⟩
    · exact absurd rfl h
    · simp only [Option.map_none, show (invLevels σ l).lowSnr = l.lowSnr from rfl, h, if_true, List.mapM_map]
      rfl
    · cases clocks with
      | some c =>
        simp only [Option.map_some, List.mapM_map]
        exact mapM_congr' _ _ c fun w hw => selected_inv σ l ho p w (h w hw)
      | none =>
        simp only [Option.map_none, show (invLevels σ l).lowSnr = l.lowSnr from rfl, List.mapM_map]
        split
        · rfl
        · apply mapM_congr'
          intro w hw
          simp only [Function.comp]
          rw [selected_inv σ l ho p w (h w hw)]

/-! ### Everything -/

/-- The image upside down: levels, edge times, mask and bathtub curve.  Not the counts: the pixels are rounded towards the same side either way. -/
structure InvertedPicture (σ : ℚ) (p p' : Picture) : Prop where
  levels : p'.levels = invLevels σ p.levels
  horizontal : p'.h = p.h.map invH
  mask : (p.mask = none ∧ p'.mask = none) ∨ ∃ r r', p.mask = some r ∧ p'.mask = some r' ∧ FlippedMask r r'
  bathtub : p'.bathtub = p.bathtub

/-- The results upside down. -/
structure Inverted (σ : ℚ) (a a' : Analysis) : Prop where
  period : a'.tSym = a.tSym
  symbols : a'.wfs = a.wfs.map (invWf σ)
  vertical : a'.v = a.v.map fun v => v.map (invV σ)
  picture : (a.picture = none ∧ a'.picture = none) ∨ ∃ p p', a.picture = some p ∧ a'.picture = some p' ∧ InvertedPicture σ p p'

theorem dirs_ok (ws : List Wf) (v : List VOut) (T δ half lw cw : ℚ) (h : ws.mapM (fun w => sampleVertical w.y w.centers δ T half lw cw) = .ok v) :
    ∀ x ∈ v, ∀ d ∈ x.edgeDir, d = -1 ∨ d = 0 ∨ d = 1 := by
  induction ws generalizing v with
  | nil => obtain rfl := Except.ok.inj h; intro x hx; cases hx
  | cons w ws ih =>
    rw [List.mapM_cons] at h
    cases h1 : sampleVertical w.y w.centers δ T half lw cw with
    | error e => rw [h1] at h; cases h
    | ok o =>
      cases h2 : ws.mapM (fun w => sampleVertical w.y w.centers δ T half lw cw) with
      | error e => rw [h1, h2] at h; cases h
      | ok os =>
        rw [h1, h2] at h
        obtain rfl := Except.ok.inj h
        intro x hx
        rcases List.mem_cons.1 hx with rfl | hx
        · exact (C44_total w.y w.centers T δ half lw cw x h1).2.2
        · exact ih os h2 x hx

section
variable (σ : ℚ) (s : Settings) (T δ : ℚ) (hT : 0 < T) (hδ : 0 < δ) (hd : drawGrid (invS σ s) = .ok ())
include hT hδ hd

omit hT hδ hd in
theorem inside_inv (ws : List Wf) (h : AllInside T δ ws) : AllInside T δ (ws.map (invWf σ)) := by
  intro w hw
  obtain ⟨x, hx, rfl⟩ := List.mem_map.1 hw
  intro c hc
  simpa [invWf] using h x hx c hc

theorem picture_inv (ws : List Wf) (hin : AllInside T δ ws) (l : Levels ℚ) (hu : l.ua ≠ 0) (h : List HOut) (m m' : Option MaskAll)
    (hm : (m = none ∧ m' = none) ∨ ∃ r r', m = some r ∧ m' = some r' ∧ FlippedMask r r') (b : List (ℚ × ℚ)) (p : Picture)
    (hp : picture s T δ ws l h m b = .ok p) :
    ∃ p', picture (invS σ s) T δ (ws.map (invWf σ)) (invLevels σ l) (h.map invH) m' b = .ok p' ∧ InvertedPicture σ p p' := by
  obtain ⟨g, hg, -⟩ := C59_counts (ws.map (invWf σ)) T δ (invLevels σ l).zero (invLevels σ l).ua hT hδ hu s.resolution s.pointCloud
    (inside_inv σ T δ ws hin)
  unfold picture at hp ⊢
  cases k1 : stackAll ws δ T l.zero l.ua s.resolution s.pointCloud with
  | error e => rw [k1] at hp; cases hp
  | ok g0 =>
    cases k2 : drawGrid s with
    | error e => rw [k1, k2] at hp; cases hp
    | ok x =>
      rw [k1, k2] at hp
      obtain rfl := Except.ok.inj hp
      rw [show (invS σ s).resolution = s.resolution from rfl, show (invS σ s).pointCloud = s.pointCloud from rfl, hg, hd]
      exact ⟨_, rfl, rfl, rfl, hm, rfl⟩

theorem finish_inv (mask mask' : Option MaskFn) (hm : MirrorMask σ mask mask') (ws : List Wf) (hin : AllInside T δ ws) (v : List VOut)
    (hv : ∀ x ∈ v, ∀ d ∈ x.edgeDir, d = -1 ∨ d = 0 ∨ d = 1) (l : Option (Levels ℚ)) (p : Option Picture) (hp : finish s mask T δ ws v l = .ok p) :
    ∃ p', finish (invS σ s) mask' T δ (ws.map (invWf σ)) (v.map (invV σ)) (l.map (invLevels σ)) = .ok p' ∧
      ((p = none ∧ p' = none) ∨ ∃ q q', p = some q ∧ p' = some q' ∧ InvertedPicture σ q q') := by
  have hfil : (l.map (invLevels σ)).filter (fun l => decide (l.ua ≠ 0)) = (l.filter fun l => decide (l.ua ≠ 0)).map (invLevels σ) := by
    cases l with
    | none => rfl
    | some l =>
      by_cases h : l.ua = 0
      · simp [Option.filter, invLevels, h]
      · simp [Option.filter, invLevels, h]
  have hsome : mask'.isSome = mask.isSome := by
    rcases mask with _ | f <;> rcases mask' with _ | f' <;> simp_all [MirrorMask]
  unfold finish at hp ⊢
  rw [hfil, hsome]
  cases hl : l.filter fun l => decide (l.ua ≠ 0) with
  | none =>
    rw [hl] at hp
    simp only [Option.map_none] at hp ⊢
    split at hp
    · cases hp
    · rename_i hms
      rw [if_neg hms]
      unfold noPicture at hp ⊢
      rw [hd]
      refine ⟨none, rfl, .inl ⟨?_, rfl⟩⟩
      cases hk : drawGrid s with
      | error e => rw [hk] at hp; cases hp
      | ok x => rw [hk] at hp; exact (Except.ok.inj hp).symm
  | some l =>
    have hu : l.ua ≠ 0 := by simpa using (Option.filter_eq_some_iff.1 hl).2
    rw [hl] at hp
    simp only [Option.map_some] at hp ⊢
    have hcross : mean ((v.map (invV σ)).flatMap (·.cross)) = (mean (v.flatMap (·.cross))).map (inv σ) := by
      have := mean_aff (α := -1) (β := σ) (v.flatMap (·.cross))
      rw [List.map_flatMap] at this
      rw [List.flatMap_map]
      exact this
    rw [hcross]
    have hH : ((ws.map (invWf σ)).zip (v.map (invV σ))).mapM (fun p =>
        sampleHorizontal p.1.y p.1.centers p.2.edgeDir δ T (invLevels σ l).zero (invLevels σ l).ua ((mean (v.flatMap (·.cross))).map (inv σ))
          (invS σ s).timeHeight (invS σ s).edgeLower (invS σ s).edgeUpper) = ((ws.zip v).mapM fun p =>
        sampleHorizontal p.1.y p.1.centers p.2.edgeDir δ T l.zero l.ua (mean (v.flatMap (·.cross))) s.timeHeight s.edgeLower s.edgeUpper).map
          fun r => r.map invH := by
      rw [List.zip_map]
      refine mapM_conj _ invH _ _ (ws.zip v) fun x hx => ?_
      have hs := sampleHorizontal_inv σ x.1.y x.1.centers x.2.edgeDir (hv x.2 (List.of_mem_zip hx).2) δ T l.zero l.ua hu (mean (v.flatMap (·.cross)))
        s.timeHeight s.edgeLower s.edgeUpper
      simp only [Prod.map, invWf, invV, invLevels, invS]
      exact hs
    rw [hH]
    cases kh : (ws.zip v).mapM fun p =>
        sampleHorizontal p.1.y p.1.centers p.2.edgeDir δ T l.zero l.ua (mean (v.flatMap (·.cross))) s.timeHeight s.edgeLower s.edgeUpper with
    | error e => rw [kh] at hp; cases hp
    | ok h =>
      rw [kh] at hp
      simp only [Except.map, bind, Except.bind] at hp ⊢
      cases km : runMask mask T δ ws l with
      | error e => rw [km] at hp; cases hp
      | ok m =>
        rw [km] at hp
        have hmm : ∃ m', runMask mask' T δ (ws.map (invWf σ)) (invLevels σ l) = .ok m' ∧
            ((m = none ∧ m' = none) ∨ ∃ r r', m = some r ∧ m' = some r' ∧ FlippedMask r r') := by
          rcases mask with _ | f <;> rcases mask' with _ | f' <;> simp only [MirrorMask] at hm
          · exact ⟨none, rfl, .inl ⟨(Except.ok.inj km).symm, rfl⟩⟩
          · unfold runMask at km ⊢
            simp only at km ⊢
            cases kf : f δ T l.zero l.ua ws with
            | error e => rw [kf] at km; cases km
            | ok r =>
              rw [kf] at km
              obtain ⟨r', e, hf⟩ := hm δ T l.zero l.ua ws r hu kf
              refine ⟨some r', ?_, .inr ⟨r, r', (Except.ok.inj km).symm, rfl, hf⟩⟩
              have e' : f' δ T (invLevels σ l).zero (invLevels σ l).ua (ws.map (invWf σ)) = .ok r' := e
              rw [e']
              rfl
        obtain ⟨m', km', hmm⟩ := hmm
        rw [km']
        simp only at hp ⊢
        have kb' : bathtubCurve (ws.map (invWf σ)) δ T (invLevels σ l).zero (invLevels σ l).ua (1 / 2) = bathtubCurve ws δ T l.zero l.ua (1 / 2) :=
          bathtub_inv σ ws δ T l.zero l.ua hu
        rw [kb']
        cases kb : bathtubCurve ws δ T l.zero l.ua (1 / 2) with
        | error e => rw [kb] at hp; cases hp
        | ok b =>
          rw [kb] at hp
          simp only at hp ⊢
          cases kp : picture s T δ ws l h m b with
          | error e => rw [kp] at hp; cases hp
          | ok q =>
            rw [kp] at hp
            obtain ⟨q', kq, hq⟩ := picture_inv σ s T δ hT hδ hd ws hin l hu h m m' hmm b q kp
            rw [kq]
            exact ⟨_, rfl, .inr ⟨q, q', (Except.ok.inj hp).symm, rfl, hq⟩⟩

theorem measure_inv (mask mask' : Option MaskFn) (hm : MirrorMask σ mask mask') (ws : List Wf) (hin : AllInside T δ ws) (m : Level ℚ × Level ℚ)
    (hc : s.level.y0 = none ↔ s.level.y1 = none) (hcl : s.skip = false → AllClear T δ (levels s.level m).half s.levelWidth ws) (a : Analysis)
    (ha : Pipeline.measure s mask T δ ws (levels s.level m) = .ok a) :
    ∃ a', Pipeline.measure (invS σ s) mask' T δ (ws.map (invWf σ)) (invLevels σ (levels s.level m)) = .ok a' ∧ Inverted σ a a' := by
  unfold Pipeline.measure at ha ⊢
  rw [show (invS σ s).skip = s.skip from rfl]
  by_cases hs : s.skip = true
  · rw [if_pos hs] at ha ⊢
    unfold skipPicture at ha ⊢
    rw [show (invLevels σ (levels s.level m)).ua = (levels s.level m).ua from rfl]
    by_cases hu : (levels s.level m).ua = 0
    · rw [if_pos hu] at ha ⊢
      unfold noPicture at ha ⊢
      rw [hd]
      cases kd : drawGrid s with
      | error e => rw [kd] at ha; cases ha
      | ok x =>
        rw [kd] at ha
        obtain rfl := Except.ok.inj ha
        exact ⟨_, rfl, rfl, rfl, rfl, .inl ⟨rfl, rfl⟩⟩
    · rw [if_neg hu] at ha ⊢
      cases kp : picture s T δ ws (levels s.level m) [] none [] with
      | error e => rw [kp] at ha; cases ha
      | ok p =>
        rw [kp] at ha
        obtain rfl := Except.ok.inj ha
        obtain ⟨p', k1, k2⟩ := picture_inv σ s T δ hT hδ hd ws hin _ hu [] none none (.inl ⟨rfl, rfl⟩) [] p kp
        rw [List.map_nil] at k1
        rw [k1]
        exact ⟨_, rfl, rfl, rfl, rfl, .inr ⟨p, p', rfl, rfl, k2⟩⟩
  · rw [if_neg hs] at ha ⊢
    have hcl := hcl (by simpa using hs)
    have hV : (ws.map (invWf σ)).mapM (fun w => sampleVertical w.y w.centers δ T (invLevels σ (levels s.level m)).half (invS σ s).levelWidth
        (invS σ s).crossWidth) = (ws.mapM fun w => sampleVertical w.y w.centers δ T (levels s.level m).half s.levelWidth s.crossWidth).map
          fun r => r.map (invV σ) := by
      refine mapM_conj (invWf σ) (invV σ) _ _ ws fun w hw => ?_
      exact sampleVertical_inv σ w T δ (levels s.level m).half s.levelWidth s.crossWidth hT hδ (hin w hw) (by
        intro x hx
        obtain rfl : x = w := by simpa using hx
        exact hcl x hw)
    rw [hV]
    cases kv : ws.mapM fun w => sampleVertical w.y w.centers δ T (levels s.level m).half s.levelWidth s.crossWidth with
    | error e => rw [kv] at ha; cases ha
    | ok v =>
      rw [kv] at ha
      simp only [Except.map, bind, Except.bind] at ha ⊢
      have hm0 : mean ((v.map (invV σ)).flatMap (·.y0)) = (mean (v.flatMap (·.y1))).map (inv σ) := by
        have := mean_aff (α := -1) (β := σ) (v.flatMap (·.y1))
        rw [List.map_flatMap] at this
        rw [List.flatMap_map]
        exact this
      have hm1 : mean ((v.map (invV σ)).flatMap (·.y1)) = (mean (v.flatMap (·.y0))).map (inv σ) := by
        have := mean_aff (α := -1) (β := σ) (v.flatMap (·.y0))
        rw [List.map_flatMap] at this
        rw [List.flatMap_map]
        exact this
      have hlev := newLevels_inv σ s.level hc (mean (v.flatMap (·.y0))) (mean (v.flatMap (·.y1))) (levels s.level m) (by
        intro a b h0 h1
        unfold levels
        simp [h0, h1])
      rw [hm0, hm1, show (invS σ s).level = invC σ s.level from rfl, hlev]
      cases kf : finish s mask T δ ws v (newLevels s.level (mean (v.flatMap (·.y0))) (mean (v.flatMap (·.y1))) (levels s.level m)) with
      | error e => rw [kf] at ha; cases ha
      | ok p =>
        rw [kf] at ha
        obtain rfl := Except.ok.inj ha
        have hdirs := dirs_ok ws v T δ (levels s.level m).half s.levelWidth s.crossWidth kv
        obtain ⟨p', k1, k2⟩ := finish_inv σ s T δ hT hδ hd mask mask' hm ws hin v hdirs _ p kf
        rw [k1]
        exact ⟨_, rfl, rfl, rfl, rfl, k2⟩

end

/-- **C92.** If a signal can be analysed, it can be analysed upside down, with levels, settings and mask turned likewise: the symbols are the same, ones
are zeros, rising edges are falling edges, the horizontal samples and the hits of the mask are upside down, the symbols that hit the mask, its margin and
the bathtub curve are the same.  Every decision is clear, and the edges of the clock are the same upside down.
Missing: ties and clocks that are not clean (`C92_tie_fails`, `C92_touch_fails`, `C92_edges_partial`), levels of which only one is given. -/
theorem C92_inverted_partial (σ : ℚ) (s : Settings) (m : Level ℚ × Level ℚ) (given : Option (List (List (Option ℚ)))) (clocks : Option (List Wave))
    (cdr : List (Option ℚ) → Except PyErr (List (Option ℚ))) (mask mask' : Option MaskFn) (hm : MirrorMask σ mask mask') (wfs : List Wave) (δ : ℚ)
    (hδ : 0 < δ) (htd : tDelta wfs = .ok δ) (hc : s.level.y0 = none ↔ s.level.y1 = none) (hr : 0 < s.resolution)
    (hl : Drawable s.resolution (1 - s.edgeUpper)) (hu : Drawable s.resolution (1 - s.edgeLower))
    (hck : SameClock given clocks wfs (levels s.level m)) (a : Analysis) (hT : 0 < a.tSym)
    (hcl : s.skip = false → AllClear a.tSym δ (levels s.level m).half s.levelWidth a.wfs)
    (ha : calculateAll s m given clocks cdr mask wfs = .ok a) :
    ∃ a', calculateAll (invS σ s) (invM σ m) given (clocks.map fun c => c.map (invW σ)) cdr mask' (wfs.map (invW σ)) = .ok a' ∧ Inverted σ a a' := by
  have htd' : tDelta (wfs.map (invW σ)) = .ok δ := by rw [← htd]; cases wfs <;> rfl
  have hd : drawGrid (invS σ s) = .ok () := drawGrid_ok (invS σ s) hr hl hu
  unfold calculateAll at ha ⊢
  rw [htd] at ha
  rw [htd', show (invS σ s).level = invC σ s.level from rfl, levels_inv]
  simp only [bind, Except.bind] at ha ⊢
  rw [show (invS σ s).polarity = other s.polarity from rfl, show (invS σ s).period = s.period from rfl, clock_inv σ given clocks wfs _ _ cdr _ hck]
  cases k1 : clockEdges given clocks wfs (levels s.level m) s.polarity cdr s.period with
  | error e => rw [k1] at ha; cases ha
  | ok e =>
    rw [k1] at ha
    simp only at ha ⊢
    cases k2 : Pipeline.finite e with
    | error e => rw [k2] at ha; cases ha
    | ok e =>
      rw [k2] at ha
      simp only at ha ⊢
      cases k3 : symbolPeriod e with
      | error e => rw [k3] at ha; cases ha
      | ok t =>
        rw [k3] at ha
        cases t with
        | none => cases ha
        | some T =>
          simp only at ha ⊢
          have hS : ((wfs.map (invW σ)).zip e).mapM (fun p => sampled T δ p.1 p.2) =
              ((wfs.zip e).mapM fun p => sampled T δ p.1 p.2).map fun r => r.map (invWf σ) := by
            rw [List.zip_map_left]
            apply mapM_map'
            intro p
            unfold sampled invW invWf
            simp only [Prod.map, List.length_map, id]
            cases pyGet p.1.1 0 <;> rfl
          rw [hS]
          cases k4 : (wfs.zip e).mapM fun p => sampled T δ p.1 p.2 with
          | error e => rw [k4] at ha; cases ha
          | ok ws =>
            rw [k4] at ha
            simp only [Except.map] at ha ⊢
            have hTw : a.tSym = T ∧ a.wfs = ws := by
              unfold Pipeline.measure at ha
              split at ha
              · cases k : skipPicture s T δ ws (levels s.level m) with
                | error e => rw [k] at ha; cases ha
                | ok p => rw [k] at ha; obtain rfl := Except.ok.inj ha; exact ⟨rfl, rfl⟩
              · cases k : ws.mapM fun w => sampleVertical w.y w.centers δ T (levels s.level m).half s.levelWidth s.crossWidth with
                | error e => rw [k] at ha; cases ha
                | ok v =>
                  rw [k] at ha
                  simp only [bind, Except.bind] at ha
                  cases k' : finish s mask T δ ws v (newLevels s.level (mean (v.flatMap (·.y0))) (mean (v.flatMap (·.y1))) (levels s.level m)) with
                  | error e => rw [k'] at ha; cases ha
                  | ok p => rw [k'] at ha; obtain rfl := Except.ok.inj ha; exact ⟨rfl, rfl⟩
            obtain ⟨rfl, rfl⟩ := hTw
            exact measure_inv σ s a.tSym δ hT hδ hd mask mask' hm a.wfs (sampled_inside a.tSym δ hδ _ _ k4) m hc hcl a ha

/-! ### Bits -/

theorem dirs_all (s : Settings) (m : Level ℚ × Level ℚ) (given : Option (List (List (Option ℚ)))) (clocks : Option (List Wave))
    (cdr : List (Option ℚ) → Except PyErr (List (Option ℚ))) (mask : Option MaskFn) (wfs : List Wave) (a : Analysis)
    (ha : calculateAll s m given clocks cdr mask wfs = .ok a) (v : List VOut) (hv : a.v = some v) :
    ∀ x ∈ v, ∀ d ∈ x.edgeDir, d = -1 ∨ d = 0 ∨ d = 1 := by
  unfold calculateAll at ha
  simp only [bind, Except.bind] at ha
  cases k0 : tDelta wfs with
  | error e => rw [k0] at ha; cases ha
  | ok δ =>
  rw [k0] at ha
  simp only at ha
  cases k1 : clockEdges given clocks wfs (levels s.level m) s.polarity cdr s.period with
  | error e => rw [k1] at ha; cases ha
  | ok e =>
  rw [k1] at ha
  simp only at ha
  cases k2 : Pipeline.finite e with
  | error e => rw [k2] at ha; cases ha
  | ok e =>
  rw [k2] at ha
  simp only at ha
  cases k3 : symbolPeriod e with
  | error e => rw [k3] at ha; cases ha
  | ok t =>
  rw [k3] at ha
  cases t with
  | none => cases ha
  | some T =>
  simp only at ha
  cases k4 : (wfs.zip e).mapM fun p => sampled T δ p.1 p.2 with
  | error e => rw [k4] at ha; cases ha
  | ok ws =>
  rw [k4] at ha
  simp only at ha
  unfold Pipeline.measure at ha
  split at ha
  · cases k : skipPicture s T δ ws (levels s.level m) with
    | error e => rw [k] at ha; cases ha
    | ok p => rw [k] at ha; obtain rfl := Except.ok.inj ha; cases hv
  · cases k : ws.mapM fun w => sampleVertical w.y w.centers δ T (levels s.level m).half s.levelWidth s.crossWidth with
    | error e => rw [k] at ha; cases ha
    | ok v' =>
      rw [k] at ha
      simp only [bind, Except.bind] at ha
      cases k' : finish s mask T δ ws v' (newLevels s.level (mean (v'.flatMap (·.y0))) (mean (v'.flatMap (·.y1))) (levels s.level m)) with
      | error e => rw [k'] at ha; cases ha
      | ok p =>
        rw [k'] at ha
        obtain rfl := Except.ok.inj ha
        obtain rfl := Option.some.inj hv
        exact dirs_ok ws v' T δ _ _ _ k

/-- **C92.** The bits of the signal upside down are the other ones, if the transitions do not matter (NRZ-L) and each waveform has an edge; they are the same
ones if only transitions matter (NRZ-M). -/
theorem C92_bits_partial (σ : ℚ) (s : Settings) (m : Level ℚ × Level ℚ) (given : Option (List (List (Option ℚ)))) (clocks : Option (List Wave))
    (cdr : List (Option ℚ) → Except PyErr (List (Option ℚ))) (mask : Option MaskFn) (wfs : List Wave) (a a' : Analysis)
    (ha : calculateAll s m given clocks cdr mask wfs = .ok a) (h : Inverted σ a a') :
    bits a' true = bits a true ∧
    ((∀ v, a.v = some v → ∀ x ∈ v, ∃ d ∈ x.edgeDir, d ≠ 0) → bits a' false = (bits a false).map fun b => b.map fun l => l.map (1 - ·)) := by
  unfold bits bitStream
  rw [h.vertical]
  cases hv : a.v with
  | none => exact ⟨rfl, fun _ => rfl⟩
  | some v =>
    have hdir := dirs_all s m given clocks cdr mask wfs a ha v hv
    simp only [Bool.not_true, Bool.false_eq_true, if_false, if_true, Option.map_some, List.map_map, Except.map]
    constructor
    · congr 1
      apply List.map_congr_left
      intro x _
      exact bitsM_inv x.edgeDir
    · intro hne
      congr 1
      apply List.map_congr_left
      intro x hx
      exact bitsL_inv x.edgeDir (hdir x hx) (hne v rfl x hx)

/-! ### Where it fails, and examples -/

/-- A waveform with three levels: 0, 1/2 and 1. -/
def exTie : Wave := ((List.range 40).map fun i : ℕ => (i : ℚ), (List.range 40).map fun i : ℕ => ((i / 4 % 3 : ℕ) : ℚ) / 2)

/-- The bits found with the given edges. -/
def bitsOf (s : Settings) (edges : List ℚ) (w : Wave) (nrzm : Bool) : Option (List (List ℤ)) :=
  (calculateAll s (⟨0, 0⟩, ⟨0, 0⟩) (asGiven [edges]) none (fun _ => .ok []) none [w] >>= fun a => bits a nrzm).toOption

/-- A symbol whose average is exactly half way counts as low; upside down it is half way too, and counts as low again. -/
theorem C92_tie_fails : bitsOf (exSettings (4 / 5)) [8, 12, 16, 20, 24] exTie false = some [[1, 0, 0, 1, 0]] ∧
    bitsOf (invS 1 (exSettings (4 / 5))) [8, 12, 16, 20, 24] (invW 1 exTie) false = some [[0, 1, 0, 0, 1]] := by
  constructor <;> decide +kernel

/-- Without an edge all bits are 0, whether the signal is high or low. -/
theorem C92_quiet_fails : bitsOf (exSettings (4 / 5)) [8, 12, 16] (exWave.1, exWave.2.map fun _ => 1) false = some [[0, 0, 0]] ∧
    bitsOf (invS 1 (exSettings (4 / 5))) [8, 12, 16] (invW 1 (exWave.1, exWave.2.map fun _ => 1)) false = some [[0, 0, 0]] := by
  constructor <;> decide +kernel

/-- The bits of a square wave, and of the same upside down. -/
example : bitsOf (exSettings (4 / 5)) [8, 12, 16] exWave false = some [[0, 1, 0]] ∧
    bitsOf (invS 1 (exSettings (4 / 5))) [8, 12, 16] (invW 1 exWave) false = some [[1, 0, 1]] := by
  constructor <;> decide +kernel

instance (T δ half lw : ℚ) (ws : List Wf) : Decidable (AllClear T δ half lw ws) := by
  unfold AllClear Clear
  infer_instance

/-- What the hypotheses of C92 need to know of an analysis. -/
def facts (a : Analysis) : ℚ × Bool × Option (List (List ℤ)) :=
  (a.tSym, decide (AllClear a.tSym 1 (1 / 2) (1 / 5) a.wfs), a.v.map fun v => v.map (·.edgeDir))

theorem ex_facts (r : Except PyErr Analysis) (h : calculateAll (exSettings (4 / 5)) (⟨0, 0⟩, ⟨0, 0⟩) (asGiven [[6, 10, 14]]) none (fun _ => .ok [])
    none [exWave] = r) : r.toOption.map facts = some (4, true, some [[1, -1, 1]]) := by
  subst h
  decide +kernel

/-- The hypotheses of C92 are met: a square wave, with its bits. -/
example : ∃ a a', calculateAll (exSettings (4 / 5)) (⟨0, 0⟩, ⟨0, 0⟩) (asGiven [[6, 10, 14]]) none (fun _ => .ok [])
      none [exWave] = .ok a ∧
    calculateAll (invS 1 (exSettings (4 / 5))) (⟨1, 0⟩, ⟨1, 0⟩) (asGiven [[6, 10, 14]]) none (fun _ => .ok [])
      none [invW 1 exWave] = .ok a' ∧ Inverted 1 a a' ∧
    bits a' false = (bits a false).map fun b => b.map fun l => l.map (1 - ·) := by
  cases h : calculateAll (exSettings (4 / 5)) (⟨0, 0⟩, ⟨0, 0⟩) (asGiven [[6, 10, 14]]) none (fun _ => .ok []) none [exWave] with
  | error e => cases ex_facts _ h
  | ok a =>
  have hf := ex_facts _ h
  simp only [Except.toOption, Option.map_some, Option.some.injEq, facts, Prod.mk.injEq] at hf
  obtain ⟨hT, hw, hv⟩ := hf
  obtain ⟨a', h', hi⟩ := C92_inverted_partial 1 (exSettings (4 / 5)) (⟨0, 0⟩, ⟨0, 0⟩) (asGiven [[6, 10, 14]]) none (fun _ => .ok [])
    none none trivial [exWave] 1 (by norm_num) (by decide +kernel)
    (by decide) (by decide) (by unfold Drawable; decide +kernel) (by unfold Drawable; decide +kernel) (.inl (by simp [asGiven])) a (by rw [hT]; norm_num)
    (fun _ => by rw [show (levels (exSettings (4 / 5)).level (⟨0, 0⟩, ⟨0, 0⟩)).half = 1 / 2 by decide +kernel]; exact of_decide_eq_true hw) h
  refine ⟨a, a', rfl, ?_, hi, (C92_bits_partial 1 _ _ _ _ _ _ _ a a' h hi).2 ?_⟩
  · have e : invM 1 ((⟨0, 0⟩, ⟨0, 0⟩) : Level ℚ × Level ℚ) = (⟨1, 0⟩, ⟨1, 0⟩) := by norm_num [invM, inv, aff]
    rw [e] at h'
    exact h'
  · intro v hv' x hx
    rw [hv'] at hv
    simp only [Option.map_some, Option.some.injEq] at hv
    have : x.edgeDir ∈ v.map (·.edgeDir) := List.mem_map_of_mem hx
    rw [hv, List.mem_singleton] at this
    rw [this]
    exact ⟨1, by simp, by norm_num⟩

/-- A hexagon and a waveform which hits it. -/
example : ∃ r r', sampleHexMask exHexZero 1 4 0 1 exWfs = .ok r ∧ sampleHexMask (swapHex exHexZero) 1 4 (inv 1 (0 + 1)) 1 (exWfs.map (invWf 1)) = .ok r' ∧
    FlippedMask r r' ∧ r.count = 1 := by
  have hs : ∀ w ∈ exWfs, ∀ k ∈ w.centers, Inside 4 1 w.y.length k ∧ k.t ≤ 0 := by
    intro w hw
    simp only [exWfs, List.mem_cons, List.not_mem_nil, or_false] at hw
    rcases hw with rfl | rfl
    · exact sampled_ok 4 1 0 (by norm_num) 18 _
    · exact sampled_ok 4 1 0 (by norm_num) 18 _
  obtain ⟨r, e, h, -⟩ := C42_hexagon exHexZero exHexConv 4 1 0 1 (by norm_num) (by norm_num) (by decide +kernel) (by decide +kernel)
    (by decide +kernel) (by decide +kernel) (by decide +kernel) exWfs hs (by unfold InRange exWfs; decide +kernel)
  obtain ⟨r', e', hf⟩ := C92_hexagon 1 exHexZero 1 4 0 1 exWfs r (by norm_num) e
  exact ⟨r, r', e, e', hf, by rw [h.count]; decide +kernel⟩

end Verif.Props.InvertEye
