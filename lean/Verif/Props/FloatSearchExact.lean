import Verif.Props.FloatRecover

/-!
In exact arithmetic the functions of `Verif.Model.FloatSearch` are those of `Verif.Model.Cdr`.
-/

namespace Verif.Props.FloatSearchExact

open Verif Verif.Eye Verif.Cdr Verif.Float Verif.Props.Float Verif.Props.FloatCdr Verif.Props.FloatEye Verif.Props.FloatFit Verif.Props.CdrSearch Verif.Props.FloatSearch
  Verif.Props.FloatStats

theorem fl_exact (x : ℚ) : exact.fl x = x := by simp [exact]

theorem prod_exact (l : List (ℚ × ℚ)) : prodF exact l = (l.map fun p => p.1 * p.2).sum := by
  have key : ∀ (l : List (ℚ × ℚ)) (a : ℚ), l.foldl (fun s q => exact.fl (s + exact.fl (q.1 * q.2))) a = a + (l.map fun p => p.1 * p.2).sum := by
    intro l
    induction l with
    | nil => simp
    | cons p l ih =>
      intro a
      rw [List.foldl_cons, ih, List.map_cons, List.sum_cons]
      simp only [fl_exact]
      ring
  cases l with
  | nil => rfl
  | cons p l =>
    change l.foldl (fun s q => exact.fl (s + exact.fl (q.1 * q.2))) (exact.fl (p.1 * p.2)) = _
    rw [key]
    simp [fl_exact]

theorem cov_exact (xs ys : List ℚ) : covF exact avg (prodF exact) xs ys =
    ((xs.zip ys).map fun p => (p.1 - xs.sum / xs.length) * (p.2 - ys.sum / ys.length)).sum / xs.length := by
  unfold covF
  rw [prod_exact, List.zip_map, List.map_map]
  simp only [fl_exact, avg]
  rw [mul_one_div]
  congr 1

theorem slope_exact (xs ys : List ℚ) : slopeF exact avg (prodF exact) xs ys = slope xs ys := by
  have hz : ∀ f : ℚ × ℚ → ℚ, (xs.zip xs).map f = xs.map fun x => f (x, x) := by
    intro f
    induction xs with
    | nil => rfl
    | cons a l ih => simp only [List.zip_cons_cons, List.map_cons, ih]
  unfold slopeF slope
  rw [cov_exact, cov_exact, hz]
  simp only [fl_exact]

theorem diffs_exact (l : List ℚ) : diffsF exact l = diffs l := by
  induction l with
  | nil => rfl
  | cons a l ih =>
    cases l with
    | nil => rfl
    | cons b l =>
      change (b - a) :: diffsF exact (b :: l) = (b - a) :: diffs (b :: l)
      rw [ih]

theorem mod_exact (x : ℚ) {t : ℚ} (ht : 0 < t) : pyModF exact x t = pyMod x t := by
  have := (pyModF_near exact x t ht).1
  have h1 : |pyModF exact x t - pyMod x t| ≤ 0 := by simpa [exact] using this
  linarith [abs_nonpos_iff.1 h1]

theorem floorDiv_exact (x : ℚ) {t : ℚ} (ht : 0 < t) : floorDivF exact x t = floorDiv x t := by
  have hfl : ∀ k : ℤ, (if exact.fl ((k : ℚ) - (⌊(k : ℚ)⌋ : ℤ)) > 1 / 2 then exact.fl ((⌊(k : ℚ)⌋ : ℚ) + 1) else ((⌊(k : ℚ)⌋ : ℤ) : ℚ)) = k := by
    intro k
    rw [Int.floor_intCast, fl_exact, sub_self, if_neg (by norm_num)]
  unfold floorDivF divmodF floorDiv fmod Equip.pyTrunc
  by_cases hx : 0 ≤ x / t
  · simp only [if_pos hx]
    have h2 := mul_le_mul_of_nonneg_right (Int.floor_le (x / t)) ht.le
    rw [div_mul_cancel₀ x ht.ne'] at h2
    have hc : ¬ (x - (⌊x / t⌋ : ℚ) * t ≠ 0 ∧ (t < 0 ↔ ¬ x - (⌊x / t⌋ : ℚ) * t < 0)) := by
      rintro ⟨-, h⟩
      have : ¬ x - (⌊x / t⌋ : ℚ) * t < 0 := by linarith
      exact absurd (h.2 this) (by linarith)
    simp only [if_neg hc, sub_sub_cancel]
    have : exact.fl (exact.fl ((⌊x / t⌋ : ℚ) * t) / t) = ⌊x / t⌋ := by
      rw [fl_exact, fl_exact, mul_div_cancel_right₀ _ ht.ne']
    rw [this]
    exact hfl _
  · simp only [if_neg hx]
    have h2 := mul_le_mul_of_nonneg_right (Int.le_ceil (x / t)) ht.le
    rw [div_mul_cancel₀ x ht.ne'] at h2
    have h3 : exact.fl (exact.fl (x - (x - (⌈x / t⌉ : ℚ) * t)) / t) = ⌈x / t⌉ := by
      rw [fl_exact, fl_exact, sub_sub_cancel, mul_div_cancel_right₀ _ ht.ne']
    simp only [h3]
    by_cases h0 : x - (⌈x / t⌉ : ℚ) * t = 0
    · have hc : ¬ (x - (⌈x / t⌉ : ℚ) * t ≠ 0 ∧ (t < 0 ↔ ¬ x - (⌈x / t⌉ : ℚ) * t < 0)) := by
        rintro ⟨h, -⟩
        exact h h0
      simp only [if_neg hc]
      have h4 : x / t = (⌈x / t⌉ : ℚ) := by
        rw [div_eq_iff ht.ne']
        linarith
      have h5 : ⌊x / t⌋ = ⌈x / t⌉ := by
        conv_lhs => rw [h4]
        exact Int.floor_intCast _
      rw [h5]
      exact hfl _
    · have hneg : x - (⌈x / t⌉ : ℚ) * t < 0 := lt_of_le_of_ne (by linarith) h0
      have hc : x - (⌈x / t⌉ : ℚ) * t ≠ 0 ∧ (t < 0 ↔ ¬ x - (⌈x / t⌉ : ℚ) * t < 0) :=
        ⟨h0, iff_of_false (by linarith) (fun h => h hneg)⟩
      simp only [if_pos hc]
      have h5 : ⌊x / t⌋ = ⌈x / t⌉ - 1 := by
        rw [Int.floor_eq_iff]
        push_cast
        constructor
        · linarith [Int.ceil_lt_add_one (x / t)]
        · rw [sub_add_cancel, div_lt_iff₀ ht]
          linarith
      have h6 : exact.fl ((⌈x / t⌉ : ℚ) - 1) = ((⌈x / t⌉ - 1 : ℤ) : ℚ) := by
        rw [fl_exact]
        push_cast
        ring
      rw [h6, h5]
      exact hfl _

theorem score_exact (edges : List ℚ) {t : ℚ} (ht : 0 < t) : tieScoreF exact avg (prodF exact) edges t = tieScore edges t := by
  unfold tieScoreF tieScore disjointsF disjoints
  simp only [fl_exact, List.map_map, diffs_exact, slope_exact]
  have e1 : ((fun x => pyModF exact x t) ∘ fun e => e + t / 2) = fun e => pyMod (e + t / 2) t := by
    funext e
    exact mod_exact _ ht
  have e2 : ((fun x => floorDivF exact x t) ∘ fun e => e + t / 2) = fun e => (floorDiv (e + t / 2) t : ℚ) := by
    funext e
    exact floorDiv_exact _ ht
  rw [e1, e2]

theorem scores_exact (sort : List Scored → List Scored) (compiled : Bool) (edges span : List ℚ) (h : ∀ t ∈ span, 0 < t) :
    tieScoresF exact avg (prodF exact) sort compiled edges span = if compiled then tieScoresC sort edges span else .ok (tieScores sort edges span) := by
  have e1 : span.map (fun t => (t, tieScoreF exact avg (prodF exact) edges t)) = span.map fun t => (t, tieScore edges t) :=
    List.map_congr_left fun t ht => by rw [score_exact edges (h t ht)]
  unfold tieScoresF
  simp only [e1]
  cases compiled with
  | false =>
    simp only [Bool.false_eq_true, false_and, if_false]
    rfl
  | true =>
    simp only [true_and, if_true]
    unfold tieScoresC
    have key : ∀ l : List ℚ, l.mapM (tieScoreC edges) =
        if (l.map fun t => (t, tieScore edges t)).any (fun s => s.2.isNone) then .error .zeroDivision else .ok (l.map fun t => (t, tieScore edges t)) := by
      intro l
      induction l with
      | nil => rfl
      | cons a l ih =>
        rw [List.mapM_cons, ih]
        unfold tieScoreC
        cases ha : tieScore edges a with
        | none => simp [bind, Except.bind, ha]
        | some x =>
          simp only [bind, Except.bind, List.map_cons, List.any_cons, ha, Option.isNone_some, Bool.false_or]
          by_cases hc : ((l.map fun t => (t, tieScore edges t)).any fun s => s.2.isNone) = true
          · simp only [if_pos hc]
          · simp only [if_neg hc]
            rfl
    rw [key]
    split <;> rfl

theorem span_exact (compiled : Bool) (lo hi : ℚ) {n : ℕ} (hn : 1 ≤ n) : spanF exact compiled lo hi n = Stats.linspace lo hi (n - 1) := by
  unfold spanF
  split
  · unfold Stats.linspace
    rw [show n - 1 + 1 = n by omega]
    simp only [fl_exact]
  · exact linspaceF_exact lo hi (n - 1)

theorem span_pos {lo hi : ℚ} (h0 : 0 < lo) (h1 : lo ≤ hi) (n : ℕ) : ∀ t ∈ Stats.linspace lo hi n, 0 < t := fun t ht => by
  have := (mem_linspace lo hi n h1 t ht).1
  linarith

theorem step_exact (compiled : Bool) (lo hi : ℚ) (f : Finer) (hf : 2 ≤ f.points) (hs : compiled = false → f.steps = f.points - 1) :
    stepF exact compiled lo hi f = (hi - lo) / f.steps := by
  unfold stepF
  cases compiled with
  | true => rfl
  | false =>
    rw [if_neg (by simp), linspaceF_exact, hs rfl]
    obtain ⟨k, hk⟩ : ∃ k, f.points - 1 = k + 1 := ⟨f.points - 2, by omega⟩
    rw [hk]
    unfold Stats.linspace
    rw [fl_exact, List.getD_eq_getElem?_getD, List.getD_eq_getElem?_getD, List.getElem?_map, List.getElem?_map, List.getElem?_range (by omega), List.getElem?_range (by omega)]
    simp

/-- The next bounds, and that they are bounds. -/
theorem next_exact (sort : List Scored → List Scored) (hsort : Reorders sort) (compiled : Bool) (edges : List ℚ) {lo hi : ℚ} (h0 : 0 < lo) (h1 : lo ≤ hi)
    (fs : List Finer) (hfs : ∀ f ∈ fs, 2 ≤ f.points ∧ (compiled = false → f.steps = f.points - 1)) :
    nextBoundsF exact avg (prodF exact) sort compiled edges lo hi fs =
      (if compiled then nextBoundsC sort edges lo hi fs else nextBounds sort edges lo hi fs) ∧
    ∀ a b, nextBoundsF exact avg (prodF exact) sort compiled edges lo hi fs = .ok (a, b) → lo ≤ a ∧ a ≤ b := by
  induction fs with
  | nil =>
    constructor
    · cases compiled <;> rfl
    · intro a b h
      cases h
  | cons f fs ih =>
    obtain ⟨f1, f2⟩ := hfs f List.mem_cons_self
    obtain ⟨i1, i2⟩ := ih fun f hf => hfs f (List.mem_cons_of_mem _ hf)
    have hpos := span_pos h0 h1 (f.points - 1)
    unfold nextBoundsF nextBoundsC nextBounds
    rw [span_exact compiled lo hi (by omega), scores_exact sort compiled _ _ hpos, step_exact compiled lo hi f f1 f2]
    -- the bounds
    have hb : ∀ scores : List Scored, (∀ s ∈ scores, s.1 ∈ Stats.linspace lo hi (f.points - 1)) → ∀ x l,
        (scores.filter fun s => scoreLt s.2 1).map Prod.fst = x :: l → ∀ a b,
        (do return (max lo ((← Stats.minimum (x :: l)) - (hi - lo) / f.steps), min hi ((← Stats.maximum (x :: l)) + (hi - lo) / f.steps)) :
          Except PyErr (ℚ × ℚ)) = .ok (a, b) → lo ≤ a ∧ a ≤ b := by
      intro scores hsc x l hl a b hab
      have hm : ∀ y ∈ x :: l, lo ≤ y ∧ y ≤ hi := by
        intro y hy
        rw [← hl] at hy
        obtain ⟨s, hs', rfl⟩ := List.mem_map.1 hy
        exact mem_linspace _ _ _ h1 _ (hsc s (List.mem_filter.1 hs').1)
      have hstep : 0 ≤ (hi - lo) / (f.steps : ℚ) := div_nonneg (by linarith) (Nat.cast_nonneg _)
      obtain ⟨m1, m2⟩ := fold_min l x
      obtain ⟨M1, M2⟩ := fold_max l x
      have b1 := hm _ m1
      have b2 := hm _ M1
      have b3 := m2 _ M1
      simp only [Stats.minimum, Stats.maximum, bind, Except.bind, pure, Except.pure] at hab
      cases hab
      refine ⟨le_max_left _ _, ?_⟩
      apply max_le
      · exact le_min h1 (by linarith)
      · exact le_min (by linarith) (by linarith)
    cases compiled with
    | false =>
      simp only [Bool.false_eq_true, if_false, bind, Except.bind] at i1 i2 ⊢
      have hmem : ∀ s ∈ tieScores sort (edges.take f.edges) (Stats.linspace lo hi (f.points - 1)), s.1 ∈ Stats.linspace lo hi (f.points - 1) :=
        fun s hs => (scores_mem sort hsort _ _ s hs).1
      generalize tieScores sort (edges.take f.edges) (Stats.linspace lo hi (f.points - 1)) = scores at *
      have hb' := hb scores hmem
      generalize (scores.filter fun s => scoreLt s.2 1).map Prod.fst = lower at *
      cases lower with
      | nil => exact ⟨i1, i2⟩
      | cons x l => exact ⟨rfl, hb' x l rfl⟩
    | true =>
      simp only [if_true, bind, Except.bind] at i1 i2 ⊢
      have hmem : ∀ scores, tieScoresC sort (edges.take f.edges) (Stats.linspace lo hi (f.points - 1)) = .ok scores →
          ∀ s ∈ scores, s.1 ∈ Stats.linspace lo hi (f.points - 1) := by
        intro scores hsc s hs
        have e1 := scores_exact sort true (edges.take f.edges) _ hpos
        rw [if_pos rfl, hsc] at e1
        unfold tieScoresF at e1
        simp only at e1
        split at e1
        · cases e1
        · cases e1
          have := (hsort _).mem_iff.1 hs
          obtain ⟨t, ht, rfl⟩ := List.mem_map.1 this
          exact ht
      generalize tieScoresC sort (edges.take f.edges) (Stats.linspace lo hi (f.points - 1)) = r at *
      cases r with
      | error e =>
        refine ⟨rfl, ?_⟩
        intro a b h
        cases h
      | ok scores =>
        have hb' := hb scores (hmem scores rfl)
        simp only
        generalize (scores.filter fun s => scoreLt s.2 1).map Prod.fst = lower at *
        cases lower with
        | nil => exact ⟨i1, i2⟩
        | cons x l => exact ⟨rfl, hb' x l rfl⟩

theorem search_exact (sort : List Scored → List Scored) (hsort : Reorders sort) (compiled : Bool) (edges : List ℚ) (tol : ℚ) (left : ℕ) :
    ∀ lo hi, 0 < lo → lo ≤ hi → searchF exact avg (prodF exact) sort compiled edges tol left lo hi =
      if compiled then searchC sort edges tol left lo hi else search sort finerFb edges tol left lo hi := by
  induction left with
  | zero =>
    intro lo hi h0 h1
    unfold searchF searchC search
    have hp := firstPoints_pos
    simp only [fl_exact]
    cases pyGet edges 0 with
    | error e => cases compiled <;> rfl
    | ok first =>
      simp only [bind, Except.bind]
      rw [span_exact compiled lo hi (by have := hp (edges.map fun e => e - first).length; omega), scores_exact sort compiled _ _ (span_pos h0 h1 _)]
      cases compiled with
      | false => rfl
      | true => rfl
  | succ left ih =>
    intro lo hi h0 h1
    unfold searchF searchC search
    have hp := firstPoints_pos
    simp only [fl_exact]
    cases pyGet edges 0 with
    | error e => cases compiled <;> rfl
    | ok first =>
      simp only [bind, Except.bind]
      rw [span_exact compiled lo hi (by have := hp (edges.map fun e => e - first).length; omega), scores_exact sort compiled _ _ (span_pos h0 h1 _)]
      cases compiled with
      | false =>
        simp only [Bool.false_eq_true, if_false] at ih ⊢
        obtain ⟨n1, n2⟩ := next_exact sort hsort false (edges.map fun e => e - first) h0 h1 finerFb (by decide)
        simp only [Bool.false_eq_true, if_false] at n1
        generalize tieScores sort (edges.map fun e => e - first) _ = scores
        cases scores with
        | nil => rfl
        | cons best rest =>
          simp only
          rw [n1] at n2 ⊢
          split
          · rfl
          · generalize nextBounds sort (edges.map fun e => e - first) lo hi finerFb = r at *
            cases r with
            | error e => rfl
            | ok p =>
              obtain ⟨a, b⟩ := p
              obtain ⟨q1, q2⟩ := n2 a b rfl
              exact ih a b (by linarith) q2
      | true =>
        simp only [if_true] at ih ⊢
        obtain ⟨n1, n2⟩ := next_exact sort hsort true (edges.map fun e => e - first) h0 h1 finerC (by decide)
        simp only [if_true] at n1
        generalize tieScoresC sort (edges.map fun e => e - first) _ = r
        cases r with
        | error e => rfl
        | ok scores =>
          cases scores with
          | nil => rfl
          | cons best rest =>
            simp only
            rw [n1] at n2 ⊢
            split
            · rfl
            · generalize nextBoundsC sort (edges.map fun e => e - first) lo hi finerC = r at *
              cases r with
              | error e => rfl
              | ok p =>
                obtain ⟨a, b⟩ := p
                obtain ⟨q1, q2⟩ := n2 a b rfl
                exact ih a b (by linarith) q2

/-- Bits as rationals. -/
def asRat (s : List (ℤ × ℚ)) : List (ℚ × ℚ) := s.map fun p => ((p.1 : ℚ), p.2)

theorem fix_exact (t : ℚ) (s : List (ℤ × ℚ)) (d : ℚ × ℕ) : fixStepF exact t (asRat s) d = asRat (fixStep t s d) := by
  unfold fixStepF fixStep asRat
  rw [List.zipIdx_map, List.map_map, List.map_map]
  apply List.map_congr_left
  intro p _
  simp only [Function.comp, Prod.map, fl_exact, id]
  split
  · simp
  · split <;> simp [sub_eq_add_neg]

theorem unwrap_exact (edges : List ℚ) (first : ℚ) {t : ℚ} (ht : 0 < t) : unwrapF exact edges first t = asRat (unwrap edges first t) := by
  unfold unwrapF unwrap
  simp only [fl_exact, List.map_map, diffs_exact]
  have e1 : ((fun x => (floorDivF exact x t, pyModF exact x t - t / 2)) ∘ fun e => e - first + t / 2) =
      (fun p : ℤ × ℚ => ((p.1 : ℚ), p.2)) ∘ fun e => (floorDiv (e - first + t / 2) t, pyMod (e - first + t / 2) t - t / 2) := by
    funext e
    simp only [Function.comp, floorDiv_exact _ ht, mod_exact _ ht]
  have e2 : (Prod.snd ∘ (fun x => (floorDivF exact x t, pyModF exact x t - t / 2)) ∘ fun e => e - first + t / 2) =
      Prod.snd ∘ fun e => (floorDiv (e - first + t / 2) t, pyMod (e - first + t / 2) t - t / 2) := by
    rw [e1]
    rfl
  rw [e2, e1]
  have e3 : ∀ (l : List (ℚ × ℕ)) (s : List (ℤ × ℚ)), l.foldl (fixStepF exact t) (asRat s) = asRat (l.foldl (fixStep t) s) := by
    intro l
    induction l with
    | nil => intro s; rfl
    | cons a l ih =>
      intro s
      rw [List.foldl_cons, List.foldl_cons, fix_exact, ih]
  rw [← e3]
  unfold asRat
  rw [List.map_map]

theorem unwrapC_exact (first t : ℚ) (es : List ℚ) : ∀ (prev : ℚ) (bo : ℤ) (tb : ℚ),
    unwrapCF exact first t es prev bo tb = asRat (unwrapC first t es prev bo tb) := by
  induction es with
  | nil => intros; rfl
  | cons e es ih =>
    intro prev bo tb
    unfold unwrapCF unwrapC
    simp only [fl_exact]
    unfold floorDiv
    by_cases h1 : e - first - (⌊(e - first + t / 2) / t⌋ : ℚ) * t - prev < -(t / 2)
    · simp only [if_pos h1]
      rw [show (bo : ℚ) + -1 = ((bo - 1 : ℤ) : ℚ) by push_cast; ring, ih]
      unfold asRat
      rw [List.map_cons]
      push_cast
      rfl
    · simp only [if_neg h1]
      by_cases h2 : t / 2 < e - first - (⌊(e - first + t / 2) / t⌋ : ℚ) * t - prev
      · simp only [if_pos h2]
        rw [show (bo : ℚ) + 1 = ((bo + 1 : ℤ) : ℚ) by push_cast; ring, ih, ← sub_eq_add_neg]
        unfold asRat
        rw [List.map_cons]
        push_cast
        rfl
      · simp only [if_neg h2]
        rw [ih]
        unfold asRat
        rw [List.map_cons]
        push_cast
        rfl

/-- **C107.** In exact arithmetic the search and the fit in floats are those of C50 and C38: C107 is about the same functions. -/
theorem C107_exact (sort : List Scored → List Scored) (hsort : Reorders sort) : (∀ n, IsProd exact (n - 1) n (prodF exact)) ∧
    (∀ edges tol left lo hi, 0 < lo → lo ≤ hi → searchF exact avg (prodF exact) sort false edges tol left lo hi = search sort finerFb edges tol left lo hi) ∧
    (∀ edges tol left lo hi, 0 < lo → lo ≤ hi → searchF exact avg (prodF exact) sort true edges tol left lo hi = searchC sort edges tol left lo hi) ∧
    (∀ edges t, 0 < t → detrendF exact avg (prodF exact) false edges t = detrendTies edges t) ∧
    ∀ edges t, edges ≠ [] → detrendF exact avg (prodF exact) true edges t = .ok (detrendTiesC edges t) := by
  refine ⟨prodF_isProd exact, ?_, ?_, ?_, ?_⟩
  · intro edges tol left lo hi h0 h1
    rw [search_exact sort hsort false edges tol left lo hi h0 h1]
    rfl
  · intro edges tol left lo hi h0 h1
    rw [search_exact sort hsort true edges tol left lo hi h0 h1]
    rfl
  · intro edges t ht
    unfold detrendF detrendTies
    cases pyGet edges 0 with
    | error e => rfl
    | ok first =>
      simp only [bind, Except.bind, Bool.false_eq_true, if_false, unwrap_exact edges first ht, slope_exact, fl_exact]
      unfold asRat
      rw [List.map_map, List.map_map]
      rfl
  · intro edges t hne
    obtain ⟨first, rest, rfl⟩ := List.exists_cons_of_ne_nil hne
    unfold detrendF detrendTiesC
    have hu := unwrapC_exact first t rest 0 0 0
    simp only [Int.cast_zero] at hu
    simp only [pyGet, List.getElem?_cons_zero, bind, Except.bind, if_true, List.tail_cons, hu, slope_exact, fl_exact]
    unfold asRat
    rw [List.map_cons, List.map_map, List.map_cons, List.map_map, List.map_cons, List.map_cons]
    simp only [Int.cast_zero]
    rfl

end Verif.Props.FloatSearchExact
