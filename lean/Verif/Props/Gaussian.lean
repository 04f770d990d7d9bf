import Verif.Model.Gaussian
import Mathlib.Tactic.Linarith
import Mathlib.Tactic.FieldSimp
import Mathlib.Tactic.Positivity
import Mathlib.Probability.Distributions.Gaussian.Real

/-!
C57: Gaussian evaluation.
-/

namespace Verif.Props.Gaussian

open Verif Verif.Gaussian

/-- **C57.** The density is non-negative for a non-negative amplitude, symmetric about the mean, decreasing with the
distance from the mean and so maximal there; its peak value is `A / sqrt(2 pi s^2)`. -/
theorem C57_density (c : Comp) (hs : c.stddev ≠ 0) (hA : 0 ≤ c.amplitude) :
    (∀ x, 0 ≤ density c x) ∧ (∀ d, density c (c.mean + d) = density c (c.mean - d)) ∧
    (∀ x y, |x - c.mean| ≤ |y - c.mean| → density c y ≤ density c x) ∧
    (∀ x, density c x ≤ density c c.mean) ∧
    density c c.mean = c.amplitude / Real.sqrt (2 * Real.pi * c.stddev ^ 2) := by
  have hsq : 0 < Real.sqrt (2 * Real.pi * c.stddev ^ 2) := by
    apply Real.sqrt_pos.2
    have := Real.pi_pos
    positivity
  have mono : ∀ x y, |x - c.mean| ≤ |y - c.mean| → density c y ≤ density c x := by
    intro x y h
    unfold density
    apply div_le_div_of_nonneg_right _ hsq.le
    apply mul_le_mul_of_nonneg_left _ hA
    apply Real.exp_le_exp.2
    have h2 : (x - c.mean) ^ 2 ≤ (y - c.mean) ^ 2 := sq_le_sq.2 h
    have h3 : ((x - c.mean) / c.stddev) ^ 2 ≤ ((y - c.mean) / c.stddev) ^ 2 := by
      rw [div_pow, div_pow]
      exact div_le_div_of_nonneg_right h2 (sq_nonneg _)
    linarith
  refine ⟨?_, ?_, mono, ?_, ?_⟩
  · intro x; unfold density; positivity
  · intro d
    apply le_antisymm <;> apply mono
    · rw [show c.mean + d - c.mean = d by ring, show c.mean - d - c.mean = -d by ring, abs_neg]
    · rw [show c.mean + d - c.mean = d by ring, show c.mean - d - c.mean = -d by ring, abs_neg]
  · intro x; apply mono; simp
  · unfold density; simp

/-- **C57.** Without deviation the value is an impulse at the mean. -/
theorem C57_impulse (c : Comp) (hs : c.stddev = 0) (x : ℝ) :
    f c x = if x = c.mean then (⊤ : EReal) else 0 := by unfold f; rw [if_pos hs]

/-- **C57.** With deviation `f` is the density. -/
theorem C57_f (c : Comp) (hs : c.stddev ≠ 0) (x : ℝ) : f c x = (density c x : ℝ) := by
  unfold f; rw [if_neg hs]

theorem fold_index {α : Type} [LinearOrder α] (better : α → α → Prop) [DecidableRel better] (l : List α) (s n : ℕ)
    (acc : ℕ × α) (hacc : acc.1 < n) (hn : s + l.length ≤ n) :
    ((l.zipIdx s).foldl (fun (acc : ℕ × α) p => if better p.1 acc.2 then (p.2, p.1) else acc) acc).1 < n := by
  induction l generalizing s acc with
  | nil => simpa using hacc
  | cons a l ih =>
    simp only [List.zipIdx_cons, List.foldl_cons, List.length_cons] at hn ⊢
    apply ih
    · split_ifs
      · simp only; omega
      · exact hacc
    · omega

theorem argBest_some {α : Type} [LinearOrder α] (better : α → α → Prop) [DecidableRel better] (l : List α)
    (hl : l ≠ []) : ∃ i, argBest better l = some i ∧ i < l.length := by
  cases l with
  | nil => exact absurd rfl hl
  | cons a l =>
    refine ⟨_, rfl, ?_⟩
    apply fold_index
    · simp
    · simp; omega

/-- `argmax` is the first position of the largest entry. -/
theorem argmax_spec {α : Type} [LinearOrder α] (l : List α) (i : ℕ) (h : argmax l = some i) :
    ∃ a, l[i]? = some a ∧ (∀ (j : ℕ) b, l[j]? = some b → b ≤ a) ∧ (∀ (j : ℕ) b, j < i → l[j]? = some b → b < a) := by
  cases l with
  | nil => simp [argmax, argBest] at h
  | cons a l =>
    unfold argmax argBest at h
    obtain rfl := Option.some.inj h
    -- invariant over the processed prefix
    have key : ∀ (m pre : List α) (acc : ℕ × α), pre[acc.1]? = some acc.2 →
        (∀ (j : ℕ) b, pre[j]? = some b → b ≤ acc.2) → (∀ (j : ℕ) b, j < acc.1 → pre[j]? = some b → b < acc.2) →
        let r := ((m.zipIdx pre.length).foldl (fun (acc : ℕ × α) p => if acc.2 < p.1 then (p.2, p.1) else acc) acc)
        (pre ++ m)[r.1]? = some r.2 ∧ (∀ (j : ℕ) b, (pre ++ m)[j]? = some b → b ≤ r.2) ∧
          (∀ (j : ℕ) b, j < r.1 → (pre ++ m)[j]? = some b → b < r.2) := by
      intro m
      induction m with
      | nil => intro pre acc h1 h2 h3; simpa using ⟨h1, h2, h3⟩
      | cons b m ih =>
        intro pre acc h1 h2 h3
        simp only [List.zipIdx_cons, List.foldl_cons]
        have hlt : acc.1 < pre.length := by
          by_contra hc
          rw [List.getElem?_eq_none (by omega)] at h1
          exact absurd h1 (by simp)
        have := ih (pre ++ [b]) (if acc.2 < b then (pre.length, b) else acc) ?_ ?_ ?_
        · simp only [List.length_append, List.length_singleton] at this
          rw [List.append_assoc, List.singleton_append] at this
          exact this
        · split_ifs with hb
          · simp
          · rw [List.getElem?_append_left hlt]; exact h1
        · intro j c hj
          by_cases hjl : j < pre.length
          · rw [List.getElem?_append_left hjl] at hj
            have := h2 j c hj
            split_ifs with hb
            · exact this.trans hb.le
            · exact this
          · have hjb : c = b := by
              by_cases he : j = pre.length
              · subst he; simpa using hj.symm
              · rw [List.getElem?_eq_none (by simp; omega)] at hj
                exact absurd hj (by simp)
            subst hjb
            split_ifs with hb
            · exact le_refl _
            · exact not_lt.1 hb
        · intro j c hj hc
          split_ifs at hj with hb
          · simp only at hj
            rw [List.getElem?_append_left hj] at hc
            rw [if_pos hb]
            exact (h2 j c hc).trans_lt hb
          · rw [List.getElem?_append_left (by omega)] at hc
            rw [if_neg hb]
            exact h3 j c hj hc
    have := key l [a] (0, a) (by simp) (by
      intro j b hj
      cases j with
      | zero => simp at hj; simp [hj]
      | succ j => simp at hj) (by intro j b hj; omega)
    exact ⟨_, this⟩

theorem fArr_ok (c : Comp) (x : List ℝ) (hx : x ≠ []) : ∃ y, fArr c x = .ok y := by
  unfold fArr
  split_ifs with h
  · obtain ⟨i, hi, _⟩ := argBest_some (fun a b : ℝ => a < b) (x.map fun v => |v - c.mean|) (by simpa using hx)
    have : argmin (x.map fun v => |v - c.mean|) = some i := hi
    rw [this]
    exact ⟨_, rfl⟩
  · exact ⟨_, rfl⟩

theorem mapM_exists {α β : Type} (g : α → Except PyErr β) (l : List α) (h : ∀ a ∈ l, ∃ b, g a = .ok b) :
    ∃ bs, l.mapM g = .ok bs := by
  induction l with
  | nil => exact ⟨[], rfl⟩
  | cons a l ih =>
    obtain ⟨b, hb⟩ := h a (by simp)
    obtain ⟨bs, hbs⟩ := ih (fun c hc => h c (by simp [hc]))
    refine ⟨b :: bs, ?_⟩
    rw [List.mapM_cons, hb, hbs]
    rfl

theorem compute_ok (cs : List Comp) (x : List ℝ) (hx : x ≠ []) :
    ∃ y, compute cs x = .ok y ∧ y.length = x.length := by
  obtain ⟨ys, hys⟩ := mapM_exists (fun c => fArr c x) cs (fun c _ => fArr_ok c x hx)
  unfold compute
  rw [hys]
  exact ⟨_, rfl, by simp⟩

theorem search_ok (cs : List Comp) (a b : ℝ) (hab : a ≤ b) : ∃ x, search cs a b = .ok x ∧ a ≤ x ∧ x ≤ b := by
  have hne : linspace1000 a b ≠ [] := by
    unfold linspace1000
    intro h
    have := congrArg List.length h
    simp at this
  have hlen : (linspace1000 a b).length = 1000 := by unfold linspace1000; simp
  obtain ⟨y, hy, hyl⟩ := compute_ok cs _ hne
  have hy0 : y ≠ [] := by
    intro h; rw [h, hlen] at hyl; simp at hyl
  obtain ⟨i, hi, hil⟩ := argBest_some (fun a b : EReal => b < a) y hy0
  have hi' : argmax y = some i := hi
  have hil' : i < 1000 := by rw [hyl, hlen] at hil; exact hil
  have hget : (linspace1000 a b)[i]? = some (a + (i : ℕ) * ((b - a) / 999)) := by
    unfold linspace1000
    rw [List.getElem?_map, List.getElem?_range hil']
    rfl
  refine ⟨a + (i : ℕ) * ((b - a) / 999), ?_, ?_, ?_⟩
  · unfold search
    simp only [bind, Except.bind]
    rw [hy]
    simp only [hi']
    unfold pyGet
    rw [hget]
  · have : 0 ≤ (i : ℝ) * ((b - a) / 999) := mul_nonneg (Nat.cast_nonneg i) (div_nonneg (by linarith) (by norm_num))
    linarith
  · have h1 : (i : ℝ) ≤ 999 := by exact_mod_cast (by omega : i ≤ 999)
    have h2 : 0 ≤ (b - a) / 999 := div_nonneg (by linarith) (by norm_num)
    have h3 : (i : ℝ) * ((b - a) / 999) ≤ 999 * ((b - a) / 999) := mul_le_mul_of_nonneg_right h1 h2
    have h4 : 999 * ((b - a) / 999) = b - a := by ring
    linarith

theorem foldl_min_bounds (l : List ℝ) (a : ℝ) : l.foldl min a ≤ a ∧ (∀ v ∈ l, l.foldl min a ≤ v) := by
  induction l generalizing a with
  | nil => simp
  | cons b l ih =>
    obtain ⟨h1, h2⟩ := ih (min a b)
    simp only [List.foldl_cons]
    refine ⟨h1.trans (min_le_left _ _), ?_⟩
    intro v hv
    rcases List.mem_cons.1 hv with rfl | hv
    · exact h1.trans (min_le_right _ _)
    · exact h2 v hv

theorem foldl_max_bounds (l : List ℝ) (a : ℝ) : a ≤ l.foldl max a ∧ (∀ v ∈ l, v ≤ l.foldl max a) := by
  induction l generalizing a with
  | nil => simp
  | cons b l ih =>
    obtain ⟨h1, h2⟩ := ih (max a b)
    simp only [List.foldl_cons]
    refine ⟨(le_max_left _ _).trans h1, ?_⟩
    intro v hv
    rcases List.mem_cons.1 hv with rfl | hv
    · exact (le_max_right _ _).trans h1
    · exact h2 v hv

theorem foldl_min_glb (l : List ℝ) (a lo : ℝ) (ha : lo ≤ a) (h : ∀ v ∈ l, lo ≤ v) : lo ≤ l.foldl min a := by
  induction l generalizing a with
  | nil => simpa using ha
  | cons b l ih =>
    simp only [List.foldl_cons]
    exact ih _ (le_min ha (h b (by simp))) (fun v hv => h v (by simp [hv]))

theorem foldl_max_lub (l : List ℝ) (a hi : ℝ) (ha : a ≤ hi) (h : ∀ v ∈ l, v ≤ hi) : l.foldl max a ≤ hi := by
  induction l generalizing a with
  | nil => simpa using ha
  | cons b l ih =>
    simp only [List.foldl_cons]
    exact ih _ (max_le ha (h b (by simp))) (fun v hv => h v (by simp [hv]))

/-- **C57.** A single component's centre is its mean. -/
theorem C57_center_single (c : Comp) : center [c] = .ok c.mean := rfl

/-- **C57.** No components is an error. -/
theorem C57_center_empty : center [] = .error .valueError := rfl

/-- **C57.** The centre of a mixture exists and lies within a thousandth of the spread of the means around the range of
the means. -/
theorem C57_center_range (c d : Comp) (rest : List Comp) :
    ∃ x, center (c :: d :: rest) = .ok x ∧
      ∀ lo hi, (∀ e ∈ c :: d :: rest, lo ≤ e.mean ∧ e.mean ≤ hi) →
        lo - (hi - lo) / 1000 ≤ x ∧ x ≤ hi + (hi - lo) / 1000 := by
  set m := ((d :: rest).map Comp.mean).foldl min c.mean with hm
  set M := ((d :: rest).map Comp.mean).foldl max c.mean with hM
  have hmM : m ≤ M := (foldl_min_bounds _ _).1.trans (foldl_max_bounds _ _).1
  obtain ⟨x, hx, h1, h2⟩ := search_ok (c :: d :: rest) m M hmM
  obtain ⟨z, hz, h3, h4⟩ := search_ok (c :: d :: rest) (x - (M - m) / 1000) (x + (M - m) / 1000) (by
    have : 0 ≤ (M - m) / 1000 := div_nonneg (by linarith) (by norm_num)
    linarith)
  refine ⟨z, ?_, ?_⟩
  · unfold center
    simp only [← hm, ← hM, bind, Except.bind]
    rw [hx]
    exact hz
  · intro lo hi hall
    have g1 : lo ≤ m := foldl_min_glb _ _ _ (hall c (by simp)).1 (by
      intro v hv
      obtain ⟨e, he, rfl⟩ := List.mem_map.1 hv
      exact (hall e (List.mem_cons_of_mem _ he)).1)
    have g2 : M ≤ hi := foldl_max_lub _ _ _ (hall c (by simp)).2 (by
      intro v hv
      obtain ⟨e, he, rfl⟩ := List.mem_map.1 hv
      exact (hall e (List.mem_cons_of_mem _ he)).2)
    constructor <;> linarith

/-- The mixture's value at a point: the sum of the component densities. -/
noncomputable def mix (cs : List Comp) (x : ℝ) : ℝ := (cs.map fun c => density c x).sum

theorem compute_eq (cs : List Comp) (x : List ℝ) (hs : ∀ c ∈ cs, c.stddev ≠ 0) :
    compute cs x = .ok (x.map fun v => ((mix cs v : ℝ) : EReal)) := by
  have hm : cs.mapM (fun c => fArr c x) = .ok (cs.map fun c => x.map fun v => ((density c v : ℝ) : EReal)) := by
    induction cs with
    | nil => rfl
    | cons c cs ih =>
      have hc : fArr c x = .ok (x.map fun v => ((density c v : ℝ) : EReal)) := by
        unfold fArr; rw [if_neg (hs c (by simp))]
      rw [List.mapM_cons, hc, ih (fun d hd => hs d (by simp [hd]))]
      rfl
  unfold compute
  rw [hm]
  simp only [bind, Except.bind, pure, Except.pure]
  congr 1
  apply List.ext_getElem
  · simp
  · intro k h1 h2
    have hk : k < x.length := by simpa using h2
    rw [List.getElem_map, List.getElem_map, List.getElem_range, List.map_map]
    unfold mix
    have : ∀ l : List Comp, ((l.map ((fun y : List EReal => y.getD k 0) ∘ fun c => x.map fun v => ((density c v : ℝ) : EReal))).sum : EReal)
        = (((l.map fun c => density c x[k]).sum : ℝ) : EReal) := by
      intro l
      induction l with
      | nil => simp
      | cons c l ih =>
        simp only [List.map_cons, List.sum_cons, EReal.coe_add]
        rw [ih]
        congr 1
        simp [hk]
    exact this cs

/-- the point found is a grid point with the largest value on the grid -/
theorem search_max (cs : List Comp) (hs : ∀ c ∈ cs, c.stddev ≠ 0) (a b x : ℝ) (h : search cs a b = .ok x) :
    (∃ k : ℕ, k < 1000 ∧ x = a + k * ((b - a) / 999)) ∧
    ∀ k : ℕ, k < 1000 → mix cs (a + k * ((b - a) / 999)) ≤ mix cs x := by
  unfold search at h
  simp only [bind, Except.bind] at h
  rw [compute_eq cs _ hs] at h
  simp only at h
  cases hm : argmax ((linspace1000 a b).map fun v => ((mix cs v : ℝ) : EReal)) with
  | none => rw [hm] at h; exact absurd h (by simp)
  | some i =>
    rw [hm] at h
    simp only at h
    obtain ⟨w, hw, hmax, -⟩ := argmax_spec _ _ hm
    have hgr : ∀ k : ℕ, k < 1000 → (linspace1000 a b)[k]? = some (a + k * ((b - a) / 999)) := by
      intro k hk
      unfold linspace1000
      rw [List.getElem?_map, List.getElem?_range hk]
      rfl
    have hi : i < 1000 := by
      by_contra hc
      rw [List.getElem?_eq_none (by unfold linspace1000; rw [List.length_map, List.length_map, List.length_range]; omega)] at hw
      exact absurd hw (by simp)
    unfold pyGet at h
    rw [hgr i hi] at h
    simp only at h
    obtain rfl := Except.ok.inj h
    refine ⟨⟨i, hi, rfl⟩, ?_⟩
    intro k hk
    rw [List.getElem?_map, hgr i hi] at hw
    have hw := Option.some.inj hw
    have := hmax k _ (by rw [List.getElem?_map, hgr k hk]; rfl)
    rw [← hw] at this
    exact EReal.coe_le_coe_iff.1 this

/-- **C57.** For a proper mixture the centre is found by two grid searches: `x0` has the largest value among 1000
equally spaced points of the range `[m, M]` of the means, and the centre has the largest value among 1000 points of
`x0 ± (M - m) / 1000`. -/
theorem C57_center_grid_max (c d : Comp) (rest : List Comp) (hs : ∀ e ∈ c :: d :: rest, e.stddev ≠ 0) :
    ∃ x x0 m M, center (c :: d :: rest) = .ok x ∧
      (∀ e ∈ c :: d :: rest, m ≤ e.mean ∧ e.mean ≤ M) ∧
      (∃ e ∈ c :: d :: rest, e.mean = m) ∧ (∃ e ∈ c :: d :: rest, e.mean = M) ∧
      (∃ k : ℕ, k < 1000 ∧ x0 = m + k * ((M - m) / 999)) ∧
      (∀ k : ℕ, k < 1000 → mix (c :: d :: rest) (m + k * ((M - m) / 999)) ≤ mix (c :: d :: rest) x0) ∧
      |x - x0| ≤ (M - m) / 1000 ∧
      (∀ k : ℕ, k < 1000 → mix (c :: d :: rest) (x0 - (M - m) / 1000 + k * (2 * ((M - m) / 1000) / 999)) ≤
        mix (c :: d :: rest) x) := by
  set m := ((d :: rest).map Comp.mean).foldl min c.mean with hm
  set M := ((d :: rest).map Comp.mean).foldl max c.mean with hM
  have hmM : m ≤ M := (foldl_min_bounds _ _).1.trans (foldl_max_bounds _ _).1
  obtain ⟨x, hx, h1, h2⟩ := search_ok (c :: d :: rest) m M hmM
  obtain ⟨z, hz, h3, h4⟩ := search_ok (c :: d :: rest) (x - (M - m) / 1000) (x + (M - m) / 1000) (by
    have : 0 ≤ (M - m) / 1000 := div_nonneg (by linarith) (by norm_num)
    linarith)
  have b1 := foldl_min_bounds ((d :: rest).map Comp.mean) c.mean
  have b2 := foldl_max_bounds ((d :: rest).map Comp.mean) c.mean
  refine ⟨z, x, m, M, ?_, ?_, ?_, ?_, (search_max _ hs _ _ _ hx).1, (search_max _ hs _ _ _ hx).2, ?_, ?_⟩
  · unfold center
    simp only [← hm, ← hM, bind, Except.bind]
    rw [hx]
    exact hz
  · intro e he
    rcases List.mem_cons.1 he with rfl | he
    · exact ⟨b1.1, b2.1⟩
    · exact ⟨b1.2 _ (List.mem_map.2 ⟨e, he, rfl⟩), b2.2 _ (List.mem_map.2 ⟨e, he, rfl⟩)⟩
  · have : ∀ (l : List Comp) (a : ℝ), (l.map Comp.mean).foldl min a = a ∨ ∃ e ∈ l, e.mean = (l.map Comp.mean).foldl min a := by
      intro l
      induction l with
      | nil => intro a; left; rfl
      | cons e l ih =>
        intro a
        simp only [List.map_cons, List.foldl_cons]
        rcases ih (min a e.mean) with h | ⟨e', he', h⟩
        · rcases min_choice a e.mean with h' | h'
          · left; rw [h, h']
          · right; exact ⟨e, by simp, by rw [h, h']⟩
        · right; exact ⟨e', by simp [he'], h⟩
    rcases this (d :: rest) c.mean with h | ⟨e, he, h⟩
    · exact ⟨c, by simp, h.symm⟩
    · exact ⟨e, List.mem_cons_of_mem _ he, h⟩
  · have : ∀ (l : List Comp) (a : ℝ), (l.map Comp.mean).foldl max a = a ∨ ∃ e ∈ l, e.mean = (l.map Comp.mean).foldl max a := by
      intro l
      induction l with
      | nil => intro a; left; rfl
      | cons e l ih =>
        intro a
        simp only [List.map_cons, List.foldl_cons]
        rcases ih (max a e.mean) with h | ⟨e', he', h⟩
        · rcases max_choice a e.mean with h' | h'
          · left; rw [h, h']
          · right; exact ⟨e, by simp, by rw [h, h']⟩
        · right; exact ⟨e', by simp [he'], h⟩
    rcases this (d :: rest) c.mean with h | ⟨e, he, h⟩
    · exact ⟨c, by simp, h.symm⟩
    · exact ⟨e, List.mem_cons_of_mem _ he, h⟩
  · rw [abs_le]; constructor <;> linarith
  · intro k hk
    have := (search_max _ hs _ _ _ hz).2 k hk
    have e : x + (M - m) / 1000 - (x - (M - m) / 1000) = 2 * ((M - m) / 1000) := by ring
    rw [e] at this
    exact this

/-- **C57.** `sample_error_inv` and `sample_error` are inverse to each other for a non-empty sample, given that
`erfcinv` inverts `erfc`. -/
theorem C57_sample_error_inv (erfc erfcinv : ℝ → ℝ) (n : ℕ) (hn : 0 < n) (t p : ℝ)
    (h1 : ∀ z, erfcinv (erfc z) = z) (h2 : 0 < p → p < 2 → erfc (erfcinv p) = p) :
    sampleErrorInv erfcinv n (sampleError erfc n t) = t ∧
    (0 < p → p < 2 → sampleError erfc n (sampleErrorInv erfcinv n p) = p) := by
  have hs : Real.sqrt n ≠ 0 := by
    have : (0 : ℝ) < n := by exact_mod_cast hn
    exact (Real.sqrt_pos.2 this).ne'
  unfold sampleErrorInv sampleError
  constructor
  · rw [h1, mul_div_cancel_right₀ _ hs]
  · intro a b
    rw [div_mul_cancel₀ _ hs, h2 a b]

/-- The hypotheses are met by an explicit strictly decreasing function. -/
example : ∃ e i : ℝ → ℝ, (∀ z, i (e z) = z) ∧ ∀ p, 0 < p → p < 2 → e (i p) = p :=
  ⟨fun z => 1 - z, fun p => 1 - p, by intro z; ring, by intro p _ _; ring⟩

example : (⟨1, 0, 2⟩ : Comp).stddev ≠ 0 ∧ 0 ≤ (⟨1, 0, 2⟩ : Comp).amplitude := by norm_num

/-- **C57.** The density is the amplitude times the normal probability density with the given mean and standard
deviation (Mathlib's), so its integral over the real line is the amplitude. -/
theorem C57_normal (c : Comp) (hs : c.stddev ≠ 0) :
    (∀ x, density c x
      = c.amplitude * ProbabilityTheory.gaussianPDFReal c.mean (c.stddev ^ 2).toNNReal x) ∧
    ∫ x, density c x = c.amplitude := by
  have h1 : ∀ x, density c x
      = c.amplitude * ProbabilityTheory.gaussianPDFReal c.mean (c.stddev ^ 2).toNNReal x := by
    intro x
    unfold density ProbabilityTheory.gaussianPDFReal
    rw [Real.coe_toNNReal _ (sq_nonneg c.stddev)]
    have e : -((x - c.mean) / c.stddev) ^ 2 / 2 = -(x - c.mean) ^ 2 / (2 * c.stddev ^ 2) := by
      field_simp
    rw [e]
    ring
  refine ⟨h1, ?_⟩
  have hv : (c.stddev ^ 2).toNNReal ≠ 0 := by
    rw [Ne, Real.toNNReal_eq_zero, not_le]
    positivity
  simp_rw [h1]
  rw [MeasureTheory.integral_const_mul, ProbabilityTheory.integral_gaussianPDFReal_eq_one _ hv, mul_one]

/-- `argmin` is the first position of the smallest entry. -/
theorem argmin_spec {α : Type} [LinearOrder α] (l : List α) (i : ℕ) (h : argmin l = some i) :
    ∃ a, l[i]? = some a ∧ (∀ (j : ℕ) b, l[j]? = some b → a ≤ b) ∧ (∀ (j : ℕ) b, j < i → l[j]? = some b → a < b) := by
  have h' : argmax (α := αᵒᵈ) l = some i := by
    rw [← h]
    unfold argmax argmin argBest
    cases l with
    | nil => rfl
    | cons a l => congr
  exact argmax_spec (α := αᵒᵈ) l i h'

/-- **C57.** On an array a proper component is evaluated point by point. -/
theorem C57_array (c : Comp) (hs : c.stddev ≠ 0) (x : List ℝ) :
    fArr c x = .ok (x.map fun v => ((density c v : ℝ) : EReal)) := by
  unfold fArr; rw [if_neg hs]

/-- **C57.** On a non-empty array a component without deviation is an impulse: infinite exactly at the first of the
positions closest to the mean, zero elsewhere.  On an empty array it is an error. -/
theorem C57_array_impulse (c : Comp) (hs : c.stddev = 0) (x : List ℝ) :
    (x = [] → fArr c x = .error .valueError) ∧
    (x ≠ [] → ∃ i l, ∃ hi : i < x.length, fArr c x = .ok l ∧ l.length = x.length ∧ l[i]? = some ⊤ ∧
      (∀ k, k < x.length → k ≠ i → l[k]? = some 0) ∧
      (∀ k (hk : k < x.length), |x[i] - c.mean| ≤ |x[k] - c.mean|) ∧
      (∀ k (hk : k < i), |x[i] - c.mean| < |x[k]'(hk.trans hi) - c.mean|)) := by
  constructor
  · rintro rfl
    unfold fArr
    rw [if_pos hs]
    rfl
  · intro hx
    have hne : argmin (x.map fun v => |v - c.mean|) ≠ none := by
      cases x with
      | nil => exact absurd rfl hx
      | cons a x => simp [argmin, argBest]
    cases hm : argmin (x.map fun v => |v - c.mean|) with
    | none => exact absurd hm hne
    | some i =>
      obtain ⟨a, h1, h2, h3⟩ := argmin_spec _ _ hm
      have hi : i < x.length := by
        by_contra hc
        rw [List.getElem?_eq_none (by simpa using hc)] at h1
        exact absurd h1 (by simp)
      have ha : a = |x[i] - c.mean| := by
        rw [List.getElem?_map, List.getElem?_eq_getElem hi] at h1
        exact (Option.some.inj h1).symm
      refine ⟨i, _, hi, by unfold fArr; rw [if_pos hs, hm], by simp, ?_, ?_, ?_, ?_⟩
      · rw [List.getElem?_map, List.getElem?_range hi]; simp
      · intro k hk hki
        rw [List.getElem?_map, List.getElem?_range hk]; simp [hki]
      · intro k hk
        rw [← ha]
        exact h2 k _ (by rw [List.getElem?_map, List.getElem?_eq_getElem hk]; rfl)
      · intro k hk
        rw [← ha]
        exact h3 k _ hk (by rw [List.getElem?_map, List.getElem?_eq_getElem (hk.trans hi)]; rfl)

/-- A proper component and an impulse. -/
example : (⟨2, 1, 3⟩ : Comp).stddev ≠ 0 ∧ (⟨2, 1, 0⟩ : Comp).stddev = 0 := by norm_num

end Verif.Props.Gaussian
