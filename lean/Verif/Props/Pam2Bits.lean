import Verif.Props.Pam2Vertical

/-!
C46: the bit stream.
-/

namespace Verif.Props.Pam2Bits

open Verif Verif.Lines Verif.Eye Verif.Pam2 Verif.Props.EyeWindow Verif.Props.EyeMask Verif.Props.Pam2Vertical

/-! ### Specification -/

/-- A logic level as a bit. -/
def bit (b : Bool) : ℤ := if b then 1 else 0

/-- The direction between two logic levels. -/
def dir : Bool → Bool → ℤ
  | false, true => 1
  | true, false => -1
  | _, _ => 0

/-! ### Lists of levels -/

theorem bitsFrom_eq {α : Type} (p q : α → Bool) (a : α) (l : List α) (s : Bool) (hs : p a = s) (h : (a :: l).IsChain fun x y => q x = p y) :
    bitsFrom (bit s) ((a :: l).map fun c => dir (p c) (q c)) = (a :: l).map fun c => bit (q c) := by
  induction l generalizing a s with
  | nil =>
    subst hs
    cases hp : p a <;> cases hq : q a <;> simp [bitsFrom, dir, bit, hp, hq]
  | cons b l ih =>
    rw [List.isChain_cons_cons] at h
    have h2 := ih b (q a) h.1.symm h.2
    subst hs
    rw [List.map_cons, bitsFrom]
    have e : (if dir (p a) (q a) = 1 then 1 else if dir (p a) (q a) = -1 then 0 else bit (p a)) = bit (q a) := by
      cases p a <;> cases q a <;> simp [dir, bit]
    simp only [e]
    rw [h2]
    rfl

theorem bitsFrom_const {α : Type} (f : α → ℤ) (l : List α) (s : ℤ) (h : ∀ a ∈ l, f a = 0) : bitsFrom s (l.map f) = l.map fun _ => s := by
  induction l with
  | nil => rfl
  | cons a l ih =>
    rw [List.map_cons, bitsFrom, h a (by simp)]
    simp only [List.map_cons]
    rw [if_neg (by norm_num), if_neg (by norm_num), ih (fun b hb => h b (List.mem_cons_of_mem _ hb))]

/-- The first edge tells the level before it. -/
theorem first_edge {α : Type} (p q : α → Bool) (a : α) (l : List α) (h : (a :: l).IsChain fun x y => q x = p y)
    (he : ∃ c ∈ a :: l, p c ≠ q c) :
    ((((a :: l).map fun c => dir (p c) (q c)).filter (· ≠ 0)).length = 0 ∨
      (((a :: l).map fun c => dir (p c) (q c)).filter (· ≠ 0)).head? = some 1) ↔ p a = false := by
  induction l generalizing a with
  | nil =>
    obtain ⟨c, hc, hne⟩ := he
    simp only [List.mem_singleton] at hc
    subst hc
    cases hp : p c <;> cases hq : q c <;> simp [dir, hp, hq] at hne ⊢
  | cons b l ih =>
    rw [List.isChain_cons_cons] at h
    by_cases hpq : p a = q a
    · have he' : ∃ c ∈ b :: l, p c ≠ q c := by
        obtain ⟨c, hc, hne⟩ := he
        rcases List.mem_cons.1 hc with rfl | hc
        · exact absurd hpq hne
        · exact ⟨c, hc, hne⟩
      have h2 := ih b h.2 he'
      have e : dir (p a) (q a) = 0 := by rw [hpq]; cases q a <;> rfl
      rw [List.map_cons, List.filter_cons, if_neg (by simp [e]), h2, hpq, h.1]
    · rw [List.map_cons, List.filter_cons]
      cases hp : p a <;> cases hq : q a <;> simp [dir, hp, hq] at hpq ⊢

theorem bitsL_eq {α : Type} (p q : α → Bool) (l : List α) (h : l.IsChain fun x y => q x = p y)
    (he : (∃ c ∈ l, p c ≠ q c) ∨ ∀ c ∈ l, q c = false) : bitsL (l.map fun c => dir (p c) (q c)) = l.map fun c => bit (q c) := by
  cases l with
  | nil => rfl
  | cons a l =>
    unfold bitsL
    simp only
    by_cases hx : ∃ c ∈ a :: l, p c ≠ q c
    · have hf := first_edge p q a l h hx
      by_cases hp : p a = false
      · rw [if_pos (hf.2 hp)]
        exact bitsFrom_eq p q a l false hp h
      · rw [if_neg (fun hc => hp (hf.1 hc))]
        exact bitsFrom_eq p q a l true (by simpa using hp) h
    · have hq : ∀ c ∈ a :: l, q c = false := he.resolve_left hx
      push Not at hx
      have hz : ∀ c ∈ a :: l, dir (p c) (q c) = 0 := by
        intro c hc
        rw [hx c hc]
        cases q c <;> rfl
      have hn : ((a :: l).map fun c => dir (p c) (q c)).filter (· ≠ 0) = [] := by
        rw [List.filter_eq_nil_iff]
        intro d hd
        obtain ⟨c, hc, rfl⟩ := List.mem_map.1 hd
        simp [hz c hc]
      rw [hn, if_pos (Or.inl List.length_nil), bitsFrom_const _ _ _ hz]
      apply List.map_congr_left
      intro c hc
      rw [hq c hc]
      rfl

/-! ### C46 -/

theorem dirs_eq (ys : List ℚ) (centers : List Center) (T δ half lw cw : ℚ) (hT : 0 < T) (hδ : 0 < δ)
    (hc : ∀ c ∈ centers, Inside T δ ys.length c) :
    ∃ v, sampleVertical ys centers δ T half lw cw = .ok v ∧
      v.edgeDir = centers.map (fun c => dir (logic ys T δ half lw (-1 / 2) c) (logic ys T δ half lw (1 / 2) c)) := by
  obtain ⟨v, h1, h2, -⟩ := C44_symbols ys centers T δ half lw cw hT hδ hc
  refine ⟨v, h1, h2.trans (List.map_congr_left fun c _ => ?_)⟩
  cases logic ys T δ half lw (-1 / 2) c <;> cases logic ys T δ half lw (1 / 2) c <;> rfl

/-- C46, NRZM: one bit per symbol, 1 exactly when the symbol differs from its predecessor. -/
theorem C46_nrzm (wfs : List Wf) (T δ half lw cw : ℚ) (hT : 0 < T) (hδ : 0 < δ)
    (hc : ∀ w ∈ wfs, ∀ c ∈ w.centers, Inside T δ w.y.length c) :
    ∃ vs, wfs.mapM (fun w => sampleVertical w.y w.centers δ T half lw cw) = .ok vs ∧
      bitStream true (some (vs.map fun v => v.edgeDir)) true = .ok (wfs.map fun w => w.centers.map fun c =>
        if logic w.y T δ half lw (-1 / 2) c = logic w.y T δ half lw (1 / 2) c then 0 else 1) := by
  induction wfs with
  | nil => exact ⟨[], rfl, rfl⟩
  | cons w wfs ih =>
    obtain ⟨vs, h1, h2⟩ := ih fun x hx => hc x (List.mem_cons_of_mem _ hx)
    obtain ⟨v, h3, h4⟩ := dirs_eq w.y w.centers T δ half lw cw hT hδ (hc w (by simp))
    refine ⟨v :: vs, by rw [List.mapM_cons, h3, h1]; rfl, ?_⟩
    simp only [bitStream, Bool.not_true, Bool.false_eq_true, if_false, if_true, List.map_cons, Except.ok.injEq, List.cons.injEq] at h2 ⊢
    refine ⟨?_, h2⟩
    rw [h4]
    unfold bitsM
    rw [List.map_map]
    apply List.map_congr_left
    intro c _
    simp only [Function.comp]
    cases logic w.y T δ half lw (-1 / 2) c <;> cases logic w.y T δ half lw (1 / 2) c <;> simp [dir]

/-- C46, NRZL: one bit per symbol, the symbol's level - if every symbol's predecessor is seen as what it was itself seen as, and if there is an
edge or only low symbols. -/
theorem C46_nrzl_partial (wfs : List Wf) (T δ half lw cw : ℚ) (hT : 0 < T) (hδ : 0 < δ)
    (hc : ∀ w ∈ wfs, ∀ c ∈ w.centers, Inside T δ w.y.length c)
    (hch : ∀ w ∈ wfs, w.centers.IsChain fun a b => logic w.y T δ half lw (1 / 2) a = logic w.y T δ half lw (-1 / 2) b)
    (he : ∀ w ∈ wfs, (∃ c ∈ w.centers, logic w.y T δ half lw (-1 / 2) c ≠ logic w.y T δ half lw (1 / 2) c) ∨
      ∀ c ∈ w.centers, logic w.y T δ half lw (1 / 2) c = false) :
    ∃ vs, wfs.mapM (fun w => sampleVertical w.y w.centers δ T half lw cw) = .ok vs ∧
      bitStream true (some (vs.map fun v => v.edgeDir)) false = .ok (wfs.map fun w => w.centers.map fun c =>
        if logic w.y T δ half lw (1 / 2) c then 1 else 0) := by
  induction wfs with
  | nil => exact ⟨[], rfl, rfl⟩
  | cons w wfs ih =>
    obtain ⟨vs, h1, h2⟩ := ih (fun x hx => hc x (List.mem_cons_of_mem _ hx)) (fun x hx => hch x (List.mem_cons_of_mem _ hx))
      (fun x hx => he x (List.mem_cons_of_mem _ hx))
    obtain ⟨v, h3, h4⟩ := dirs_eq w.y w.centers T δ half lw cw hT hδ (hc w (by simp))
    refine ⟨v :: vs, by rw [List.mapM_cons, h3, h1]; rfl, ?_⟩
    simp only [bitStream, Bool.not_true, Bool.false_eq_true, if_false, List.map_cons, Except.ok.injEq, List.cons.injEq] at h2 ⊢
    refine ⟨?_, h2⟩
    rw [h4, bitsL_eq _ _ w.centers (hch w (by simp)) (he w (by simp))]
    rfl

/-- C46: before the calculation there is a RuntimeError. -/
theorem C46_not_calculated (d : Option (List (List ℤ))) (nrzm : Bool) : bitStream false d nrzm = .error .runtimeError := rfl

/-- C46 fails for a record that is high throughout: there is no edge to tell, the bits are 0. -/
theorem C46_constant_fails : ∃ (w : Wf) (T δ half lw cw : ℚ) (v : VOut), 0 < T ∧ 0 < δ ∧ (∀ c ∈ w.centers, Inside T δ w.y.length c) ∧
    w.centers.map (logic w.y T δ half lw (1 / 2)) = [true, true] ∧ sampleVertical w.y w.centers δ T half lw cw = .ok v ∧
    bitStream true (some [v.edgeDir]) false = .ok [[0, 0]] := by
  have hc : ∀ c ∈ ([⟨6, 0⟩, ⟨10, 0⟩] : List Center), Inside 4 1 (List.replicate 20 (1 : ℚ)).length c := by unfold Inside; decide +kernel
  obtain ⟨v, h1, h2⟩ := dirs_eq (List.replicate 20 1) [⟨6, 0⟩, ⟨10, 0⟩] 4 1 (1 / 2) (1 / 4) (1 / 4) (by norm_num) (by norm_num) hc
  refine ⟨⟨List.replicate 20 1, [⟨6, 0⟩, ⟨10, 0⟩]⟩, 4, 1, 1 / 2, 1 / 4, 1 / 4, v, by norm_num, by norm_num, hc, by decide +kernel, h1, ?_⟩
  rw [h2]
  decide +kernel

/-- C46 fails after a calculation that skipped the measures: there are no directions. -/
theorem C46_skipped_fails (nrzm : Bool) : bitStream true none nrzm = .error .typeError := rfl

/-! ### Regular clocks -/

theorem filter_range_eq (p : ℕ → Bool) (a m n : ℕ) (h : a + m ≤ n) (hp : ∀ j, p j = true → j < n → a ≤ j ∧ j < a + m) :
    (List.range n).filter p = (List.range' a m).filter p := by
  obtain ⟨k, rfl⟩ := Nat.exists_eq_add_of_le h
  rw [List.range_eq_range', show a + m + k = a + (m + k) by omega, ← List.range'_append_1, ← List.range'_append_1, List.filter_append,
    List.filter_append]
  have h1 : (List.range' 0 a).filter p = [] := by
    rw [List.filter_eq_nil_iff]
    intro j hj
    rw [List.mem_range'_1] at hj
    intro hpj
    have := hp j hpj (by omega)
    omega
  have h2 : (List.range' (0 + a + m) k).filter p = [] := by
    rw [List.filter_eq_nil_iff]
    intro j hj
    rw [List.mem_range'_1] at hj
    intro hpj
    have := hp j hpj (by omega)
    omega
  rw [h1, h2]
  simp

/-- What a clock edge is sampled as, if the record begins at a multiple of the sample period. -/
theorem sampled_at (T δ tZero b : ℚ) (hT : 0 < T) (hδ : 0 < δ) (hz : ∃ z : ℤ, tZero = z * δ) (n : ℕ) (c : Center)
    (h : sampleEdge T δ tZero n b = some c) : c.i = ⌊(b - tZero) / δ⌋ ∧ tZero + c.i * δ - c.t = b ∧ Inside T δ n c ∧ -δ < c.t ∧ c.t ≤ 0 := by
  obtain ⟨hi, ht1, ht2⟩ := sampled_fine T δ tZero hδ n [b] c (List.mem_filterMap.2 ⟨b, by simp, h⟩)
  obtain ⟨z, rfl⟩ := hz
  obtain ⟨-, -, hw⟩ := iWidth_ge T δ hT hδ
  have hx : (b - z * δ - pyMod b δ) / δ = ((⌊b / δ⌋ - z : ℤ) : ℚ) := by
    unfold pyMod
    push_cast
    rw [div_eq_iff hδ.ne']
    ring
  unfold sampleEdge at h
  simp only at h
  split at h
  · cases h
  · obtain rfl := Option.some.inj h
    simp only at hi ht1 ht2 ⊢
    rw [hx] at hi ⊢
    generalize hn : ⌊b / δ⌋ - z = m at *
    obtain ⟨hi1, hi2⟩ := hi
    simp only at hi1 hi2
    have hm : 0 ≤ m := by
      by_contra hneg
      have : pyInt ((m : ℚ) + 1 / 2) ≤ 0 := by
        apply pyInt_neg
        have : (m : ℚ) ≤ -1 := by exact_mod_cast (by omega : m ≤ -1)
        linarith
      omega
    have hI : pyInt ((m : ℚ) + 1 / 2) = m := by
      rw [pyInt_nonneg _ (by have : (0 : ℚ) ≤ m := by exact_mod_cast hm
                             linarith)]
      rw [Int.floor_eq_iff]
      constructor <;> linarith
    rw [hI] at hi1 hi2 ⊢
    have hfl : ⌊(b - z * δ) / δ⌋ = m := by
      rw [sub_div, mul_div_cancel_right₀ _ hδ.ne', Int.floor_sub_intCast, hn]
    refine ⟨hfl.symm, ?_, ⟨hi1, hi2⟩, ht1, ht2⟩
    rw [div_eq_iff hδ.ne'] at hx
    linarith

/-- The samples of a window in terms of the record. -/
theorem near_record (ys : List ℚ) (T δ tZero b u W : ℚ) (hT : 0 < T) (hδ : 0 < δ) (c : Center)
    (hi : Inside T δ ys.length c) (hb : tZero + c.i * δ - c.t = b)
    (hr : ∀ j : ℕ, |1 / 2 + (tZero + j * δ - b) / T - u| ≤ W / 2 → |(j : ℚ) - c.i| < halfWidth T δ + 1) :
    near (around ys T δ c) u W =
      ((List.range ys.length).filter fun j : ℕ => decide (|1 / 2 + (tZero + j * δ - b) / T - u| ≤ W / 2)).map fun j => ys.getD j 0 := by
  obtain ⟨h1, h2⟩ := hi
  rw [halfWidth_eq T δ hT hδ] at h1 h2
  rw [filter_range_eq _ (c.i.toNat - halfWidth T δ) (2 * halfWidth T δ + 1) ys.length (by omega)]
  · unfold near around
    rw [List.range'_eq_map_range, List.filter_map, List.filter_map, List.map_map, List.map_map]
    congr 1
    · congr 1
      funext k
      simp only [Function.comp, decide_eq_decide]
      have e : (((c.i.toNat - halfWidth T δ + k : ℕ) : ℚ) - c.i) * δ + c.t = tZero + ((c.i.toNat - halfWidth T δ + k : ℕ) : ℚ) * δ - b := by
        rw [← hb]; ring
      rw [e]
  · intro j hj hjn
    rw [decide_eq_true_iff] at hj
    have h3 := abs_lt.1 (hr j hj)
    have e1 : -((halfWidth T δ : ℤ) + 1) < (j : ℤ) - c.i := by
      have := h3.1
      exact_mod_cast this
    have e2 : (j : ℤ) - c.i < (halfWidth T δ : ℤ) + 1 := by
      have := h3.2
      exact_mod_cast this
    omega

/-- With a clock at multiples of the period and windows of at most three samples, a symbol is seen as the same by its successor. -/
theorem successor (ys : List ℚ) (T δ tZero b half lw : ℚ) (hT : 0 < T) (hδ : 0 < δ) (hz : ∃ z : ℤ, tZero = z * δ)
    (hw1 : decisionWidth lw T δ < 1) (hw2 : decisionWidth lw T δ ≤ 3 * (δ / T)) (c c' : Center)
    (h : sampleEdge T δ tZero ys.length b = some c) (h' : sampleEdge T δ tZero ys.length (b + T) = some c') :
    logic ys T δ half lw (1 / 2) c = logic ys T δ half lw (-1 / 2) c' := by
  obtain ⟨-, hb, hi, ht1, ht2⟩ := sampled_at T δ tZero b hT hδ hz ys.length c h
  obtain ⟨-, hb', hi', ht1', ht2'⟩ := sampled_at T δ tZero (b + T) hT hδ hz ys.length c' h'
  unfold logic
  rw [C44_windows _ _ hw1 _ (by simp), C44_windows _ _ hw1 _ (by simp)]
  generalize decisionWidth lw T δ = W at *
  obtain ⟨w1, -, -⟩ := iWidth_ge T δ hT hδ
  rw [halfWidth_eq T δ hT hδ] at w1
  push_cast at w1
  have hd : T / δ * δ = T := div_mul_cancel₀ _ hδ.ne'
  have hd2 : δ / T * T = δ := div_mul_cancel₀ _ hT.ne'
  have hWT : W * T ≤ 3 * δ := by nlinarith
  have hWT1 : W * T < T := by nlinarith
  have hwd : T + 3 / 2 * δ < halfWidth T δ * δ := by nlinarith
  have key : ∀ (x W : ℚ), |x / T| ≤ W / 2 → -(W * T) ≤ 2 * x ∧ 2 * x ≤ W * T := by
    intro x W hx
    rw [abs_le] at hx
    obtain ⟨ha, hb⟩ := hx
    rw [div_le_iff₀ hT] at hb
    rw [le_div_iff₀ hT] at ha
    constructor <;> linarith
  rw [near_record ys T δ tZero b (1 / 2) W hT hδ c hi hb, near_record ys T δ tZero (b + T) (-1 / 2) W hT hδ c' hi' hb']
  · congr 2
    apply List.filter_congr
    intro j _
    rw [decide_eq_decide]
    have e : 1 / 2 + (tZero + j * δ - (b + T)) / T - -1 / 2 = 1 / 2 + (tZero + j * δ - b) / T - 1 / 2 := by
      field_simp
      ring
    rw [e]
  · intro j hj
    have e : 1 / 2 + (tZero + j * δ - (b + T)) / T - -1 / 2 = (tZero + j * δ - b) / T := by
      field_simp
      ring
    rw [e] at hj
    obtain ⟨k1, k2⟩ := key _ _ hj
    have e2 : tZero + j * δ - b = ((j : ℚ) - c'.i) * δ + c'.t + T := by linarith
    rw [e2] at k1 k2
    rw [abs_lt]
    constructor
    · by_contra hc
      push Not at hc
      nlinarith
    · by_contra hc
      push Not at hc
      nlinarith
  · intro j hj
    have e : 1 / 2 + (tZero + j * δ - b) / T - 1 / 2 = (tZero + j * δ - b) / T := by ring
    rw [e] at hj
    obtain ⟨k1, k2⟩ := key _ _ hj
    have e2 : tZero + j * δ - b = ((j : ℚ) - c.i) * δ + c.t := by linarith
    rw [e2] at k1 k2
    rw [abs_lt]
    constructor
    · by_contra hc
      push Not at hc
      nlinarith
    · by_contra hc
      push Not at hc
      nlinarith

/-- An edge is sampled exactly if its window is within the record. -/
theorem sampled_iff (T δ tZero b : ℚ) (hT : 0 < T) (hδ : 0 < δ) (hz : ∃ z : ℤ, tZero = z * δ) (n : ℕ) :
    (∃ c, sampleEdge T δ tZero n b = some c) ↔ iWidth T δ ≤ ⌊(b - tZero) / δ⌋ ∧ ⌊(b - tZero) / δ⌋ + iWidth T δ < n := by
  constructor
  · rintro ⟨c, h⟩
    obtain ⟨h1, -, ⟨h2, h3⟩, -⟩ := sampled_at T δ tZero b hT hδ hz n c h
    rw [h1] at h2 h3
    exact ⟨by omega, by omega⟩
  · rintro ⟨h1, h2⟩
    obtain ⟨z, rfl⟩ := hz
    obtain ⟨-, -, hw⟩ := iWidth_ge T δ hT hδ
    have hx : (b - z * δ - pyMod b δ) / δ = ((⌊b / δ⌋ - z : ℤ) : ℚ) := by
      unfold pyMod
      push_cast
      rw [div_eq_iff hδ.ne']
      ring
    have hfl : ⌊(b - z * δ) / δ⌋ = ⌊b / δ⌋ - z := by rw [sub_div, mul_div_cancel_right₀ _ hδ.ne', Int.floor_sub_intCast]
    rw [hfl] at h1 h2
    unfold sampleEdge
    simp only
    rw [hx]
    generalize ⌊b / δ⌋ - z = m at *
    have hI : pyInt ((m : ℚ) + 1 / 2) = m := by
      rw [pyInt_nonneg _ (by have : (0 : ℚ) ≤ m := by exact_mod_cast (by omega : 0 ≤ m)
                             linarith)]
      rw [Int.floor_eq_iff]
      constructor <;> linarith
    rw [hI, if_neg (by omega)]
    exact ⟨_, rfl⟩

/-- The symbols sampled with a regular clock are consecutive. -/
theorem regular_chain (ys : List ℚ) (T δ tZero b half lw : ℚ) (hT : 0 < T) (hδ : 0 < δ) (hz : ∃ z : ℤ, tZero = z * δ)
    (hw1 : decisionWidth lw T δ < 1) (hw2 : decisionWidth lw T δ ≤ 3 * (δ / T)) (n : ℕ) :
    (sampleEdges T δ tZero ys.length ((List.range n).map fun k : ℕ => b + k * T)).IsChain fun x y =>
      logic ys T δ half lw (1 / 2) x = logic ys T δ half lw (-1 / 2) y := by
  induction n generalizing b with
  | zero => simp [sampleEdges]
  | succ n ih =>
    have hl : (List.range (n + 1)).map (fun k : ℕ => b + k * T) = b :: (List.range n).map fun k : ℕ => (b + T) + k * T := by
      rw [List.range_succ_eq_map, List.map_cons, List.map_map]
      congr 1
      · simp
      · apply List.map_congr_left
        intro k _
        simp only [Function.comp]
        push_cast
        ring
    rw [hl]
    have h2 := ih (b + T)
    unfold sampleEdges at h2 ⊢
    rw [List.filterMap_cons]
    cases hb : sampleEdge T δ tZero ys.length b with
    | none => exact h2
    | some c =>
      cases n with
      | zero => simp
      | succ n =>
        have hl2 : (List.range (n + 1)).map (fun k : ℕ => b + T + k * T) = (b + T) :: (List.range n).map fun k : ℕ => (b + T + T) + k * T := by
          rw [List.range_succ_eq_map, List.map_cons, List.map_map]
          congr 1
          · simp
          · apply List.map_congr_left
            intro k _
            simp only [Function.comp]
            push_cast
            ring
        rw [hl2] at h2 ⊢
        rw [List.filterMap_cons] at h2 ⊢
        cases hb' : sampleEdge T δ tZero ys.length (b + T) with
        | some c' =>
          rw [hb'] at h2
          simp only at h2 ⊢
          rw [List.isChain_cons_cons]
          exact ⟨successor ys T δ tZero b half lw hT hδ hz hw1 hw2 c c' hb hb', h2⟩
        | none =>
          have hnil : ((List.range n).map fun k : ℕ => (b + T + T) + k * T).filterMap (sampleEdge T δ tZero ys.length) = [] := by
            rw [List.filterMap_eq_nil_iff]
            intro x hx
            obtain ⟨k, -, rfl⟩ := List.mem_map.1 hx
            cases hs : sampleEdge T δ tZero ys.length (b + T + T + k * T) with
            | none => rfl
            | some d =>
              exfalso
              have i1 := (sampled_iff T δ tZero b hT hδ hz ys.length).1 ⟨c, hb⟩
              have i3 := (sampled_iff T δ tZero _ hT hδ hz ys.length).1 ⟨d, hs⟩
              have hk : (0 : ℚ) ≤ k * T := mul_nonneg (Nat.cast_nonneg k) hT.le
              have m1 : ⌊(b - tZero) / δ⌋ ≤ ⌊(b + T - tZero) / δ⌋ :=
                Int.floor_le_floor (div_le_div_of_nonneg_right (by linarith) hδ.le)
              have m2 : ⌊(b + T - tZero) / δ⌋ ≤ ⌊(b + T + T + k * T - tZero) / δ⌋ :=
                Int.floor_le_floor (div_le_div_of_nonneg_right (by linarith) hδ.le)
              obtain ⟨e, he⟩ := (sampled_iff T δ tZero (b + T) hT hδ hz ys.length).2 ⟨by omega, by omega⟩
              rw [hb'] at he
              cases he
          simp only [hnil]
          exact List.isChain_singleton c

/-- C46, NRZL, from the clock edges to the bits: with a regular clock, a record that begins at a multiple of the sample period and decision
windows of at most three samples, the bits are the symbols' levels - if there is an edge or only low symbols. -/
theorem C46_regular_partial (ys : List ℚ) (T δ tZero b half lw cw : ℚ) (n : ℕ) (hT : 0 < T) (hδ : 0 < δ) (hz : ∃ z : ℤ, tZero = z * δ)
    (hw1 : decisionWidth lw T δ < 1) (hw2 : decisionWidth lw T δ ≤ 3 * (δ / T)) :
    let centers := sampleEdges T δ tZero ys.length ((List.range n).map fun k : ℕ => b + k * T)
    ((∃ c ∈ centers, logic ys T δ half lw (-1 / 2) c ≠ logic ys T δ half lw (1 / 2) c) ∨
      ∀ c ∈ centers, logic ys T δ half lw (1 / 2) c = false) →
    ∃ v, sampleVertical ys centers δ T half lw cw = .ok v ∧
      bitStream true (some [v.edgeDir]) false = .ok [centers.map fun c => if logic ys T δ half lw (1 / 2) c then 1 else 0] := by
  intro centers he
  have hc : ∀ c ∈ centers, Inside T δ ys.length c := fun c hc => (sampled_fine T δ tZero hδ ys.length _ c hc).1
  obtain ⟨v, h1, h2⟩ := dirs_eq ys centers T δ half lw cw hT hδ hc
  refine ⟨v, h1, ?_⟩
  simp only [bitStream, Bool.not_true, Bool.false_eq_true, if_false, List.map_cons, List.map_nil, Except.ok.injEq, List.cons.injEq, and_true]
  rw [h2, bitsL_eq _ _ centers (regular_chain ys T δ tZero b half lw hT hδ hz hw1 hw2 n) he]
  rfl

/-- A record of three symbols of 20 samples: the middle one starts high and falls early. -/
def exWide : List ℚ := List.replicate 35 0 ++ [20, 20, 20] ++ List.replicate 50 0

/-- C46 fails with wider windows even for a regular clock, because the window of the previous symbol is cut off: the second symbol is seen as
high, but as low by its successor, which is low itself and is reported as 1. -/
theorem C46_wide_fails : ∃ (ys : List ℚ) (T δ b half lw cw : ℚ) (v : VOut), 0 < T ∧ 0 < δ ∧ decisionWidth lw T δ < 1 ∧
    let centers := sampleEdges T δ 0 ys.length ((List.range 2).map fun k : ℕ => b + k * T)
    centers.map (logic ys T δ half lw (1 / 2)) = [true, false] ∧ sampleVertical ys centers δ T half lw cw = .ok v ∧
    bitStream true (some [v.edgeDir]) false = .ok [[1, 1]] := by
  have hc : ∀ c ∈ sampleEdges 20 1 0 exWide.length ((List.range 2).map fun k : ℕ => 40 + (k : ℚ) * 20), Inside 20 1 exWide.length c :=
    fun c hc => (sampled_fine 20 1 0 (by norm_num) _ _ c hc).1
  obtain ⟨v, h1, h2⟩ := dirs_eq exWide _ 20 1 5 (1 / 2) (1 / 4) (by norm_num) (by norm_num) hc
  refine ⟨exWide, 20, 1, 40, 5, 1 / 2, 1 / 4, v, by norm_num, by norm_num, by decide +kernel, ?_, h1, ?_⟩
  · decide +kernel
  · rw [h2]
    decide +kernel

/-- The hypotheses of the C46 theorems are met by the example of C44 with a regular clock: the bits are 0, 1, 1. -/
example : decisionWidth (1 / 4) 4 1 < 1 ∧ decisionWidth (1 / 4) 4 1 ≤ 3 * (1 / 4) ∧
    (sampleEdges 4 1 0 Pam2Vertical.exYs.length ((List.range 4).map fun k : ℕ => 6 + (k : ℚ) * 4)).map
      (fun c => (logic Pam2Vertical.exYs 4 1 6 (1 / 4) (-1 / 2) c, logic Pam2Vertical.exYs 4 1 6 (1 / 4) (1 / 2) c)) =
      [(false, false), (false, true), (true, true)] := by
  decide +kernel

end Verif.Props.Pam2Bits
