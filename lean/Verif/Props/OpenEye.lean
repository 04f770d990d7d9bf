import Verif.Props.Pipeline

/-!
C70: with a regular clock and an open eye, `calculate` and `get_bit_stream` give the bits that were sent.
-/

namespace Verif.Props.OpenEye

open Verif Verif.Lines Verif.Eye Verif.Pam2 Verif.Pipeline Verif.Props.EyeWindow Verif.Props.EyeMask Verif.Props.EyeImage
  Verif.Props.Pam2Vertical Verif.Props.Pam2Bits Verif.Props.Pipeline

/-! ### Specification -/

/-- A record and what was sent: the time of the first sample, the values, the first clock edge, the number of clock edges, and the symbol sent
around each clock edge; symbol -1 is the one before the first edge. -/
structure Sent where
  t0 : ℚ
  y : List ℚ
  b : ℚ
  n : ℕ
  sym : ℤ → Bool

/-- The record as a waveform of `N` samples. -/
def Sent.wave (N : ℕ) (δ : ℚ) (r : Sent) : Wave := ((List.range N).map fun i : ℕ => r.t0 + i * δ, r.y)

/-- The clock edges. -/
def Sent.clock (T : ℚ) (r : Sent) : List ℚ := (List.range r.n).map fun k : ℕ => r.b + k * T

/-- The eye is open: the samples no farther from a clock edge than half of the width `w` (in symbols) and half a sample are on the side of the
threshold that was sent. -/
def Sent.Open (N : ℕ) (T δ half w : ℚ) (r : Sent) : Prop :=
  ∀ j < N, ∀ k : ℤ, -1 ≤ k → k < r.n → |r.t0 + j * δ - (r.b + k * T)| ≤ w * T / 2 + δ / 2 → (half < r.y.getD j 0 ↔ r.sym k = true)

/-! ### One symbol -/

/-- The centre of a sampled symbol is within half a sample of its clock edge. -/
theorem sample_error (T δ tZero b : ℚ) (hT : 0 < T) (hδ : 0 < δ) (n : ℕ) (c : Center) (h : sampleEdge T δ tZero n b = some c) :
    |tZero + c.i * δ - c.t - b| ≤ δ / 2 ∧ Inside T δ n c ∧ -δ < c.t ∧ c.t ≤ 0 := by
  obtain ⟨hi, ht1, ht2⟩ := sampled_fine T δ tZero hδ n [b] c (List.mem_filterMap.2 ⟨b, by simp, h⟩)
  refine ⟨?_, hi, ht1, ht2⟩
  obtain ⟨-, -, hw⟩ := iWidth_ge T δ hT hδ
  have hpos : 0 < c.i := by
    have := hi.1
    omega
  unfold sampleEdge at h
  simp only at h
  split at h
  · cases h
  · obtain rfl := Option.some.inj h
    simp only at hpos ⊢
    generalize hx : (b - tZero - pyMod b δ) / δ = x at *
    have hx' : b - tZero - pyMod b δ = x * δ := by rw [← hx, div_mul_cancel₀ _ hδ.ne']
    have hxp : 0 ≤ x + 1 / 2 := by
      by_contra hn
      push Not at hn
      have := pyInt_neg _ hn
      omega
    rw [pyInt_nonneg _ hxp]
    have f1 := Int.lt_floor_add_one (x + 1 / 2)
    have f2 := Int.floor_le (x + 1 / 2)
    generalize (⌊x + 1 / 2⌋ : ℤ) = z at *
    rw [show tZero + z * δ - -pyMod b δ - b = (z - x) * δ by linarith, abs_le]
    constructor <;> nlinarith

theorem isHigh_all (half : ℚ) (l : List ℚ) (b : Bool) (hne : l ≠ []) (h : ∀ y ∈ l, half < y ↔ b = true) : isHigh half l = b := by
  have hlen : (0 : ℚ) < l.length := by exact_mod_cast List.length_pos_iff.2 hne
  unfold isHigh
  cases b with
  | true =>
    rw [decide_eq_true_iff]
    refine ⟨hne, ?_⟩
    rw [lt_div_iff₀ hlen]
    have key : ∀ l : List ℚ, l ≠ [] → (∀ y ∈ l, half < y) → half * l.length < l.sum := by
      intro l
      induction l with
      | nil => simp
      | cons a l ih =>
        intro _ ha
        have h1 := ha a (by simp)
        simp only [List.length_cons, List.sum_cons]
        push_cast
        by_cases hl : l = []
        · subst hl
          simpa using h1
        · have := ih hl fun y hy => ha y (List.mem_cons_of_mem _ hy)
          linarith
    exact key l hne fun y hy => (h y hy).2 rfl
  | false =>
    rw [decide_eq_false_iff_not]
    rintro ⟨-, hlt⟩
    rw [lt_div_iff₀ hlen] at hlt
    have key : ∀ l : List ℚ, (∀ y ∈ l, y ≤ half) → l.sum ≤ half * l.length := by
      intro l
      induction l with
      | nil => simp
      | cons a l ih =>
        intro ha
        have h1 := ha a (by simp)
        have := ih fun y hy => ha y (List.mem_cons_of_mem _ hy)
        simp only [List.length_cons, List.sum_cons]
        push_cast
        linarith
    have := key l fun y hy => not_lt.1 fun hc => by simpa using (h y hy).1 hc
    linarith

theorem mem_near (ys : List ℚ) (T δ u W : ℚ) (hT : 0 < T) (hδ : 0 < δ) (c : Center) (hi : Inside T δ ys.length c) (y : ℚ)
    (hy : y ∈ near (around ys T δ c) u W) :
    ∃ j < ys.length, y = ys.getD j 0 ∧ |1 / 2 + (((j : ℚ) - c.i) * δ + c.t) / T - u| ≤ W / 2 := by
  obtain ⟨h1, h2⟩ := hi
  rw [halfWidth_eq T δ hT hδ] at h1 h2
  obtain ⟨p, hp, rfl⟩ := List.mem_map.1 hy
  obtain ⟨hp1, hp2⟩ := List.mem_filter.1 hp
  unfold around at hp1
  obtain ⟨k, hk, rfl⟩ := List.mem_map.1 hp1
  rw [List.mem_range] at hk
  rw [decide_eq_true_iff] at hp2
  exact ⟨c.i.toNat - halfWidth T δ + k, by omega, rfl, hp2⟩

/-- An open eye is decided as what was sent. -/
theorem decide_open (r : Sent) (T δ half lw : ℚ) (hT : 0 < T) (hδ : 0 < δ) (hw : decisionWidth lw T δ < 1)
    (ho : r.Open r.y.length T δ half (decisionWidth lw T δ)) (k : ℕ) (hk : k < r.n) (c : Center)
    (h : sampleEdge T δ r.t0 r.y.length (r.b + k * T) = some c) :
    logic r.y T δ half lw (-1 / 2) c = r.sym (k - 1) ∧ logic r.y T δ half lw (1 / 2) c = r.sym k := by
  obtain ⟨he, hi, -, -⟩ := sample_error T δ r.t0 _ hT hδ _ c h
  have hmem : c ∈ sampleEdges T δ r.t0 r.y.length [r.b + k * T] := List.mem_filterMap.2 ⟨_, by simp, h⟩
  have key : ∀ u ∈ ([-1 / 2, 1 / 2, 3 / 2] : List ℚ), ∀ z : ℤ, -1 ≤ z → z < r.n → (z : ℚ) = k + (u - 1 / 2) →
      logic r.y T δ half lw u c = r.sym z := by
    intro u hu z hz1 hz2 hzu
    unfold logic
    rw [C44_windows _ _ hw u hu]
    apply isHigh_all _ _ _ (C44_decided r.y [r.b + k * T] T δ r.t0 lw hT hδ c hmem u hu)
    intro y hy
    obtain ⟨j, hj, rfl, hjw⟩ := mem_near r.y T δ u _ hT hδ c hi y hy
    apply ho j hj z hz1 hz2
    generalize decisionWidth lw T δ = W at *
    have e1 : r.t0 + j * δ - (r.b + z * T) = (1 / 2 + (((j : ℚ) - c.i) * δ + c.t) / T - u) * T + (r.t0 + c.i * δ - c.t - (r.b + k * T)) := by
      rw [hzu]
      field_simp
      ring
    rw [e1]
    refine (abs_add_le _ _).trans (add_le_add ?_ he)
    rw [abs_mul, abs_of_pos hT]
    nlinarith
  refine ⟨key (-1 / 2) (by simp) ((k : ℤ) - 1) (by omega) (by omega) (by push_cast; ring), ?_⟩
  have := key (1 / 2) (by simp) (k : ℤ) (by omega) (by omega) (by push_cast; ring)
  simpa using this

/-! ### Which symbols are sampled -/

/-- The index of the sample of a clock edge does not decrease. -/
theorem index_mono (δ tZero b b' : ℚ) (hδ : 0 < δ) (h : b ≤ b') :
    pyInt ((b - tZero - pyMod b δ) / δ + 1 / 2) ≤ pyInt ((b' - tZero - pyMod b' δ) / δ + 1 / 2) := by
  apply pyInt_mono
  have e : ∀ x : ℚ, (x - tZero - pyMod x δ) / δ = ⌊x / δ⌋ - tZero / δ := by
    intro x
    unfold pyMod
    field_simp
    ring
  rw [e, e]
  have : ⌊b / δ⌋ ≤ ⌊b' / δ⌋ := Int.floor_le_floor (div_le_div_of_nonneg_right h hδ.le)
  have : ((⌊b / δ⌋ : ℤ) : ℚ) ≤ ⌊b' / δ⌋ := by exact_mod_cast this
  linarith

theorem filter_convex (p : ℕ → Bool) (hp : ∀ i j k, i ≤ j → j ≤ k → p i = true → p k = true → p j = true) (n : ℕ) :
    ∃ a m, a + m ≤ n ∧ (List.range n).filter p = List.range' a m := by
  induction n with
  | zero => exact ⟨0, 0, by simp, rfl⟩
  | succ n ih =>
    obtain ⟨a, m, h1, h2⟩ := ih
    rw [List.range_succ, List.filter_append, h2]
    by_cases hn : p n = true
    · rw [List.filter_cons, if_pos hn]
      cases m with
      | zero => exact ⟨n, 1, by omega, by simp [List.range']⟩
      | succ m =>
        have hlast : p (a + m) = true := by
          have : a + m ∈ (List.range n).filter p := by rw [h2, List.mem_range'_1]; omega
          exact (List.mem_filter.1 this).2
        have hend : a + (m + 1) = n := by
          by_contra hne
          have hp1 := hp (a + m) (a + m + 1) n (by omega) (by omega) hlast hn
          have : a + m + 1 ∈ (List.range n).filter p := List.mem_filter.2 ⟨List.mem_range.2 (by omega), hp1⟩
          rw [h2, List.mem_range'_1] at this
          omega
        refine ⟨a, m + 1 + 1, by omega, ?_⟩
        rw [List.range'_concat (n := m + 1), hend.symm]
        simp
    · rw [List.filter_cons, if_neg hn]
      exact ⟨a, m, by omega, by simp⟩

/-- An edge is sampled exactly if the index of its sample is far enough from both ends. -/
theorem sampled_iff_index (T δ tZero b : ℚ) (n : ℕ) : (sampleEdge T δ tZero n b).isSome = true ↔
    iWidth T δ ≤ pyInt ((b - tZero - pyMod b δ) / δ + 1 / 2) ∧ pyInt ((b - tZero - pyMod b δ) / δ + 1 / 2) + iWidth T δ < n := by
  unfold sampleEdge
  simp only
  split
  · rename_i h
    simp only [Option.isSome_none, Bool.false_eq_true, false_iff]
    omega
  · rename_i h
    simp only [Option.isSome_some, true_iff]
    omega

theorem kept_range (T δ tZero b : ℚ) (hT : 0 < T) (hδ : 0 < δ) (N n : ℕ) : ∃ a m, a + m ≤ n ∧
    ((List.range n).filter fun k : ℕ => (sampleEdge T δ tZero N (b + k * T)).isSome) = List.range' a m ∧
    (∀ k < n, tZero + T + 4 * δ ≤ b + k * T → b + k * T ≤ tZero + (N - 1) * δ - T - 3 * δ → a ≤ k ∧ k < a + m) ∧
    (∀ k, a ≤ k → k < a + m → tZero + T + δ < b + k * T ∧ b + k * T < tZero + (N - 1) * δ - T) := by
  obtain ⟨a, m, h1, h2⟩ := filter_convex (fun k : ℕ => (sampleEdge T δ tZero N (b + k * T)).isSome) (by
    intro i j k hij hjk hi hk
    rw [sampled_iff_index] at hi hk ⊢
    have hij' : (i : ℚ) ≤ j := by exact_mod_cast hij
    have hjk' : (j : ℚ) ≤ k := by exact_mod_cast hjk
    have m1 := index_mono δ tZero (b + i * T) (b + j * T) hδ (by nlinarith)
    have m2 := index_mono δ tZero (b + j * T) (b + k * T) hδ (by nlinarith)
    exact ⟨hi.1.trans m1, by omega⟩) n
  refine ⟨a, m, h1, h2, ?_, ?_⟩
  · intro k hk hlo hhi
    have : k ∈ (List.range n).filter fun k : ℕ => (sampleEdge T δ tZero N (b + k * T)).isSome := by
      refine List.mem_filter.2 ⟨List.mem_range.2 hk, ?_⟩
      rw [sampled_iff_index]
      obtain ⟨w1, w2, w3⟩ := iWidth_ge T δ hT hδ
      obtain ⟨p1, p2, -⟩ := pyMod_spec (b + k * T) δ hδ
      generalize b + k * T = x at *
      generalize pyMod x δ = μ at *
      have hd : T / δ * δ = T := div_mul_cancel₀ _ hδ.ne'
      generalize hq : (x - tZero - μ) / δ = q
      have hq' : x - tZero - μ = q * δ := by rw [← hq, div_mul_cancel₀ _ hδ.ne']
      have q1 : T / δ + 3 < q := by
        by_contra hc
        push Not at hc
        nlinarith
      have q2 : q ≤ N - 1 - T / δ - 3 := by
        by_contra hc
        push Not at hc
        nlinarith
      have hp := div_pos hT hδ
      rw [pyInt_nonneg _ (by linarith)]
      constructor
      · rw [Int.le_floor]
        linarith
      · have f2 := Int.floor_le (q + 1 / 2)
        have : (⌊q + 1 / 2⌋ : ℚ) + iWidth T δ < N := by linarith
        exact_mod_cast this
    rw [h2, List.mem_range'_1] at this
    exact this
  · intro k hk1 hk2
    have : k ∈ (List.range n).filter fun k : ℕ => (sampleEdge T δ tZero N (b + k * T)).isSome := by
      rw [h2, List.mem_range'_1]
      exact ⟨hk1, hk2⟩
    obtain ⟨c, hc⟩ := Option.isSome_iff_exists.1 (List.mem_filter.1 this).2
    obtain ⟨he, ⟨i1, i2⟩, t1, t2⟩ := sample_error T δ tZero _ hT hδ N c hc
    obtain ⟨w1, w2, w3⟩ := iWidth_ge T δ hT hδ
    have hd : T / δ * δ = T := div_mul_cancel₀ _ hδ.ne'
    rw [abs_le] at he
    have j1 : (iWidth T δ : ℚ) ≤ c.i := by exact_mod_cast (by omega : iWidth T δ ≤ c.i)
    have j2 : (c.i : ℚ) ≤ N - 1 - iWidth T δ := by
      have : c.i ≤ N - 1 - iWidth T δ := by omega
      exact_mod_cast this
    constructor
    · have : T + 3 / 2 * δ < c.i * δ := by nlinarith
      linarith [he.2]
    · have : c.i * δ < (N - 1) * δ - T - 3 / 2 * δ := by nlinarith
      linarith [he.1]

theorem filterMap_map {α β γ : Type} (f : α → Option β) (g : β → γ) (h : α → γ) (l : List α) (hfg : ∀ a ∈ l, ∀ b, f a = some b → g b = h a) :
    (l.filterMap f).map g = (l.filter fun a => (f a).isSome).map h := by
  induction l with
  | nil => rfl
  | cons a l ih =>
    have := ih fun x hx => hfg x (List.mem_cons_of_mem _ hx)
    rw [List.filterMap_cons, List.filter_cons]
    cases hf : f a with
    | none => simpa using this
    | some b => simp [this, hfg a (by simp) b hf]

/-- The directions of an open eye. -/
theorem dirs_open (r : Sent) (T δ half lw : ℚ) (hT : 0 < T) (hδ : 0 < δ) (hw : decisionWidth lw T δ < 1)
    (ho : r.Open r.y.length T δ half (decisionWidth lw T δ)) :
    (sampleEdges T δ r.t0 r.y.length (r.clock T)).map
        (fun c => dir (logic r.y T δ half lw (-1 / 2) c) (logic r.y T δ half lw (1 / 2) c)) =
      ((List.range r.n).filter fun k : ℕ => (sampleEdge T δ r.t0 r.y.length (r.b + k * T)).isSome).map
        fun k : ℕ => dir (r.sym (k - 1)) (r.sym k) := by
  unfold sampleEdges Sent.clock
  rw [List.filterMap_map]
  apply filterMap_map
  intro k hk c hc
  obtain ⟨h1, h2⟩ := decide_open r T δ half lw hT hδ hw ho k (List.mem_range.1 hk) c hc
  rw [h1, h2]

/-! ### The period -/

theorem period_regular (T : ℚ) (hT : 0 < T) (rs : List Sent) (h2 : ∃ r ∈ rs, 2 ≤ r.n) : symbolPeriod (rs.map (Sent.clock T)) = .ok (some T) := by
  obtain ⟨r0, hr0, hn⟩ := h2
  obtain ⟨ds, kept, m, T', hmem, hm, hk, hkne, hT', he, -, -⟩ := C56_period (rs.map (Sent.clock T)) (by
    intro e he
    obtain ⟨r, -, rfl⟩ := List.mem_map.1 he
    unfold Sent.clock
    rw [List.pairwise_map]
    refine List.pairwise_lt_range.imp ?_
    intro a b hab
    have : (a : ℚ) < b := by exact_mod_cast hab
    nlinarith) ⟨_, List.mem_map.2 ⟨r0, hr0, rfl⟩, by simpa [Sent.clock] using hn⟩
  rw [he]
  congr 2
  have hall : ∀ d ∈ ds, d = T := by
    intro d hd
    obtain ⟨e, he, k, h, rfl⟩ := (hmem d).1 hd
    obtain ⟨r, -, rfl⟩ := List.mem_map.1 he
    simp only [Sent.clock, List.getElem_map, List.getElem_range]
    push_cast
    ring
  have hkall : ∀ d ∈ kept, d = T := fun d hd => hall d (by rw [hk] at hd; exact (List.mem_filter.1 hd).1)
  have hsum : kept.sum = kept.length * T := by
    rw [List.eq_replicate_of_mem hkall]
    simp
  have hklen : (0 : ℚ) < kept.length := by exact_mod_cast List.length_pos_of_ne_nil hkne
  rw [hT', hsum]
  field_simp

theorem tDelta_wave (N : ℕ) (hN : 2 ≤ N) (δ : ℚ) (r : Sent) (rs : List Wave) : tDelta (r.wave N δ :: rs) = .ok δ := by
  unfold tDelta Sent.wave
  have h1 : ((List.range N).map fun i : ℕ => r.t0 + i * δ).head? = some (r.t0 + (0 : ℕ) * δ) := by
    rw [List.head?_map, List.head?_range, if_neg (by omega)]
    rfl
  have h2 : ((List.range N).map fun i : ℕ => r.t0 + i * δ).getLast? = some (r.t0 + (N - 1 : ℕ) * δ) := by
    rw [List.getLast?_map, List.getLast?_range, if_neg (by omega)]
    rfl
  simp only [h1, h2, List.length_map, List.length_range]
  rw [if_neg (by omega)]
  congr 1
  have : ((N - 1 : ℕ) : ℚ) ≠ 0 := by exact_mod_cast (by omega : N - 1 ≠ 0)
  field_simp
  push_cast
  ring

/-! ### C70 -/

/-- The directions that `calculate` finds with a regular clock in open eyes. -/
theorem open_dirs (s : Settings) (m : Level ℚ × Level ℚ) (given : Option (List (List (Option ℚ)))) (clocks : Option (List Wave))
    (cdr : List (Option ℚ) → Except PyErr (List (Option ℚ))) (mask : Option MaskFn) (rs : List Sent) (N : ℕ) (T δ : ℚ)
    (hT : 0 < T) (hδ : 0 < δ) (hN : 2 ≤ N) (hlen : ∀ r ∈ rs, r.y.length = N) (htwo : ∃ r ∈ rs, 2 ≤ r.n)
    (he : clockEdges given clocks (rs.map (Sent.wave N δ)) (levels s.level m) s.polarity cdr s.period =
      .ok (rs.map fun r => (r.clock T).map some))
    (hskip : s.skip = false) (hr : 0 < s.resolution) (hl : Drawable s.resolution s.edgeLower) (hu : Drawable s.resolution s.edgeUpper)
    (hm : MaskOk mask s.level T δ (rs.map (·.y))) (hw : decisionWidth s.levelWidth T δ < 1)
    (ho : ∀ r ∈ rs, r.Open N T δ (levels s.level m).half (decisionWidth s.levelWidth T δ)) :
    ∃ (a : Analysis) (v : List VOut), calculateAll s m given clocks cdr mask (rs.map (Sent.wave N δ)) = .ok a ∧ a.tSym = T ∧ a.v = some v ∧
      v.map (·.edgeDir) = rs.map fun r => ((List.range r.n).filter fun k : ℕ => (sampleEdge T δ r.t0 N (r.b + k * T)).isSome).map
        fun k : ℕ => dir (r.sym (k - 1)) (r.sym k) := by
  have hne : rs ≠ [] := by rintro rfl; simp at htwo
  have hwave : ∀ r : Sent, (r.wave N δ).1.headD 0 = r.t0 ∧ (r.wave N δ).1 ≠ [] := by
    intro r
    unfold Sent.wave
    obtain ⟨M, rfl⟩ : ∃ M, N = M + 1 := ⟨N - 1, by omega⟩
    rw [List.range_succ_eq_map]
    simp
  obtain ⟨a, h1, h2, h3, h4⟩ := calculate_ok s m given clocks cdr mask (rs.map (Sent.wave N δ)) (rs.map (Sent.clock T)) T δ
    (by rw [he, List.map_map]; rfl) (by
      obtain ⟨r, rs', rfl⟩ := List.exists_cons_of_ne_nil hne
      exact tDelta_wave N hN δ r _) hδ (period_regular T hT rs htwo) hT (by
      intro w hw
      obtain ⟨r, -, rfl⟩ := List.mem_map.1 hw
      exact (hwave r).2) (drawGrid_ok s hr hl hu) (by rw [List.map_map]; exact hm)
  rw [hskip] at h4
  simp only [Bool.false_eq_true, if_false] at h4
  obtain ⟨hv, hd⟩ := h4
  obtain ⟨v, hv⟩ := Option.ne_none_iff_exists'.1 hv
  refine ⟨a, v, h1, h2, hv, ?_⟩
  rw [hv, Option.getD_some] at hd
  rw [hd, List.zip_map', List.map_map, List.map_map]
  apply List.map_congr_left
  intro r hr'
  simp only [Function.comp, (hwave r).1]
  have hy : (r.wave N δ).2 = r.y := rfl
  rw [hy]
  have := dirs_open r T δ (levels s.level m).half s.levelWidth hT hδ hw (by rw [hlen r hr']; exact ho r hr')
  rw [this, hlen r hr']

/-- C70, NRZM: with a regular clock and open eyes, `calculate` completes, and the bits are those that were sent: 1 for a change.  The bits are those
of a range of symbols with all those whose two symbols' surroundings are in the record, and none whose are not. -/
theorem C70_nrzm (s : Settings) (m : Level ℚ × Level ℚ) (given : Option (List (List (Option ℚ)))) (clocks : Option (List Wave))
    (cdr : List (Option ℚ) → Except PyErr (List (Option ℚ))) (mask : Option MaskFn) (rs : List Sent) (N : ℕ) (T δ : ℚ)
    (hT : 0 < T) (hδ : 0 < δ) (hN : 2 ≤ N) (hlen : ∀ r ∈ rs, r.y.length = N) (htwo : ∃ r ∈ rs, 2 ≤ r.n)
    (he : clockEdges given clocks (rs.map (Sent.wave N δ)) (levels s.level m) s.polarity cdr s.period =
      .ok (rs.map fun r => (r.clock T).map some))
    (hskip : s.skip = false) (hr : 0 < s.resolution) (hl : Drawable s.resolution s.edgeLower) (hu : Drawable s.resolution s.edgeUpper)
    (hm : MaskOk mask s.level T δ (rs.map (·.y))) (hw : decisionWidth s.levelWidth T δ < 1)
    (ho : ∀ r ∈ rs, r.Open N T δ (levels s.level m).half (decisionWidth s.levelWidth T δ)) :
    ∃ (a : Analysis) (start count : Sent → ℕ), calculateAll s m given clocks cdr mask (rs.map (Sent.wave N δ)) = .ok a ∧ a.tSym = T ∧
      bits a true = .ok (rs.map fun r => (List.range' (start r) (count r)).map fun k : ℕ => if r.sym (k - 1) = r.sym k then 0 else 1) ∧
      ∀ r ∈ rs, start r + count r ≤ r.n ∧
        (∀ k < r.n, r.t0 + T + 4 * δ ≤ r.b + k * T → r.b + k * T ≤ r.t0 + (N - 1) * δ - T - 3 * δ → start r ≤ k ∧ k < start r + count r) ∧
        (∀ k, start r ≤ k → k < start r + count r → r.t0 + T + δ < r.b + k * T ∧ r.b + k * T < r.t0 + (N - 1) * δ - T) := by
  obtain ⟨a, v, h1, h2, h3, h4⟩ := open_dirs s m given clocks cdr mask rs N T δ hT hδ hN hlen htwo he hskip hr hl hu hm hw ho
  choose start count hsum hrange hin hout using fun r : Sent => kept_range T δ r.t0 r.b hT hδ N r.n
  refine ⟨a, start, count, h1, h2, ?_, fun r _ => ⟨hsum r, hin r, hout r⟩⟩
  unfold bits bitStream
  rw [h3]
  simp only [Bool.not_true, Bool.false_eq_true, if_false, Option.map_some, if_true]
  rw [h4, List.map_map]
  congr 1
  apply List.map_congr_left
  intro r _
  simp only [Function.comp, hrange r]
  unfold bitsM
  rw [List.map_map]
  apply List.map_congr_left
  intro k _
  simp only [Function.comp]
  cases r.sym (k - 1) <;> cases r.sym k <;> simp [dir]

/-- The levels decoded from the directions between symbols that follow each other. -/
theorem bitsL_sent (sym : ℤ → Bool) (i0 c0 : ℕ) :
    bitsL ((List.range' i0 c0).map fun k : ℕ => dir (sym ((k : ℤ) - 1)) (sym k)) = (List.range' i0 c0).map fun k : ℕ =>
      if (∀ i ∈ List.range' i0 c0, sym ((i : ℤ) - 1) = true ∧ sym i = true) then 0 else if sym k then 1 else 0 := by
  have hchain : ∀ i c : ℕ, (List.range' i c).IsChain fun x y : ℕ => sym x = sym ((y : ℤ) - 1) := by
    intro i c
    induction c generalizing i with
    | zero => simp
    | succ c ih =>
      rw [List.range'_succ]
      cases c with
      | zero => simp
      | succ c =>
        have := ih (i + 1)
        rw [List.range'_succ] at this ⊢
        rw [List.isChain_cons_cons]
        exact ⟨by push_cast; simp, this⟩
  by_cases hall : ∀ i ∈ List.range' i0 c0, sym ((i : ℤ) - 1) = true ∧ sym i = true
  · simp only [if_pos hall]
    have hz : ∀ i ∈ List.range' i0 c0, dir (sym ((i : ℤ) - 1)) (sym i) = 0 := by
      intro i hi
      rw [(hall i hi).1, (hall i hi).2]
      rfl
    have hn : ((List.range' i0 c0).map fun k : ℕ => dir (sym ((k : ℤ) - 1)) (sym k)).filter (· ≠ 0) = [] := by
      rw [List.filter_eq_nil_iff]
      intro d hd
      obtain ⟨c, hc, rfl⟩ := List.mem_map.1 hd
      simp [hz c hc]
    unfold bitsL
    simp only
    rw [hn, if_pos (Or.inl List.length_nil), bitsFrom_const _ _ _ hz]
  · simp only [if_neg hall]
    rw [bitsL_eq (fun k : ℕ => sym ((k : ℤ) - 1)) (fun k : ℕ => sym k) _ (hchain i0 c0)]
    · rfl
    · by_contra hc
      push Not at hc
      obtain ⟨hc1, x, hx, hx2⟩ := hc
      have hx1 : sym x = true := by simpa using hx2
      apply hall
      -- no change: all are as `x`
      have hconst : ∀ i ∈ List.range' i0 c0, sym i = sym i0 := by
        intro i hi
        rw [List.mem_range'_1] at hi
        obtain ⟨d, rfl⟩ := Nat.exists_eq_add_of_le hi.1
        induction d with
        | zero => rfl
        | succ d ih =>
          rw [← ih (by omega)]
          have := hc1 (i0 + (d + 1)) (by rw [List.mem_range'_1]; omega)
          rw [← this]
          congr 1
          push_cast
          ring
      intro i hi
      have e : sym i = true := by rw [hconst i hi, ← hconst x hx, hx1]
      exact ⟨by rw [hc1 i hi, e], e⟩

/-- C70, NRZL: the same for the levels, except that a record with only ones is decoded as zeros (`C46_constant_fails`). -/
theorem C70_nrzl_partial (s : Settings) (m : Level ℚ × Level ℚ) (given : Option (List (List (Option ℚ)))) (clocks : Option (List Wave))
    (cdr : List (Option ℚ) → Except PyErr (List (Option ℚ))) (mask : Option MaskFn) (rs : List Sent) (N : ℕ) (T δ : ℚ)
    (hT : 0 < T) (hδ : 0 < δ) (hN : 2 ≤ N) (hlen : ∀ r ∈ rs, r.y.length = N) (htwo : ∃ r ∈ rs, 2 ≤ r.n)
    (he : clockEdges given clocks (rs.map (Sent.wave N δ)) (levels s.level m) s.polarity cdr s.period =
      .ok (rs.map fun r => (r.clock T).map some))
    (hskip : s.skip = false) (hr : 0 < s.resolution) (hl : Drawable s.resolution s.edgeLower) (hu : Drawable s.resolution s.edgeUpper)
    (hm : MaskOk mask s.level T δ (rs.map (·.y))) (hw : decisionWidth s.levelWidth T δ < 1)
    (ho : ∀ r ∈ rs, r.Open N T δ (levels s.level m).half (decisionWidth s.levelWidth T δ)) :
    ∃ (a : Analysis) (start count : Sent → ℕ), calculateAll s m given clocks cdr mask (rs.map (Sent.wave N δ)) = .ok a ∧ a.tSym = T ∧
      bits a false = .ok (rs.map fun r => (List.range' (start r) (count r)).map fun k : ℕ =>
        if (∀ i ∈ List.range' (start r) (count r), r.sym (i - 1) = true ∧ r.sym i = true) then 0 else if r.sym k then 1 else 0) ∧
      ∀ r ∈ rs, start r + count r ≤ r.n ∧
        (∀ k < r.n, r.t0 + T + 4 * δ ≤ r.b + k * T → r.b + k * T ≤ r.t0 + (N - 1) * δ - T - 3 * δ → start r ≤ k ∧ k < start r + count r) ∧
        (∀ k, start r ≤ k → k < start r + count r → r.t0 + T + δ < r.b + k * T ∧ r.b + k * T < r.t0 + (N - 1) * δ - T) := by
  obtain ⟨a, v, h1, h2, h3, h4⟩ := open_dirs s m given clocks cdr mask rs N T δ hT hδ hN hlen htwo he hskip hr hl hu hm hw ho
  choose start count hsum hrange hin hout using fun r : Sent => kept_range T δ r.t0 r.b hT hδ N r.n
  refine ⟨a, start, count, h1, h2, ?_, fun r _ => ⟨hsum r, hin r, hout r⟩⟩
  unfold bits bitStream
  rw [h3]
  simp only [Bool.not_true, Bool.false_eq_true, if_false, Option.map_some]
  rw [h4, List.map_map]
  congr 1
  apply List.map_congr_left
  intro r _
  simp only [Function.comp, hrange r]
  exact bitsL_sent r.sym _ _

/-- Symbols of four samples, zero and one in turn. -/
def exSent : Sent := ⟨0, exWave.2, 11 / 2, 8, fun k => k % 2 == 0⟩

/-- The hypotheses of C70 are met. -/
example : ∃ (a : Analysis) (start count : Sent → ℕ),
    calculateAll (exSettings (4 / 5)) (⟨0, 0⟩, ⟨0, 0⟩) (some [(exSent.clock 4).map some]) none (fun _ => .ok []) none [exSent.wave 40 1] = .ok a ∧ a.tSym = 4 ∧
    bits a true = .ok [(List.range' (start exSent) (count exSent)).map fun k : ℕ => if exSent.sym (k - 1) = exSent.sym k then 0 else 1] ∧
    start exSent + count exSent ≤ 8 ∧ start exSent ≤ 1 ∧ 6 < start exSent + count exSent := by
  obtain ⟨a, start, count, h1, h2, h3, h4⟩ := C70_nrzm (exSettings (4 / 5)) (⟨0, 0⟩, ⟨0, 0⟩) (some [(exSent.clock 4).map some]) none (fun _ => .ok []) none
    [exSent] 40 4 1 (by norm_num) (by norm_num) (by norm_num) (by
      intro r hr
      obtain rfl := List.mem_singleton.1 hr
      decide +kernel) ⟨exSent, by simp, by decide⟩ rfl rfl (by decide) (by unfold Drawable; decide +kernel) (by unfold Drawable; decide +kernel)
    (by intro f hf; cases hf) (by decide +kernel) (by
      intro r hr
      obtain rfl := List.mem_singleton.1 hr
      intro j hj k hk1 hk2
      obtain ⟨i, hi⟩ := Int.eq_ofNat_of_zero_le (by omega : 0 ≤ k + 1)
      obtain rfl : k = (i : ℤ) - 1 := by omega
      have hi8 : i < 9 := by
        have : exSent.n = 8 := rfl
        omega
      have key : ∀ j < 40, ∀ i < 9, |exSent.t0 + (j : ℕ) * 1 - (exSent.b + (((i : ℕ) : ℤ) - 1 : ℤ) * 4)| ≤
          decisionWidth (exSettings (4 / 5)).levelWidth 4 1 * 4 / 2 + 1 / 2 →
          ((levels (exSettings (4 / 5)).level (⟨0, 0⟩, ⟨0, 0⟩)).half < exSent.y.getD j 0 ↔ exSent.sym ((i : ℤ) - 1) = true) := by decide +kernel
      exact key j hj i hi8)
  obtain ⟨g1, g2, -⟩ := h4 exSent (by simp)
  have k1 := g2 1 (by decide) (by norm_num [exSent]) (by norm_num [exSent])
  have k2 := g2 6 (by decide) (by norm_num [exSent]) (by norm_num [exSent])
  exact ⟨a, start, count, h1, h2, h3, g1, k1.1, k2.2⟩

end Verif.Props.OpenEye
