import Verif.Props.NoisyLevels

/-!
C97: the measured times are as good as the edges.  If the samples at the crossing level are within `ε` of the boundaries between the symbols of a
regular clock, then `calculate` measures the crossing time, the duration of a symbol, the eye width and the jitter to within `ε` and half a sample.
-/

namespace Verif.Props.EdgeJitter

open Verif Verif.Lines Verif.Eye Verif.Stats Verif.Pam2 Verif.Pipeline Verif.Props.EyeWindow Verif.Props.EyeMask Verif.Props.EyeImage
  Verif.Props.Pam2Vertical Verif.Props.Pam2Horizontal Verif.Props.Pam2Bits Verif.Props.Pipeline Verif.Props.OpenEye Verif.Props.Pam2Measures
  Verif.Props.Pam2Ratios Verif.Props.NoisyLevels

/-! ### Specification -/

/-- The samples in view of a clock edge (up to a symbol and half a sample away) whose values are no farther than `h` from the level `c` are within `ε`
of one of the two boundaries of its symbol. -/
def Steep (N : ℕ) (T δ c h ε : ℚ) (r : Sent) : Prop :=
  ∀ j < N, ∀ k < r.n, |r.t0 + j * δ - (r.b + k * T)| ≤ T + δ / 2 → |r.y.getD j 0 - c| ≤ h →
    |r.t0 + j * δ - (r.b + (k - 1 / 2) * T)| ≤ ε ∨ |r.t0 + j * δ - (r.b + (k + 1 / 2) * T)| ≤ ε

/-- A sample within `ε` of the time `x` (in symbols from the first clock edge) is no farther than `h` from the level `c`. -/
def Crossed (N : ℕ) (T δ c h ε : ℚ) (r : Sent) (x : ℚ) : Prop := ∃ j < N, |r.t0 + j * δ - (r.b + x * T)| ≤ ε ∧ |r.y.getD j 0 - c| ≤ h

/-- The clock edge `k` is far enough from the ends of the record. -/
def InView (N : ℕ) (T δ : ℚ) (r : Sent) (k : ℕ) : Prop :=
  r.t0 + T + 4 * δ ≤ r.b + k * T ∧ r.b + k * T ≤ r.t0 + (N - 1) * δ - T - 3 * δ

/-- The times are not nan. -/
def Known (m : HMeasures) : Prop :=
  m.tCross ≠ none ∧ m.tSym ≠ none ∧ m.width ≠ none ∧ m.widthR.value ≠ none ∧ m.fSym.value ≠ none ∧ m.jitterPp ≠ none ∧ m.jitterRms ≠ none

/-- The horizontal measures are those of crossings at 0 and `T`, up to `E`. -/
structure Times (T E : ℝ) (m : HMeasures) : Prop where
  cross : AtLevel 0 E m.tCross
  sym : Amplitude T E m.tSym
  width : ∀ u, m.width = some u → T - 8 * E ≤ u.value ∧ u.value ≤ T + 2 * E
  widthR : ∀ r, m.widthR.value = some r → (1 - r) * (T - 2 * E) ≤ 6 * E ∧ r ≤ 1
  freq : ∀ f, m.fSym.value = some f → f * (T - 2 * E) ≤ 1 ∧ 1 ≤ f * (T + 2 * E)
  jitterPp : ∀ p, m.jitterPp = some p → 0 ≤ p ∧ p ≤ 2 * E
  jitterRms : ∀ p, m.jitterRms = some p → 0 ≤ p ∧ p ≤ E

/-! ### The measures -/

/-- The measures of crossing times near 0 and 1 (in symbols). -/
theorem times_near (T E : ℚ) (hT : 0 < T) (hE : 2 * E < T) (o : List HOut) (hl : ∀ t ∈ o.flatMap (·.crossLeft), |t * T| ≤ E)
    (hr : ∀ t ∈ o.flatMap (·.crossRight), |t * T - T| ≤ E) : Times T E (hMeasures T o) := by
  have hT' : (0 : ℝ) < T := by exact_mod_cast hT
  have hE' : 2 * (E : ℝ) < T := by exact_mod_cast hE
  have L : AtLevel 0 E (ofSamples ((o.flatMap (·.crossLeft)).map fun t : ℚ => t * T)) := by
    have := level_near 0 E ((o.flatMap (·.crossLeft)).map fun t : ℚ => t * T) (by
      intro y hy
      obtain ⟨t, ht, rfl⟩ := List.mem_map.1 hy
      rw [sub_zero]
      exact hl t ht)
    rwa [Rat.cast_zero] at this
  have R : AtLevel T E (ofSamples ((o.flatMap (·.crossRight)).map fun t : ℚ => t * T)) := level_near T E _ (by
      intro y hy
      obtain ⟨t, ht, rfl⟩ := List.mem_map.1 hy
      exact hr t ht)
  have A : Amplitude T E (hMeasures T o).tSym := by
    have := amplitude_sub 0 T E _ _ R L
    rwa [sub_zero] at this
  have hw : ∀ u, (hMeasures T o).width = some u → ∃ a b, ofSamples ((o.flatMap (·.crossRight)).map fun t : ℚ => t * T) = some a ∧
      ofSamples ((o.flatMap (·.crossLeft)).map fun t : ℚ => t * T) = some b ∧ u = opening a b := by
    intro u hu
    change both opening (ofSamples _) (ofSamples _) = some u at hu
    cases k1 : ofSamples ((o.flatMap (·.crossRight)).map fun t : ℚ => t * T) with
    | none => rw [k1] at hu; cases hu
    | some a =>
      cases k0 : ofSamples ((o.flatMap (·.crossLeft)).map fun t : ℚ => t * T) with
      | none => rw [k1, k0] at hu; cases hu
      | some b =>
        rw [k1, k0] at hu
        exact ⟨a, b, rfl, rfl, (Option.some.inj hu).symm⟩
  refine ⟨L, A, ?_, ?_, ?_, ?_, ?_⟩
  · intro u hu
    obtain ⟨a, b, ha, hb, rfl⟩ := hw u hu
    have := opening_near 0 T E a b _ (ha ▸ R) (hb ▸ L) rfl
    rwa [sub_zero] at this
  · intro r hr'
    change (bothDiv (hMeasures T o).width (hMeasures T o).tSym).value = some r at hr'
    cases kw : (hMeasures T o).width with
    | none => rw [kw] at hr'; cases hr'
    | some w =>
      obtain ⟨a, b, ha, hb, rfl⟩ := hw w kw
      have kt : (hMeasures T o).tSym = some (a.sub b) := by
        show both UV.sub (ofSamples _) (ofSamples _) = _
        rw [ha, hb]
        rfl
      rw [kw, kt] at hr'
      change npDiv (opening a b).value (a.sub b).value = some r at hr'
      obtain ⟨a1, a2, a3⟩ := R a ha
      obtain ⟨b1, b2, b3⟩ := L b hb
      rw [abs_le] at a1 b1
      have hpos : 0 < (a.sub b).value := by simp only [UV.sub]; linarith
      unfold npDiv at hr'
      rw [if_neg hpos.ne'] at hr'
      obtain rfl := Option.some.inj hr'
      have ho : (opening a b).value = (a.sub b).value - 3 * (a.stddev + b.stddev) := by
        simp only [opening, UV.sub, UV.subC, UV.addC]
        ring
      have hle : (opening a b).value / (a.sub b).value ≤ 1 := by
        rw [div_le_one hpos, ho]
        linarith
      refine ⟨?_, hle⟩
      have e1 : (1 - (opening a b).value / (a.sub b).value) * (a.sub b).value = 3 * (a.stddev + b.stddev) := by
        rw [sub_mul, div_mul_cancel₀ _ hpos.ne', ho]
        ring
      have e2 : (T : ℝ) - 2 * E ≤ (a.sub b).value := by simp only [UV.sub]; linarith
      nlinarith
  · intro f hf
    change (bothDiv (some ⟨1, 0⟩) (hMeasures T o).tSym).value = some f at hf
    cases kt : (hMeasures T o).tSym with
    | none => rw [kt] at hf; cases hf
    | some t =>
      rw [kt] at hf
      change npDiv 1 t.value = some f at hf
      obtain ⟨a1, -, -⟩ := A t kt
      rw [abs_le] at a1
      have hpos : 0 < t.value := by linarith
      unfold npDiv at hf
      rw [if_neg hpos.ne'] at hf
      obtain rfl := Option.some.inj hf
      rw [one_div_mul_eq_div, one_div_mul_eq_div]
      exact ⟨(div_le_one hpos).2 (by linarith), (one_le_div hpos).2 (by linarith)⟩
  · intro p hp
    obtain ⟨⟨a, b, ha, hb, rfl⟩, -, r, -, h1, h2⟩ := C63_jitter T o p hp
    refine ⟨by linarith, ?_⟩
    obtain ⟨x, hx, rfl⟩ := List.mem_map.1 ha
    obtain ⟨y, hy, rfl⟩ := List.mem_map.1 hb
    have i1 := abs_le.1 (hl x hx)
    have i2 := abs_le.1 (hl y hy)
    have : y * T - x * T ≤ 2 * E := by linarith [i1.1, i2.2]
    exact_mod_cast this
  · intro p hp
    change (ofSamples ((o.flatMap (·.crossLeft)).map fun t : ℚ => t * T)).map (·.stddev) = some p at hp
    cases k : ofSamples ((o.flatMap (·.crossLeft)).map fun t : ℚ => t * T) with
    | none => rw [k] at hp; cases hp
    | some u =>
      rw [k] at hp
      obtain rfl := Option.some.inj hp
      exact (L u k).2

theorem known_of (T E : ℚ) (hE : 2 * E < T) (o : List HOut) (ht : Times T E (hMeasures T o)) (hl : o.flatMap (·.crossLeft) ≠ [])
    (hr : o.flatMap (·.crossRight) ≠ []) : Known (hMeasures T o) := by
  obtain ⟨a, ha, -⟩ := (describes_iff ((o.flatMap (·.crossLeft)).map fun t : ℚ => t * T)).2 (by simpa using hl)
  obtain ⟨b, hb, -⟩ := (describes_iff ((o.flatMap (·.crossRight)).map fun t : ℚ => t * T)).2 (by simpa using hr)
  have k1 : (hMeasures T o).tCross = some a := ha
  have k2 : (hMeasures T o).tSym = some (b.sub a) := by
    show both UV.sub (ofSamples _) (ofSamples _) = _
    rw [ha, hb]
    rfl
  have k3 : (hMeasures T o).width = some (opening b a) := by
    show both opening (ofSamples _) (ofSamples _) = _
    rw [ha, hb]
    rfl
  have h0 : (b.sub a).value ≠ 0 := by
    have := (abs_le.1 (ht.sym _ k2).1).1
    intro h
    have hE' : 2 * (E : ℝ) < T := by exact_mod_cast hE
    rw [h] at this
    linarith
  refine ⟨by rw [k1]; simp, by rw [k2]; simp, by rw [k3]; simp, ?_, ?_, ?_, ?_⟩
  · show (bothDiv (hMeasures T o).width (hMeasures T o).tSym).value ≠ none
    rw [k2, k3]
    show npDiv _ _ ≠ none
    unfold npDiv
    rw [if_neg h0]
    simp
  · show (bothDiv (some ⟨1, 0⟩) (hMeasures T o).tSym).value ≠ none
    rw [k2]
    show npDiv _ _ ≠ none
    unfold npDiv
    rw [if_neg h0]
    simp
  · show ptp ((o.flatMap (·.crossLeft)).map fun t : ℚ => ((t * T : ℚ) : ℝ)) ≠ none
    obtain ⟨x, l, hx⟩ := List.exists_cons_of_ne_nil hl
    rw [hx, List.map_cons]
    unfold ptp
    simp
  · show (ofSamples ((o.flatMap (·.crossLeft)).map fun t : ℚ => t * T)).map (·.stddev) ≠ none
    rw [ha]
    simp

/-! ### One record -/

theorem mem_around (ys : List ℚ) (T δ : ℚ) (hT : 0 < T) (hδ : 0 < δ) (c : Center) (hc : Inside T δ ys.length c) (p : ℚ × ℚ)
    (hp : p ∈ around ys T δ c) : ∃ j < ys.length, p = (1 / 2 + (((j : ℚ) - c.i) * δ + c.t) / T, ys.getD j 0) := by
  obtain ⟨h1, h2⟩ := hc
  rw [halfWidth_eq T δ hT hδ] at h1 h2
  obtain ⟨k, hk, rfl⟩ := List.mem_map.1 hp
  rw [List.mem_range] at hk
  exact ⟨c.i.toNat - halfWidth T δ + k, by omega, rfl⟩

/-- The samples at the crossing level of a sampled symbol. -/
theorem cross_steep (r : Sent) (T δ cl h ε : ℚ) (hT : 0 < T) (hδ : 0 < δ) (hE : 2 * (ε + δ / 2) < T) (hs : Steep r.y.length T δ cl h ε r) (k : ℕ)
    (hk : k < r.n) (c : Center) (hc : sampleEdge T δ r.t0 r.y.length (r.b + k * T) = some c) (p : ℚ × ℚ) (hp : p ∈ around r.y T δ c)
    (hy : |p.2 - cl| ≤ h) :
    (-1 / 2 ≤ p.1 → p.1 ≤ 1 / 2 → |p.1 * T| ≤ ε + δ / 2) ∧ (1 / 2 < p.1 → p.1 ≤ 3 / 2 → |p.1 * T - T| ≤ ε + δ / 2) := by
  obtain ⟨he, hi, -, -⟩ := sample_error T δ r.t0 _ hT hδ _ c hc
  obtain ⟨j, hj, rfl⟩ := mem_around r.y T δ hT hδ c hi p hp
  simp only at hy ⊢
  have e1 : r.t0 + j * δ - (r.b + k * T) = (1 / 2 + (((j : ℚ) - c.i) * δ + c.t) / T) * T - T / 2 + (r.t0 + c.i * δ - c.t - (r.b + k * T)) := by
    field_simp
    ring
  generalize 1 / 2 + (((j : ℚ) - c.i) * δ + c.t) / T = t at *
  generalize hg : r.t0 + c.i * δ - c.t - (r.b + k * T) = err at *
  rw [abs_le] at he
  have hsj := hs j hj k hk
  have e2 : r.t0 + j * δ - (r.b + (k - 1 / 2) * T) = t * T + err := by linarith
  have e3 : r.t0 + j * δ - (r.b + (k + 1 / 2) * T) = t * T - T + err := by linarith
  rw [e1, e2, e3] at hsj
  constructor
  · intro t1 t2
    have u1 : -1 / 2 * T ≤ t * T := mul_le_mul_of_nonneg_right t1 hT.le
    have u2 : t * T ≤ 1 / 2 * T := mul_le_mul_of_nonneg_right t2 hT.le
    rcases hsj (by rw [abs_le]; constructor <;> linarith) hy with h | h
    · rw [abs_le] at h ⊢
      constructor <;> linarith
    · rw [abs_le] at h
      linarith
  · intro t1 t2
    have u1 : 1 / 2 * T < t * T := mul_lt_mul_of_pos_right t1 hT
    have u2 : t * T ≤ 3 / 2 * T := mul_le_mul_of_nonneg_right t2 hT.le
    rcases hsj (by rw [abs_le]; constructor <;> linarith) hy with h | h
    · rw [abs_le] at h
      linarith
    · rw [abs_le] at h ⊢
      constructor <;> linarith

/-- The crossing times of a record. -/
theorem horizontal_steep (r : Sent) (T δ z u ε height lower upper : ℚ) (hT : 0 < T) (hδ : 0 < δ) (hu : u ≠ 0) (hE : 2 * (ε + δ / 2) < T)
    (cross : Option ℚ) (hs : ∀ c, cross = some c → Steep r.y.length T δ c (height / 2 * |u|) ε r) (dirs : List ℤ)
    (hd : dirs.length = (sampleEdges T δ r.t0 r.y.length (r.clock T)).length) (o : HOut)
    (ho : sampleHorizontal r.y (sampleEdges T δ r.t0 r.y.length (r.clock T)) dirs δ T z u cross height lower upper = .ok o) :
    (∀ t ∈ o.crossLeft, |t * T| ≤ ε + δ / 2) ∧ ∀ t ∈ o.crossRight, |t * T - T| ≤ ε + δ / 2 := by
  have hin : ∀ c ∈ sampleEdges T δ r.t0 r.y.length (r.clock T), Inside T δ r.y.length c := fun c hc => (sampled_ok T δ _ hδ _ _ c hc).1
  obtain ⟨v, lo, hi, h1, -, -, -, -, -, -, -, h2, h3⟩ := C45_samples r.y ((sampleEdges T δ r.t0 r.y.length (r.clock T)).zip dirs) T δ z u cross height
    lower upper hT hδ (fun s hs => hin s.1 (List.of_mem_zip hs).1)
  rw [List.map_fst_zip hd.ge, List.map_snd_zip hd.le, ho] at h1
  obtain rfl := Except.ok.inj h1
  cases cross with
  | none =>
    obtain ⟨e1, e2⟩ := h3 rfl
    rw [e1, e2]
    simp
  | some cl =>
    obtain ⟨e1, e2⟩ := h2 cl rfl
    have key : ∀ c ∈ sampleEdges T δ r.t0 r.y.length (r.clock T), ∀ t ∈ timesAt (scaledAround r.y T δ z u c) ((cl - z) / u) height,
        (-1 / 2 ≤ t → t ≤ 1 / 2 → |t * T| ≤ ε + δ / 2) ∧ (1 / 2 < t → t ≤ 3 / 2 → |t * T - T| ≤ ε + δ / 2) := by
      intro c hc t ht
      obtain ⟨k, -, hk, hce⟩ := mem_centers T δ _ r c hc
      unfold timesAt at ht
      obtain ⟨q, hq, rfl⟩ := List.mem_map.1 ht
      obtain ⟨hq1, hq2⟩ := List.mem_filter.1 hq
      unfold scaledAround at hq1
      obtain ⟨p, hp, rfl⟩ := List.mem_map.1 hq1
      apply cross_steep r T δ cl (height / 2 * |u|) ε hT hδ hE (hs cl rfl) k hk c hce p hp
      have hq3 := of_decide_eq_true hq2
      simp only at hq3
      rw [← sub_div, abs_div, div_le_iff₀ (abs_pos.2 hu), show p.2 - z - (cl - z) = p.2 - cl by ring] at hq3
      exact hq3
    constructor
    · intro t ht
      rw [e1] at ht
      obtain ⟨s', hs', ht⟩ := List.mem_flatMap.1 ht
      obtain ⟨t1, t2⟩ := List.mem_filter.1 ht
      have t3 := of_decide_eq_true t2
      exact (key s'.1 (List.of_mem_zip hs').1 t t1).1 t3.1 t3.2
    · intro t ht
      rw [e2] at ht
      obtain ⟨s', hs', ht⟩ := List.mem_flatMap.1 ht
      obtain ⟨t1, t2⟩ := List.mem_filter.1 ht
      have t3 := of_decide_eq_true t2
      exact (key s'.1 (List.of_mem_zip hs').1 t t1).2 t3.1 t3.2

theorem around_mem (ys : List ℚ) (T δ : ℚ) (hT : 0 < T) (hδ : 0 < δ) (c : Center) (hc : Inside T δ ys.length c) (h0 : -δ < c.t) (h1 : c.t ≤ 0) (j : ℕ)
    (hj : |((j : ℚ) - c.i) * δ + c.t| < T) : (1 / 2 + (((j : ℚ) - c.i) * δ + c.t) / T, ys.getD j 0) ∈ around ys T δ c := by
  obtain ⟨i1, i2⟩ := hc
  rw [halfWidth_eq T δ hT hδ] at i1 i2
  have hfl : (T / δ + 1 / 2) - 1 < (⌊T / δ + 1 / 2⌋ : ℚ) := Int.sub_one_lt_floor _
  have hfl0 : 0 ≤ ⌊T / δ + 1 / 2⌋ := Int.floor_nonneg.2 (by have := div_pos hT hδ; linarith)
  have hhw : ((halfWidth T δ : ℕ) : ℚ) = (⌊T / δ + 1 / 2⌋ : ℚ) + 2 := by
    unfold halfWidth
    push_cast
    rw [← Int.cast_natCast, Int.toNat_of_nonneg hfl0]
  rw [abs_lt] at hj
  have hT' : T = T / δ * δ := (div_mul_cancel₀ _ hδ.ne').symm
  have hp : 0 < (halfWidth T δ : ℚ) - T / δ - 1 := by rw [hhw]; linarith
  have k1 : (j : ℚ) - c.i < halfWidth T δ := by
    have : ((j : ℚ) - c.i) * δ < halfWidth T δ * δ := by nlinarith
    exact lt_of_mul_lt_mul_right this hδ.le
  have k2 : -(halfWidth T δ : ℚ) < (j : ℚ) - c.i := by
    have : -(halfWidth T δ : ℚ) * δ < ((j : ℚ) - c.i) * δ := by nlinarith
    exact lt_of_mul_lt_mul_right this hδ.le
  have k1' : (j : ℤ) - c.i < halfWidth T δ := by exact_mod_cast k1
  have k2' : -(halfWidth T δ : ℤ) < (j : ℤ) - c.i := by exact_mod_cast k2
  refine List.mem_map.2 ⟨j - (c.i.toNat - halfWidth T δ), List.mem_range.2 (by omega), ?_⟩
  simp only
  rw [show c.i.toNat - halfWidth T δ + (j - (c.i.toNat - halfWidth T δ)) = j by omega]

/-- A sample at the crossing level at a boundary of a symbol in view is one of the crossing times. -/
theorem horizontal_crossed (r : Sent) (T δ z u ε height lower upper cl : ℚ) (hT : 0 < T) (hδ : 0 < δ) (hu : u ≠ 0) (hE : 2 * (ε + δ / 2) < T)
    (dirs : List ℤ) (hd : dirs.length = (sampleEdges T δ r.t0 r.y.length (r.clock T)).length) (o : HOut)
    (ho : sampleHorizontal r.y (sampleEdges T δ r.t0 r.y.length (r.clock T)) dirs δ T z u (some cl) height lower upper = .ok o) (k : ℕ) (hk : k < r.n)
    (hk1 : r.t0 + T + 4 * δ ≤ r.b + k * T) (hk2 : r.b + k * T ≤ r.t0 + (r.y.length - 1) * δ - T - 3 * δ) :
    (Crossed r.y.length T δ cl (height / 2 * |u|) ε r (k - 1 / 2) → o.crossLeft ≠ []) ∧
      (Crossed r.y.length T δ cl (height / 2 * |u|) ε r (k + 1 / 2) → o.crossRight ≠ []) := by
  have hin : ∀ c ∈ sampleEdges T δ r.t0 r.y.length (r.clock T), Inside T δ r.y.length c := fun c hc => (sampled_ok T δ _ hδ _ _ c hc).1
  obtain ⟨v, lo, hi, h1, -, -, -, -, -, -, -, h2, -⟩ := C45_samples r.y ((sampleEdges T δ r.t0 r.y.length (r.clock T)).zip dirs) T δ z u (some cl) height
    lower upper hT hδ (fun s hs => hin s.1 (List.of_mem_zip hs).1)
  rw [List.map_fst_zip hd.ge, List.map_snd_zip hd.le, ho] at h1
  obtain rfl := Except.ok.inj h1
  obtain ⟨e1, e2⟩ := h2 cl rfl
  obtain ⟨st, ct, -, q1, q2, -⟩ := kept_range T δ r.t0 r.b hT hδ r.y.length r.n
  have hmem : k ∈ (List.range r.n).filter fun k : ℕ => (sampleEdge T δ r.t0 r.y.length (r.b + k * T)).isSome := by
    rw [q1, List.mem_range'_1]
    exact q2 k hk hk1 hk2
  obtain ⟨c, hc⟩ := Option.isSome_iff_exists.1 (List.mem_filter.1 hmem).2
  have hcm : c ∈ sampleEdges T δ r.t0 r.y.length (r.clock T) :=
    List.mem_filterMap.2 ⟨r.b + k * T, List.mem_map.2 ⟨k, List.mem_range.2 hk, rfl⟩, hc⟩
  obtain ⟨he, hi', ht0, ht1⟩ := sample_error T δ r.t0 _ hT hδ _ c hc
  obtain ⟨d, hdm⟩ := zip_left _ _ hd.symm c hcm
  rw [abs_le] at he
  have mem : ∀ j : ℕ, |((j : ℚ) - c.i) * δ + c.t| < T → |r.y.getD j 0 - cl| ≤ height / 2 * |u| →
      1 / 2 + (((j : ℚ) - c.i) * δ + c.t) / T ∈ timesAt (scaledAround r.y T δ z u c) ((cl - z) / u) height := by
    intro j hj hy
    unfold timesAt scaledAround
    refine List.mem_map.2 ⟨_, List.mem_filter.2 ⟨List.mem_map.2 ⟨_, around_mem r.y T δ hT hδ c hi' ht0 ht1 j hj, rfl⟩, ?_⟩, rfl⟩
    rw [decide_eq_true_iff]
    simp only
    rw [← sub_div, abs_div, div_le_iff₀ (abs_pos.2 hu), show r.y.getD j 0 - z - (cl - z) = r.y.getD j 0 - cl by ring]
    exact hy
  have tt : ∀ x : ℚ, (1 / 2 + x / T) * T = T / 2 + x := by
    intro x
    field_simp
  constructor
  · rintro ⟨j, -, hj, hy⟩
    rw [abs_le] at hj
    have hb : |((j : ℚ) - c.i) * δ + c.t| < T ∧ -T ≤ ((j : ℚ) - c.i) * δ + c.t ∧ ((j : ℚ) - c.i) * δ + c.t ≤ 0 := by
      refine ⟨abs_lt.2 ⟨?_, ?_⟩, ?_, ?_⟩ <;> nlinarith
    rw [e1]
    refine List.ne_nil_of_mem (List.mem_flatMap.2 ⟨(c, d), hdm, List.mem_filter.2 ⟨mem j hb.1 hy, ?_⟩⟩)
    rw [decide_eq_true_iff]
    have := tt (((j : ℚ) - c.i) * δ + c.t)
    constructor
    · exact le_of_mul_le_mul_right (by rw [this]; linarith) hT
    · exact le_of_mul_le_mul_right (by rw [this]; linarith) hT
  · rintro ⟨j, -, hj, hy⟩
    rw [abs_le] at hj
    have hb : |((j : ℚ) - c.i) * δ + c.t| < T ∧ 0 < ((j : ℚ) - c.i) * δ + c.t ∧ ((j : ℚ) - c.i) * δ + c.t ≤ T := by
      refine ⟨abs_lt.2 ⟨?_, ?_⟩, ?_, ?_⟩ <;> nlinarith
    rw [e2]
    refine List.ne_nil_of_mem (List.mem_flatMap.2 ⟨(c, d), hdm, List.mem_filter.2 ⟨mem j hb.1 hy, ?_⟩⟩)
    rw [decide_eq_true_iff]
    have := tt (((j : ℚ) - c.i) * δ + c.t)
    constructor
    · exact lt_of_mul_lt_mul_right (by rw [this]; linarith) hT.le
    · exact le_of_mul_le_mul_right (by rw [this]; linarith) hT

/-! ### All records -/

theorem finish_h (s : Settings) (mask : Option MaskFn) (T δ : ℚ) (wfs : List Wf) (v : List VOut) (l : Option (Levels ℚ)) (p : Picture)
    (h : finish s mask T δ wfs v l = .ok (some p)) : p.levels.ua ≠ 0 ∧ ((wfs.zip v).mapM fun q =>
      sampleHorizontal q.1.y q.1.centers q.2.edgeDir δ T p.levels.zero p.levels.ua (mean (v.flatMap (·.cross))) s.timeHeight s.edgeLower s.edgeUpper) =
        .ok p.h := by
  unfold finish at h
  split at h
  · unfold noPicture at h
    split at h
    · cases h
    · cases hd : drawGrid s <;> rw [hd] at h <;> cases h
  · rename_i l' hl
    have hl' := (Option.filter_eq_some_iff.1 hl).2
    simp only [bind, Except.bind, pure, Except.pure] at h
    split at h
    · cases h
    rename_i hh hhe
    split at h
    · cases h
    split at h
    · cases h
    split at h
    · cases h
    rename_i q hq
    obtain rfl := Option.some.inj (Except.ok.inj h)
    unfold picture at hq
    simp only [bind, Except.bind, pure, Except.pure] at hq
    split at hq
    · cases hq
    split at hq
    · cases hq
    rw [← Except.ok.inj hq]
    exact ⟨of_decide_eq_true hl', hhe⟩

theorem calculate_h (s : Settings) (m : Level ℚ × Level ℚ) (given : Option (List (List (Option ℚ)))) (clocks : Option (List Wave))
    (cdr : List (Option ℚ) → Except PyErr (List (Option ℚ))) (mask : Option MaskFn) (wfs : List Wave) (δ : ℚ) (hδ : tDelta wfs = .ok δ)
    (hskip : s.skip = false) (a : Analysis) (h : calculateAll s m given clocks cdr mask wfs = .ok a) (v : List VOut) (hv : a.v = some v) (p : Picture)
    (hp : a.picture = some p) : p.levels.ua ≠ 0 ∧ ((a.wfs.zip v).mapM fun q => sampleHorizontal q.1.y q.1.centers q.2.edgeDir δ a.tSym p.levels.zero
      p.levels.ua (mean (v.flatMap (·.cross))) s.timeHeight s.edgeLower s.edgeUpper) = .ok p.h := by
  unfold calculateAll at h
  simp only [hδ, bind, Except.bind] at h
  split at h
  · cases h
  split at h
  · cases h
  split at h
  · cases h
  split at h
  · cases h
  split at h
  · cases h
  unfold Pipeline.measure at h
  simp only [hskip, Bool.false_eq_true, if_false, bind, Except.bind, pure, Except.pure] at h
  split at h
  · cases h
  split at h
  · cases h
  rename_i q hq
  obtain rfl := Except.ok.inj h
  simp only at hp hv
  obtain rfl := Option.some.inj hv
  subst hp
  exact finish_h _ _ _ _ _ _ _ _ hq

theorem calculate_wfs (s : Settings) (m : Level ℚ × Level ℚ) (given : Option (List (List (Option ℚ)))) (clocks : Option (List Wave))
    (cdr : List (Option ℚ) → Except PyErr (List (Option ℚ))) (mask : Option MaskFn) (wfs : List Wave) (es : List (List ℚ)) (T δ : ℚ)
    (he : clockEdges given clocks wfs (levels s.level m) s.polarity cdr s.period = .ok (es.map fun e => e.map some))
    (hδ : tDelta wfs = .ok δ) (hT : symbolPeriod es = .ok (some T)) (hne : ∀ w ∈ wfs, w.1 ≠ []) (hskip : s.skip = false)
    (a : Analysis) (h : calculateAll s m given clocks cdr mask wfs = .ok a) :
    a.tSym = T ∧ a.wfs = (wfs.zip es).map fun p : Wave × List ℚ => (⟨p.1.2, sampleEdges T δ (p.1.1.headD 0) p.1.2.length p.2⟩ : Wf) := by
  unfold calculateAll at h
  simp only [hδ, he, Props.Pipeline.finite_some, hT, bind, Except.bind] at h
  rw [sampled_all T δ _ (fun p hp => hne p.1 (List.of_mem_zip hp).1)] at h
  unfold Pipeline.measure at h
  simp only [hskip, Bool.false_eq_true, if_false, bind, Except.bind, pure, Except.pure] at h
  split at h
  · cases h
  split at h
  · cases h
  obtain rfl := Except.ok.inj h
  exact ⟨rfl, rfl⟩

theorem mean_cross (nf : ℝ) (v : List VOut) (c : ℚ) (h : mean (v.flatMap (·.cross)) = some c) :
    ∃ u, (vMeasures nf v).cross = some u ∧ u.value = c := by
  unfold mean at h
  split at h
  · cases h
  · rename_i hl
    have hne : v.flatMap (·.cross) ≠ [] := by simpa using hl
    obtain ⟨u, hu, hd⟩ := (describes_iff (v.flatMap (·.cross))).2 hne
    refine ⟨u, hu, ?_⟩
    have hn : (0 : ℝ) < (v.flatMap (·.cross)).length := by exact_mod_cast List.length_pos_iff.2 hne
    rw [← Option.some.inj h]
    push_cast
    rw [eq_div_iff hn.ne']
    have := hd.2.1
    push_cast at this
    exact this

theorem cross_mean (nf : ℝ) (v : List VOut) (u : UV) (h : (vMeasures nf v).cross = some u) : ∃ c, mean (v.flatMap (·.cross)) = some c ∧ u.value = c := by
  cases hm : mean (v.flatMap (·.cross)) with
  | none =>
    have hnil : v.flatMap (·.cross) = [] := by
      unfold mean at hm
      split at hm
      · rename_i hl
        simpa using hl
      · cases hm
    change ofSamples (v.flatMap (·.cross)) = some u at h
    rw [hnil, (describes_iff []).1 rfl] at h
    cases h
  | some c =>
    obtain ⟨u', h1, h2⟩ := mean_cross nf v c hm
    rw [h] at h1
    obtain rfl := Option.some.inj h1
    exact ⟨c, rfl, h2⟩

/-- The crossing times come from the records, one by one. -/
theorem records (s : Settings) (m : Level ℚ × Level ℚ) (given : Option (List (List (Option ℚ)))) (clocks : Option (List Wave))
    (cdr : List (Option ℚ) → Except PyErr (List (Option ℚ))) (mask : Option MaskFn) (rs : List Sent) (N : ℕ) (T δ : ℚ)
    (hT : 0 < T) (hN : 2 ≤ N) (htwo : ∃ r ∈ rs, 2 ≤ r.n)
    (he : clockEdges given clocks (rs.map (Sent.wave N δ)) (levels s.level m) s.polarity cdr s.period =
      .ok (rs.map fun r => (r.clock T).map some)) (hskip : s.skip = false)
    (a : Analysis) (ha : calculateAll s m given clocks cdr mask (rs.map (Sent.wave N δ)) = .ok a) (v : List VOut) (hv : a.v = some v)
    (p : Picture) (hp : a.picture = some p) : a.tSym = T ∧ p.levels.ua ≠ 0 ∧ List.Forall₂ (fun r o => r ∈ rs ∧ ∃ dirs : List ℤ,
      dirs.length = (sampleEdges T δ r.t0 r.y.length (r.clock T)).length ∧ sampleHorizontal r.y (sampleEdges T δ r.t0 r.y.length (r.clock T)) dirs δ T
        p.levels.zero p.levels.ua (mean (v.flatMap (·.cross))) s.timeHeight s.edgeLower s.edgeUpper = .ok o) rs p.h := by
  have hne : rs ≠ [] := by rintro rfl; simp at htwo
  have hwave : ∀ r : Sent, (r.wave N δ).1.headD 0 = r.t0 ∧ (r.wave N δ).1 ≠ [] := by
    intro r
    unfold Sent.wave
    obtain ⟨M, rfl⟩ : ∃ M, N = M + 1 := ⟨N - 1, by omega⟩
    rw [List.range_succ_eq_map]
    simp
  have hdelta : tDelta (rs.map (Sent.wave N δ)) = .ok δ := by
    obtain ⟨r, rs', rfl⟩ := List.exists_cons_of_ne_nil hne
    exact tDelta_wave N hN δ r _
  obtain ⟨c2, c3⟩ := calculate_wfs s m given clocks cdr mask (rs.map (Sent.wave N δ)) (rs.map (Sent.clock T)) T δ
    (by rw [he, List.map_map]; rfl) hdelta (period_regular T hT rs htwo) (by
      intro w hw
      obtain ⟨r, -, rfl⟩ := List.mem_map.1 hw
      exact (hwave r).2) hskip a ha
  obtain ⟨v', v1, v2, -⟩ := calculate_v s m given clocks cdr mask _ δ hdelta hskip a ha
  obtain rfl := Option.some.inj (hv.symm.trans v1)
  obtain ⟨hu, h2⟩ := calculate_h s m given clocks cdr mask _ δ hdelta hskip a ha v hv p hp
  refine ⟨c2, hu, ?_⟩
  rw [c3, c2, List.zip_map', List.map_map] at v2
  rw [c3, c2, List.zip_map', List.map_map] at h2
  have hall := forall₂_mapM _ _ _ v2
  rw [List.forall₂_map_left_iff] at hall
  rw [List.zip_map_left] at h2
  have hh := forall₂_mapM _ _ _ h2
  rw [List.forall₂_map_left_iff] at hh
  have hl1 := hall.length_eq
  have hl2 := hh.length_eq
  rw [List.length_zip, ← hl1, min_self] at hl2
  rw [List.forall₂_iff_get]
  refine ⟨hl2, fun i h1 h2 => ?_⟩
  have g1 := (List.forall₂_iff_get.1 hall).2 i h1 (by omega)
  have g2 := (List.forall₂_iff_get.1 hh).2 i (by rw [List.length_zip]; omega) h2
  simp only [List.get_eq_getElem, List.getElem_zip] at g1 g2 ⊢
  have hr : rs[i] ∈ rs := List.getElem_mem _
  generalize rs[i] = r at *
  have hw2 : (r.wave N δ).2 = r.y := rfl
  simp only [Function.comp, Prod.map, id, (hwave _).1, hw2] at g1 g2
  obtain ⟨-, hd, -⟩ := C44_total _ _ _ _ _ _ _ _ g1
  exact ⟨hr, _, hd, g2⟩

/-- **C97**: with a regular clock, and with the samples at the measured crossing level (no farther than half the window height) within `ε` of the
boundaries between symbols, the crossing time is 0 and the duration of a symbol is that of the clock, to within `ε` and half a sample (twice that for
differences); so are the frequency, the eye width and its ratio; and the jitter is not more than that: at most `2 ε` and a sample, peak to peak.
They are measured: if there is such a sample at a boundary before and at one after a clock edge in view, then none of them is nan. -/
theorem C97_times (s : Settings) (m : Level ℚ × Level ℚ) (given : Option (List (List (Option ℚ)))) (clocks : Option (List Wave))
    (cdr : List (Option ℚ) → Except PyErr (List (Option ℚ))) (mask : Option MaskFn) (rs : List Sent) (N : ℕ) (T δ ε : ℚ)
    (hT : 0 < T) (hδ : 0 < δ) (hN : 2 ≤ N) (hlen : ∀ r ∈ rs, r.y.length = N) (htwo : ∃ r ∈ rs, 2 ≤ r.n)
    (he : clockEdges given clocks (rs.map (Sent.wave N δ)) (levels s.level m) s.polarity cdr s.period =
      .ok (rs.map fun r => (r.clock T).map some)) (hskip : s.skip = false) (hE : 2 * (ε + δ / 2) < T)
    (a : Analysis) (ha : calculateAll s m given clocks cdr mask (rs.map (Sent.wave N δ)) = .ok a) (v : List VOut) (hv : a.v = some v)
    (p : Picture) (hp : a.picture = some p)
    (hs : ∀ (c : ℚ) (u : UV), (vMeasures 0 v).cross = some u → u.value = c → ∀ r ∈ rs, Steep N T δ c (s.timeHeight / 2 * |p.levels.ua|) ε r) :
    a.tSym = T ∧ Times T (ε + δ / 2) (hMeasures a.tSym p.h) ∧
      ∀ (c : ℚ) (u : UV), (vMeasures 0 v).cross = some u → u.value = c → ∀ r ∈ rs, ∀ r' ∈ rs, ∀ k < r.n, ∀ k' < r'.n, InView N T δ r k →
        InView N T δ r' k' → Crossed N T δ c (s.timeHeight / 2 * |p.levels.ua|) ε r (k - 1 / 2) →
        Crossed N T δ c (s.timeHeight / 2 * |p.levels.ua|) ε r' (k' + 1 / 2) → Known (hMeasures a.tSym p.h) := by
  obtain ⟨c2, hu, hall⟩ := records s m given clocks cdr mask rs N T δ hT hN htwo he hskip a ha v hv p hp
  refine ⟨c2, ?_⟩
  rw [c2]
  have key : ∀ o ∈ p.h, (∀ t ∈ o.crossLeft, |t * T| ≤ ε + δ / 2) ∧ ∀ t ∈ o.crossRight, |t * T - T| ≤ ε + δ / 2 := by
    intro o ho
    obtain ⟨r, hq⟩ := zip_right _ _ hall.length_eq o ho
    obtain ⟨hr, dirs, hd, h3⟩ := (List.forall₂_iff_zip.1 hall).2 hq
    have h6 : ∀ c, mean (v.flatMap (·.cross)) = some c → Steep r.y.length T δ c (s.timeHeight / 2 * |p.levels.ua|) ε r := by
      intro c hc
      obtain ⟨u, u1, u2⟩ := mean_cross 0 v c hc
      rw [hlen r hr]
      exact hs c u u1 u2 r hr
    exact horizontal_steep r T δ p.levels.zero p.levels.ua ε s.timeHeight s.edgeLower s.edgeUpper hT hδ hu hE _ h6 dirs hd o h3
  have hcl : ∀ t ∈ p.h.flatMap (·.crossLeft), |t * T| ≤ ε + δ / 2 := by
    intro t ht
    obtain ⟨o, ho, ht⟩ := List.mem_flatMap.1 ht
    exact (key o ho).1 t ht
  have hcr : ∀ t ∈ p.h.flatMap (·.crossRight), |t * T - T| ≤ ε + δ / 2 := by
    intro t ht
    obtain ⟨o, ho, ht⟩ := List.mem_flatMap.1 ht
    exact (key o ho).2 t ht
  have htimes := times_near T (ε + δ / 2) hT hE p.h hcl hcr
  rw [Rat.cast_add, Rat.cast_div, Rat.cast_ofNat] at htimes
  refine ⟨htimes, ?_⟩
  intro c u hcu huc r hr r' hr' k hk k' hk' hv1 hv2 hx1 hx2
  obtain ⟨c', hc', u2⟩ := cross_mean 0 v u hcu
  obtain rfl : c = c' := by
    rw [huc] at u2
    exact_mod_cast u2
  obtain ⟨o, ho⟩ := zip_left _ _ hall.length_eq r hr
  obtain ⟨o', ho'⟩ := zip_left _ _ hall.length_eq r' hr'
  obtain ⟨-, dirs, hd, h3⟩ := (List.forall₂_iff_zip.1 hall).2 ho
  obtain ⟨-, dirs', hd', h3'⟩ := (List.forall₂_iff_zip.1 hall).2 ho'
  rw [hc'] at h3 h3'
  have n1 := (horizontal_crossed r T δ _ _ ε _ _ _ c hT hδ hu hE dirs hd o h3 k hk hv1.1 (by rw [hlen r hr]; exact hv1.2)).1
    (by rw [hlen r hr]; exact hx1)
  have n2 := (horizontal_crossed r' T δ _ _ ε _ _ _ c hT hδ hu hE dirs' hd' o' h3' k' hk' hv2.1 (by rw [hlen r' hr']; exact hv2.2)).2
    (by rw [hlen r' hr']; exact hx2)
  apply known_of T (ε + δ / 2) hE p.h (by push_cast; exact htimes)
  · obtain ⟨t, ht⟩ := List.exists_mem_of_ne_nil _ n1
    exact List.ne_nil_of_mem (List.mem_flatMap.2 ⟨o, (List.of_mem_zip ho).2, ht⟩)
  · obtain ⟨t, ht⟩ := List.exists_mem_of_ne_nil _ n2
    exact List.ne_nil_of_mem (List.mem_flatMap.2 ⟨o', (List.of_mem_zip ho').2, ht⟩)

/-- Four samples per symbol, symbols 0101…, with a sample at 1/2 between two symbols, one edge that takes a sample longer, and a clock 1/8 late. -/
def exEdges : Sent := ⟨0, (List.range 48).map fun i : ℕ => (if i % 4 = 0 ∨ i = 21 then 1 / 2 else if i / 4 % 2 = 1 then 1 else 0), 49 / 8, 9,
  fun k => k % 2 == 0⟩

/-- The hypotheses of C97 are met: the jitter is that of the slow edge. -/
example : ∃ (a : Analysis) (p : Picture) (u : UV) (j : ℝ),
    calculateAll (exSettings (4 / 5)) (⟨0, 1 / 20⟩, ⟨1, 1 / 20⟩) (some [(exEdges.clock 4).map some]) none (fun _ => .ok []) none [exEdges.wave 48 1] = .ok a ∧
    a.picture = some p ∧ (hMeasures a.tSym p.h).tSym = some u ∧ |u.value - 4| ≤ 11 / 4 ∧ (hMeasures a.tSym p.h).jitterPp = some j ∧ j ≤ 11 / 4 := by
  have hb : (do
      let a ← calculateAll (exSettings (4 / 5)) (⟨0, 1 / 20⟩, ⟨1, 1 / 20⟩) (some [(exEdges.clock 4).map some]) none (fun _ => .ok []) none
        [exEdges.wave 48 1]
      return (a.v.map fun v : List VOut => mean (List.flatMap VOut.cross v), a.picture.map fun p : Picture => p.levels.ua)) =
      .ok (some (some (1 / 2)), some 1) := by decide +kernel
  cases ha : calculateAll (exSettings (4 / 5)) (⟨0, 1 / 20⟩, ⟨1, 1 / 20⟩) (some [(exEdges.clock 4).map some]) none (fun _ => .ok []) none
      [exEdges.wave 48 1] with
  | error e => rw [ha] at hb; cases hb
  | ok a =>
    rw [ha] at hb
    obtain ⟨h1, h2⟩ := Prod.mk.inj (Except.ok.inj hb)
    obtain ⟨v, hv, hc⟩ := Option.map_eq_some_iff.1 h1
    obtain ⟨p, hp, hu⟩ := Option.map_eq_some_iff.1 h2
    have hlev : ∀ (c : ℚ) (u : UV), (vMeasures 0 v).cross = some u → u.value = c → c = 1 / 2 := by
      intro c u h3 h4
      obtain ⟨c', h5, h6⟩ := cross_mean 0 v u h3
      rw [h4] at h6
      have : c = c' := by exact_mod_cast h6
      rw [this]
      exact Option.some.inj (h5.symm.trans hc)
    obtain ⟨u0, hu0, hu1⟩ := mean_cross 0 v _ hc
    obtain ⟨-, g2, g3⟩ := C97_times (exSettings (4 / 5)) (⟨0, 1 / 20⟩, ⟨1, 1 / 20⟩) (some [(exEdges.clock 4).map some]) none (fun _ => .ok []) none
      [exEdges] 48 4 1 (7 / 8) (by norm_num) (by norm_num) (by norm_num) (by
        intro r hr
        obtain rfl := List.mem_singleton.1 hr
        decide +kernel) ⟨exEdges, by simp, by decide⟩ rfl rfl (by norm_num) a ha v hv p hp (by
        intro c u h3 h4 r hr
        obtain rfl := List.mem_singleton.1 hr
        rw [hlev c u h3 h4, hu]
        unfold Steep
        decide +kernel)
    obtain ⟨-, k2, -, -, -, k6, -⟩ := g3 _ u0 hu0 hu1 exEdges (by simp) exEdges (by simp) 2 (by decide) 2 (by decide)
      (by unfold InView; decide +kernel) (by unfold InView; decide +kernel) (by rw [hu]; unfold Crossed; decide +kernel)
      (by rw [hu]; unfold Crossed; decide +kernel)
    obtain ⟨u, hu⟩ := Option.ne_none_iff_exists'.1 k2
    obtain ⟨j, hj⟩ := Option.ne_none_iff_exists'.1 k6
    refine ⟨a, p, u, j, rfl, hp, hu, ?_, hj, ?_⟩
    · have := (g2.sym u hu).1
      push_cast at this
      norm_num at this ⊢
      linarith
    · have := (g2.jitterPp j hj).2
      push_cast at this
      linarith

end Verif.Props.EdgeJitter
