import Verif.Props.Keyed

/-!
C102, continued: the bits of a keyed signal, in rounded arithmetic from the samples to the bits.
-/

namespace Verif.Props.Keyed

open Verif Verif.Pam2 Verif.Cdr Verif.Float Verif.Props.Edges Verif.Props.Float Verif.Props.FloatCdr Verif.Props.FloatPam2 Verif.Props.FloatDecode
  Verif.Props.OpenEye

/-! ### Specification -/

/-- A record and what was sent: the times and values of the samples, the time of the boundary 0, and the symbols. -/
structure Keying where
  t : List ℚ
  y : List ℚ
  s : ℚ
  sym : ℤ → Bool

/-- A record of a keyed signal, at least twenty symbols long, with `N` samples at the distance `δ` up to `τ`. -/
structure Keyed (l : Levels ℚ) (p : Polarity) (N : ℕ) (T δ τ A w : ℚ) (r : Keying) : Prop where
  signal : Signal l r.t r.y r.s T w (δ + 2 * τ) r.sym
  samples : r.t.length = N
  times : ∀ j < N, |r.t.getD j 0 - (r.t.getD 0 0 + j * δ)| ≤ τ
  bound : ∀ v ∈ r.t, |v| ≤ A
  lively : Lively r.sym p
  long : 20 * T ≤ r.t.getD (N - 1) 0 - r.t.getD 0 0

/-- Records of keyed signals, numbers that are rounded finely enough, and settings that fit: the thresholds of the edges are `m` or more from the one
of the decision, the boundaries are found within a quarter of a symbol, and the eye is open in the width that the decision looks at. -/
structure Fits (R : Rounding) (mean : List ℚ → ℚ) (d n N : ℕ) (l : Levels ℚ) (p : Polarity) (lw T δ τ A w m Y η : ℚ) (rs : List Keying) :
    Prop where
  mean : IsMean R d n mean
  fine : (d + 1) * R.u ≤ 1 / 100
  number : 10 ^ 5 * R.u * N ≤ 1
  eta : η = 100 * ((d + 1) * R.u) * (A + T)
  step : tDeltaF R (rs.map fun r => (r.t, r.y)) = .ok δ
  pos : 0 < δ ∧ 0 ≤ τ ∧ 0 ≤ lw ∧ lw ≤ 1
  levels : 0 ≤ m ∧ l.falling ≤ l.half - m ∧ l.half + m ≤ l.rising
  locks : 2 * (w + δ + 2 * τ) + η < T / 2
  wide : max (lw * (T + η)) (101 / 100 * δ) / 2 + 51 / 100 * δ + 2 * w + δ + 3 * τ + 2 * η ≤ T / 2
  high : (∀ r ∈ rs, ∀ y ∈ r.y, |y| ≤ Y) ∧ 2 * (d + 1) * R.u * Y < m
  keyed : ∀ r ∈ rs, Keyed l p N T δ τ A w r
  counts : rs.length * N ≤ n ∧ rs ≠ []

/-! ### One record -/

/-- The edges of a record, in the form that the decoding needs, and how far apart they are. -/
theorem keyed_record (g : ℚ) (l : Levels ℚ) (p : Polarity) (N : ℕ) (T δ τ A w m : ℚ) (r : Keying) (h : Keyed l p N T δ τ A w r) (hδ : 0 < δ) (hτ : 0 ≤ τ)
    (hm : 0 ≤ m) (hf : l.falling ≤ l.half - m) (hr : l.half + m ≤ l.rising) (hg : g + 2 * (w + δ + 2 * τ) < T) :
    ∃ q : Received, (q.t = r.t ∧ q.y = r.y ∧ q.s = r.s ∧ q.sym = r.sym ∧ Clean g l p N T δ τ A (w + δ + 2 * τ) (T / 2 - w) m q ∧
      q.edges.length ≤ N ∧ (q.last - q.first).toNat ≤ N ∧ 2 ≤ q.last - q.first ∧
      r.s + q.first * T ≤ r.t.getD 0 0 + w + 4 * T ∧ r.t.getD (N - 1) 0 - w - 4 * T ≤ r.s + q.last * T) ∧
      ((q.first :: q.others).IsChain fun a b => a < b ∧ b ≤ a + 4) ∧ (q.edges.length : ℤ) ≤ q.last - q.first + 1 ∧
      q.last - q.first ≤ 4 * ((q.edges.length : ℤ) - 1) ∧
      r.t.getD 0 0 - (w + δ + 2 * τ) ≤ r.s + q.first * T ∧ r.s + q.last * T ≤ r.t.getD (N - 1) 0 + (w + δ + 2 * τ) := by
  obtain ⟨hs, hN, htimes, hA, hv, hlong⟩ := h
  obtain ⟨hw0, hδ0, hw⟩ := hs.wide
  have hT : 0 < T := by linarith
  obtain ⟨es, ks, he, hes, hk⟩ := C102_edges hs (by linarith) (by linarith) p
  rw [← add_assoc] at hk
  have hlen : es.length = ks.length := hk.near.length_eq
  have hNpos : 0 < N := by have := hs.samples; omega
  have hlast : r.t.getD (r.t.length - 1) 0 = r.t.getD (N - 1) 0 := by rw [hN]
  -- a change near the beginning
  obtain ⟨k0, hk0, hk0'⟩ : ∃ k0 : ℤ, r.t.getD 0 0 ≤ r.s + (k0 + 1) * T - w ∧ r.s + k0 * T - w < r.t.getD 0 0 := by
    refine ⟨⌈(r.t.getD 0 0 - r.s + w) / T⌉ - 1, ?_, ?_⟩
    · have := Int.le_ceil ((r.t.getD 0 0 - r.s + w) / T)
      rw [div_le_iff₀ hT] at this
      push_cast
      linarith
    · have := Int.ceil_lt_add_one ((r.t.getD 0 0 - r.s + w) / T)
      have h2 := mul_lt_mul_of_pos_right this hT
      rw [add_mul, div_mul_cancel₀ _ hT.ne'] at h2
      push_cast
      linarith
  obtain ⟨k1, hk1, hk1'⟩ : ∃ k1 : ℤ, r.s + k1 * T + w ≤ r.t.getD (N - 1) 0 ∧ r.t.getD (N - 1) 0 < r.s + (k1 + 1) * T + w := by
    refine ⟨⌊(r.t.getD (N - 1) 0 - r.s - w) / T⌋, ?_, ?_⟩
    · have := Int.floor_le ((r.t.getD (N - 1) 0 - r.s - w) / T)
      rw [le_div_iff₀ hT] at this
      linarith
    · have := Int.lt_floor_add_one ((r.t.getD (N - 1) 0 - r.s - w) / T)
      rw [div_lt_iff₀ hT] at this
      linarith
  obtain ⟨a, ha, ha1, ha2⟩ := marks_lively hk hv hT k0 hk0 (by rw [hlast]; linarith)
  obtain ⟨b, hb, hb1, hb2⟩ := marks_lively hk hv hT (k1 - 4) (by push_cast; linarith) (by rw [hlast]; push_cast; linarith)
  cases ks with
  | nil => cases ha
  | cons f ks =>
    have hgaps := marks_gaps hk hv (by linarith) (by linarith) hT
    have hspan := marks_span ks f hk.order hgaps
    set z := (f :: ks).getLast (List.cons_ne_nil _ _) with hz
    have hzmem : z ∈ f :: ks := List.getLast_mem _
    have hfa : f ≤ a := by
      rcases List.mem_cons.1 ha with rfl | ha
      · exact le_refl _
      · exact ((List.pairwise_cons.1 hk.order).1 a ha).le
    have hbz : b ≤ z := by
      obtain ⟨i, i1, i2⟩ := List.getElem_of_mem hb
      rw [hz, List.getLast_eq_getElem, ← i2]
      rcases Nat.lt_or_ge i ((f :: ks).length - 1) with g' | g'
      · exact (List.pairwise_iff_getElem.1 hk.order _ _ _ _ g').le
      · have e : i = (f :: ks).length - 1 := by omega
        simp only [e, le_refl]
    have hin : ∀ k ∈ f :: ks, r.t.getD 0 0 - (w + δ + 2 * τ) ≤ r.s + k * T ∧ r.s + k * T ≤ r.t.getD (N - 1) 0 + (w + δ + 2 * τ) := by
      intro k hk'
      obtain ⟨e, he, hek⟩ := forall₂_mem_right hk.near k hk'
      have h1 := hk.inside e he
      rw [hlast] at h1
      have h2 := abs_le.1 hek
      constructor <;> linarith
    have hf0 := (hin f (by simp)).1
    have hz0 := (hin z hzmem).2
    have hfirst : r.s + f * T ≤ r.t.getD 0 0 + w + 4 * T := by
      have : (f : ℚ) ≤ k0 + 4 := by exact_mod_cast hfa.trans ha2
      have := mul_le_mul_of_nonneg_right this hT.le
      linarith
    have hlast' : r.t.getD (N - 1) 0 - w - 4 * T ≤ r.s + z * T := by
      have : (k1 : ℚ) - 3 ≤ z := by exact_mod_cast (by omega : k1 - 3 ≤ z)
      have := mul_le_mul_of_nonneg_right this hT.le
      linarith
    have htwo : 2 ≤ z - f := by
      have h1 : (2 : ℚ) * T ≤ (z - f) * T := by linarith
      have := le_of_mul_le_mul_right h1 hT
      exact_mod_cast this
    have hgapN : r.t.getD (N - 1) 0 - r.t.getD 0 0 ≤ (N - 1) * (δ + 2 * τ) := by
      have h1 := abs_le.1 (htimes (N - 1) (by omega))
      have h2 : ((N - 1 : ℕ) : ℚ) = N - 1 := by rw [Nat.cast_sub hNpos, Nat.cast_one]
      rw [h2] at h1
      have hN2 : 2 ≤ N := by
        by_contra hc
        have : N = 1 := by omega
        subst this
        simp at hlong
        linarith
      have h3 : (2 : ℚ) ≤ N := by exact_mod_cast hN2
      have h4 : 0 ≤ ((N : ℚ) - 2) * τ := mul_nonneg (by linarith) hτ
      linarith
    have hzN : z - f < N := by
      have h1 : (z - f : ℚ) * T ≤ (N - 1) * (δ + 2 * τ) + 2 * (w + δ + 2 * τ) := by linarith
      have hN1 : (1 : ℚ) ≤ N := by exact_mod_cast hNpos
      have h3 : ((N : ℚ) - 1) * (δ + 2 * τ) ≤ (N - 1) * T := mul_le_mul_of_nonneg_left (by linarith) (by linarith)
      have h4 : (z - f : ℚ) * T < N * T := by linarith
      have := lt_of_mul_lt_mul_right h4 hT.le
      exact_mod_cast this
    have hlenk : es.length = ks.length + 1 := by rw [hlen]; rfl
    refine ⟨⟨r.t, r.y, es, f, ks, r.s, r.sym⟩, ⟨rfl, rfl, rfl, rfl, ⟨⟨hN, by have := hs.samples; simp only; omega⟩, htimes, ⟨hA, ?_⟩, he, ?_, ?_, hk.near, ?_, ?_⟩,
      ?_, ?_, htwo, hfirst, hlast'⟩, ?_, ?_, ?_, hf0, hz0⟩
    · intro e he
      have h1 := hk.inside e he
      have hmem : ∀ j < r.t.length, |r.t.getD j 0| ≤ A := fun j hj => by rw [List.getD_eq_getElem _ _ hj]; exact hA _ (List.getElem_mem _)
      have h2 := abs_le.1 (hmem 0 (by omega))
      have h3 := abs_le.1 (hmem (r.t.length - 1) (by omega))
      rw [abs_le]
      constructor <;> linarith
    · change es.Pairwise _
      rw [List.pairwise_iff_getElem]
      intro i j hi hj hij
      have hi' : i < (f :: ks).length := by omega
      have hj' : j < (f :: ks).length := by omega
      have hn := List.forall₂_iff_get.1 hk.near
      have n1 := abs_le.1 (hn.2 i hi hi')
      have n2 := abs_le.1 (hn.2 j hj hj')
      have n3 := List.pairwise_iff_getElem.1 hk.order i j hi' hj' hij
      simp only [List.get_eq_getElem] at n1 n2
      have n4 : ((f :: ks)[i] : ℚ) + 1 ≤ (f :: ks)[j] := by exact_mod_cast n3
      have n5 := mul_le_mul_of_nonneg_right n4 hT.le
      linarith
    · change 2 ≤ es.length
      have : z - f ≤ 4 * ks.length := hspan.2
      omega
    · change 19 / 20 * ((es.length : ℚ) - 1) ≤ (z : ℚ) - f ∧ (z : ℚ) - f ≤ 49 / 10 * ((es.length : ℚ) - 1)
      rw [hlenk]
      push_cast
      have c1 : (ks.length : ℚ) ≤ z - f := by exact_mod_cast hspan.1
      have c2 : (z : ℚ) - f ≤ 4 * ks.length := by exact_mod_cast hspan.2
      have c3 : (0 : ℚ) ≤ ks.length := by positivity
      constructor <;> linarith
    · intro j hj k hk
      have hk := abs_le.1 hk
      have := hs.steady j (by rw [hN]; exact hj) k (by change _ ≤ r.t.getD j 0; change _ ≤ r.t.getD j 0 - (r.s + _) ∧ _ at hk; linarith) (by change r.t.getD j 0 ≤ _; change _ ≤ r.t.getD j 0 - (r.s + _) ∧ _ at hk; linarith)
      change (r.sym k = true → _ ≤ r.y.getD j 0) ∧ (r.sym k = false → r.y.getD j 0 ≤ _)
      unfold Past at this
      constructor
      · intro e
        rw [e, if_pos rfl] at this
        linarith
      · intro e
        rw [e, if_neg (by simp)] at this
        linarith
    · change es.length ≤ N
      have := hspan.1
      omega
    · change (z - f).toNat ≤ N
      omega
    · change (f :: ks).IsChain _
      rw [List.isChain_iff_getElem]
      intro i hi
      exact ⟨List.pairwise_iff_getElem.1 hk.order i (i + 1) (by omega) hi (by omega), hgaps i hi⟩
    · change (es.length : ℤ) ≤ z - f + 1
      have := hspan.1
      omega
    · change z - f ≤ 4 * ((es.length : ℤ) - 1)
      have : z - f ≤ 4 * ks.length := hspan.2
      omega

/-- The edges of a record, in the form that the decoding needs. -/
theorem keyed_clean (g : ℚ) (l : Levels ℚ) (p : Polarity) (N : ℕ) (T δ τ A w m : ℚ) (r : Keying) (h : Keyed l p N T δ τ A w r) (hδ : 0 < δ) (hτ : 0 ≤ τ)
    (hm : 0 ≤ m) (hf : l.falling ≤ l.half - m) (hr : l.half + m ≤ l.rising) (hg : g + 2 * (w + δ + 2 * τ) < T) :
    ∃ q : Received, q.t = r.t ∧ q.y = r.y ∧ q.s = r.s ∧ q.sym = r.sym ∧ Clean g l p N T δ τ A (w + δ + 2 * τ) (T / 2 - w) m q ∧
      q.edges.length ≤ N ∧ (q.last - q.first).toNat ≤ N ∧ 2 ≤ q.last - q.first ∧
      r.s + q.first * T ≤ r.t.getD 0 0 + w + 4 * T ∧ r.t.getD (N - 1) 0 - w - 4 * T ≤ r.s + q.last * T := by
  obtain ⟨q, hq, -⟩ := keyed_record g l p N T δ τ A w m r h hδ hτ hm hf hr hg
  exact ⟨q, hq⟩

/-! ### All records -/

theorem keyed_setup (R : Rounding) (mean : List ℚ → ℚ) (d n N : ℕ) (l : Levels ℚ) (p : Polarity) (lw T δ τ A w m Y η : ℚ) (rs : List Keying)
    (h : Fits R mean d n N l p lw T δ τ A w m Y η rs) :
    ∃ f : Keying → Received, Setup R mean d n N l p lw T δ τ A (w + δ + 2 * τ) (T / 2 - w) m Y η (rs.map f) ∧
      ∀ r ∈ rs, (f r).t = r.t ∧ (f r).y = r.y ∧ (f r).s = r.s ∧ (f r).sym = r.sym ∧
        r.s + (f r).first * T ≤ r.t.getD 0 0 + w + 4 * T ∧ r.t.getD (N - 1) 0 - w - 4 * T ≤ r.s + (f r).last * T := by
  obtain ⟨hm, hd, hnum, hη, hstep, ⟨hδ, hτ, hlw, hlw1⟩, ⟨hm0, hlf, hlr⟩, hlocks, hwide, hY, hk, hcnt, hne⟩ := h
  have hun := R.u_nonneg
  have hex : ∀ r ∈ rs, 0 < N ∧ 0 < T ∧ 0 ≤ A ∧ 0 ≤ w := by
    intro r hr
    have h1 := (hk r hr).signal
    have h2 := h1.samples
    have h3 := h1.wide
    have h4 : 0 < N := by have := (hk r hr).samples; omega
    refine ⟨h4, by linarith, ?_, h3.1⟩
    have : r.t.length = N := (hk r hr).samples
    exact (abs_nonneg _).trans ((hk r hr).bound (r.t[0]'(by omega)) (List.getElem_mem _))
  obtain ⟨r0, hr0⟩ := List.exists_mem_of_ne_nil _ hne
  obtain ⟨hN, hT, hA, hw⟩ := hex r0 hr0
  have hη0 : 34 * R.u * A ≤ η := by
    rw [hη]
    have h1 : R.u ≤ ((d : ℚ) + 1) * R.u := by
      have : 0 ≤ (d : ℚ) * R.u := by positivity
      linarith
    have h2 : R.u * (A + T) ≤ ((d : ℚ) + 1) * R.u * (A + T) := mul_le_mul_of_nonneg_right h1 (by linarith)
    have h3 : 0 ≤ R.u * A := mul_nonneg hun hA
    have h4 : 0 ≤ R.u * T := mul_nonneg hun hT.le
    linarith
  have hη1 : 0 ≤ η := le_trans (by positivity) hη0
  have key : ∀ r : Keying, ∃ q : Received, r ∈ rs → q.t = r.t ∧ q.y = r.y ∧ q.s = r.s ∧ q.sym = r.sym ∧
      Clean (34 * R.u * A) l p N T δ τ A (w + δ + 2 * τ) (T / 2 - w) m q ∧
      q.edges.length ≤ N ∧ (q.last - q.first).toNat ≤ N ∧ 2 ≤ q.last - q.first ∧
      r.s + q.first * T ≤ r.t.getD 0 0 + w + 4 * T ∧ r.t.getD (N - 1) 0 - w - 4 * T ≤ r.s + q.last * T := by
    intro r
    by_cases hr : r ∈ rs
    · obtain ⟨q, hq⟩ := keyed_clean (34 * R.u * A) l p N T δ τ A w m r (hk r hr) hδ hτ hm0 hlf hlr (by linarith)
      exact ⟨q, fun _ => hq⟩
    · exact ⟨⟨[], [], [], 0, [], 0, fun _ => false⟩, fun h => absurd h hr⟩
  choose f hf using key
  have hlen : 1 ≤ rs.length := List.length_pos_iff.2 hne
  have hNn : N ≤ n := le_trans (by nlinarith) hcnt
  refine ⟨f, ⟨hm, hd, hnum, hη, ?_, ⟨hN, hδ, hT, hA, hlw, hlw1⟩, by linarith, by linarith, by linarith, ⟨?_, hY.2⟩, ?_, ⟨hNn, ?_, ?_⟩, ?_⟩, ?_⟩
  · rw [List.map_map, ← hstep]
    congr 1
    apply List.map_congr_left
    intro r hr
    obtain ⟨h1, h2, -⟩ := hf r hr
    simp only [Function.comp, h1, h2]
  · intro q hq
    obtain ⟨r, hr, rfl⟩ := List.mem_map.1 hq
    rw [(hf r hr).2.1]
    exact hY.1 r hr
  · intro q hq
    obtain ⟨r, hr, rfl⟩ := List.mem_map.1 hq
    exact (hf r hr).2.2.2.2.1
  · intro q hq
    obtain ⟨r, hr, rfl⟩ := List.mem_map.1 hq
    exact (hf r hr).2.2.2.2.2.1.trans hNn
  · have h1 := List.sum_le_card_nsmul ((rs.map f).map fun q => (q.last - q.first).toNat) N (by
      intro x hx
      rw [List.map_map] at hx
      obtain ⟨r, hr, rfl⟩ := List.mem_map.1 hx
      exact (hf r hr).2.2.2.2.2.2.1)
    simp only [List.length_map, smul_eq_mul] at h1
    exact h1.trans hcnt
  · exact ⟨f r0, List.mem_map.2 ⟨r0, hr0, rfl⟩, (hf r0 hr0).2.2.2.2.2.2.2.1⟩
  · intro r hr
    obtain ⟨h1, h2, h3, h4, -, -, -, -, h5, h6⟩ := hf r hr
    exact ⟨h1, h2, h3, h4, h5, h6⟩

/-- **C102.** From the samples of keyed signals to the bits, all in rounded arithmetic: read as NRZL they are the symbols that were sent, read as NRZM
the changes; of each record those that follow each other from `lo` on, among them all whose centre is at least six symbols from the ends of the record. -/
theorem C102_bits (R : Rounding) (mean : List ℚ → ℚ) (d n N : ℕ) (minimize : List ℚ → ℚ → ℚ → ℚ → Except PyErr ℚ)
    (detrend : List ℚ → ℚ → Except PyErr (Option ℚ)) (l : Levels ℚ) (p : Polarity) (lw cw T δ τ A w m Y η : ℚ) (rs : List Keying)
    (h : Fits R mean d n N l p lw T δ τ A w m Y η rs) :
    ∃ (lo : Keying → ℤ) (count : Keying → ℕ) (dirs : List (List ℤ)),
      directionsF R mean (fun e => runF R mean minimize detrend ⟨some T, true⟩ e false) l p lw cw (rs.map fun r => (r.t, r.y)) = .ok dirs ∧
      bitStream true (some dirs) false = .ok (rs.map fun r => (List.range (count r)).map fun i : ℕ => if r.sym (lo r + i) then 1 else 0) ∧
      bitStream true (some dirs) true =
        .ok (rs.map fun r => (List.range (count r)).map fun i : ℕ => if r.sym (lo r + i) = r.sym (lo r + i - 1) then 0 else 1) ∧
      ∀ r ∈ rs, ∀ k : ℤ, r.t.getD 0 0 + 6 * T ≤ r.s + (k + 1 / 2) * T → r.s + (k + 1 / 2) * T ≤ r.t.getD (N - 1) 0 - 6 * T →
        lo r ≤ k ∧ k < lo r + count r := by
  obtain ⟨f, hset, hf⟩ := keyed_setup R mean d n N l p lw T δ τ A w m Y η rs h
  obtain ⟨num, start, count, h1, h2⟩ := C99_directions R mean d n N minimize detrend l p lw cw T δ τ A _ _ m Y η _ hset
  have hun := R.u_nonneg
  -- all of the middle
  have hall : ∀ r ∈ rs, ∀ k : ℤ, r.t.getD 0 0 + 6 * T ≤ r.s + (k + 1 / 2) * T → r.s + (k + 1 / 2) * T ≤ r.t.getD (N - 1) 0 - 6 * T →
      (f r).first + start (f r) ≤ k ∧ k < (f r).first + start (f r) + count (f r) := by
    intro r hr k hk1 hk2
    obtain ⟨e1, e2, e3, e4, e5, e6⟩ := hf r hr
    obtain ⟨g1, g2, g3⟩ := h2 (f r) (List.mem_map.2 ⟨r, hr, rfl⟩)
    have hs := (h.keyed r hr).signal
    obtain ⟨hw0, hδ0, hw⟩ := hs.wide
    have hT : 0 < T := by linarith
    have hlocks := h.locks
    have hpos := h.pos
    have c1 : (f r).first ≤ k := by
      have : ((f r).first : ℚ) * T ≤ k * T := by linarith
      have := le_of_mul_le_mul_right this hT
      exact_mod_cast this
    have c2 : k < (f r).last := by
      have : (k : ℚ) * T < (f r).last * T := by linarith
      have := lt_of_mul_lt_mul_right this hT.le
      exact_mod_cast this
    obtain ⟨i, hi⟩ : ∃ i : ℕ, k = (f r).first + i := ⟨(k - (f r).first).toNat, by omega⟩
    have hN : 0 < N := by
      have := (h.keyed r hr).samples
      have := hs.samples
      omega
    have hend := abs_le.1 ((h.keyed r hr).times (N - 1) (by omega))
    rw [Nat.cast_sub hN, Nat.cast_one] at hend
    have hkq : (k : ℚ) = (f r).first + i := by exact_mod_cast hi
    have hyl : ((f r).y.length : ℚ) = N := by
      have := (h.keyed r hr).samples
      have := hs.samples
      rw [e2]
      congr 1
      omega
    have := g3.all i (by change i < num (f r); omega)
      (by
        change (f r).t.getD 0 0 + T + 4 * δ + 2 * (w + δ + 2 * τ + η) ≤ (f r).s + ((f r).first + 1 / 2) * T + i * T
        rw [e1, e3]
        rw [hkq] at hk1
        have hA : 0 ≤ η := by
          have h3 := hset.pos
          rw [h.eta]
          have : 0 ≤ A + T := by linarith
          positivity
        linarith)
      (by
        change (f r).s + ((f r).first + 1 / 2) * T + i * T ≤ (f r).t.getD 0 0 + ((f r).y.length - 1) * δ - T - 3 * δ - 2 * (w + δ + 2 * τ + η)
        rw [e1, e3, hyl]
        rw [hkq] at hk2
        have hA : 0 ≤ η := by
          have h3 := hset.pos
          rw [h.eta]
          have : 0 ≤ A + T := by linarith
          positivity
        linarith)
    omega
  rw [List.map_map, List.map_map] at h1
  have hw : (rs.map ((fun q : Received => (q.t, q.y)) ∘ f)) = rs.map fun r => (r.t, r.y) := by
    apply List.map_congr_left
    intro r hr
    obtain ⟨e1, e2, -⟩ := hf r hr
    simp only [Function.comp, e1, e2]
  rw [hw] at h1
  refine ⟨fun r => (f r).first + start (f r), fun r => count (f r), _, h1, ?_, ?_, hall⟩
  · unfold bitStream
    simp only [Bool.not_true, Bool.false_eq_true, if_false]
    rw [List.map_map]
    congr 1
    apply List.map_congr_left
    intro r hr
    obtain ⟨-, -, -, e4, -⟩ := hf r hr
    simp only [Function.comp, add_sub_assoc, e4]
    have hno : ¬ ∀ i ∈ List.range' (start (f r)) (count (f r)), r.sym ((f r).first + ((i : ℤ) - 1)) = true ∧ r.sym ((f r).first + i) = true := by
      intro hc
      -- there is a change in the middle
      have hs := (h.keyed r hr).signal
      obtain ⟨hw0, hδ0, hw⟩ := hs.wide
      have hpos := h.pos
      have hT : 0 < T := by linarith
      have hlong := (h.keyed r hr).long
      obtain ⟨k0, ha, hb⟩ : ∃ k0 : ℤ, r.t.getD 0 0 + 6 * T ≤ r.s + (k0 + 1 / 2) * T ∧ r.s + (k0 + 1 / 2) * T < r.t.getD 0 0 + 7 * T := by
        refine ⟨⌈(r.t.getD 0 0 - r.s) / T + 11 / 2⌉, ?_, ?_⟩
        · have := Int.le_ceil ((r.t.getD 0 0 - r.s) / T + 11 / 2)
          have h2 := mul_le_mul_of_nonneg_right this hT.le
          rw [add_mul, div_mul_cancel₀ _ hT.ne'] at h2
          linarith
        · have := Int.ceil_lt_add_one ((r.t.getD 0 0 - r.s) / T + 11 / 2)
          have h2 := mul_lt_mul_of_pos_right this hT
          rw [add_mul, add_mul, div_mul_cancel₀ _ hT.ne'] at h2
          linarith
      obtain ⟨j, j1, j2, j3, -⟩ := (h.keyed r hr).lively k0
      have q1 : (k0 : ℚ) + 1 ≤ j := by exact_mod_cast j1
      have q2 : (j : ℚ) ≤ k0 + 4 := by exact_mod_cast j2
      have q3 := mul_le_mul_of_nonneg_right q1 hT.le
      have q4 := mul_le_mul_of_nonneg_right q2 hT.le
      obtain ⟨r1, r2⟩ := hall r hr j (by linarith) (by linarith)
      obtain ⟨i, hi⟩ : ∃ i : ℕ, j = (f r).first + i := ⟨(j - (f r).first).toNat, by omega⟩
      have := hc i (by rw [List.mem_range'_1]; omega)
      apply j3
      rw [hi, add_sub_assoc, this.1, this.2]
    rw [bitsL_sent (fun k => r.sym ((f r).first + k)) (start (f r)) (count (f r))]
    simp only [if_neg hno]
    rw [List.range'_eq_map_range, List.map_map]
    apply List.map_congr_left
    intro i _
    simp only [Function.comp]
    push_cast
    rw [add_assoc]
  · unfold bitStream
    simp only [Bool.not_true, Bool.false_eq_true, if_false, if_true]
    rw [List.map_map]
    congr 1
    apply List.map_congr_left
    intro r hr
    obtain ⟨-, -, -, e4, -⟩ := hf r hr
    simp only [Function.comp, bitsM, List.map_map, e4, List.range'_eq_map_range]
    apply List.map_congr_left
    intro i _
    simp only [Function.comp]
    unfold Pam2Bits.dir
    push_cast
    rw [add_assoc]
    cases r.sym ((f r).first + (start (f r) + i)) <;> cases r.sym ((f r).first + (start (f r) + i) - 1) <;> simp

/-! ### Doubles -/

/-- The symbols 0, 1, 0, 0, 1, 0, … -/
def keySym (k : ℤ) : Bool := k % 3 = 1

/-- Eight samples per symbol, from a boundary on; a sample at a boundary with a change is half way. -/
def keyY (j : ℕ) : ℚ :=
  if j % 8 = 0 ∧ keySym ((j / 8 : ℕ) - 1) ≠ keySym (j / 8 : ℕ) then 1 / 2 else if keySym (j / 8 : ℕ) then 1 else 0

/-- Twenty symbols. -/
def keyRec : Keying := ⟨(List.range 161).map fun j : ℕ => (j : ℚ) / 8, (List.range 161).map keyY, 0, keySym⟩

theorem keyRec_t (j : ℕ) (hj : j < 161) : keyRec.t.getD j 0 = (j : ℚ) / 8 := by
  unfold keyRec
  rw [List.getD_eq_getElem _ _ (by simpa using hj)]
  simp

theorem keyRec_y (j : ℕ) (hj : j < 161) : keyRec.y.getD j 0 = keyY j := by
  unfold keyRec
  rw [List.getD_eq_getElem _ _ (by simpa using hj)]
  simp

theorem keyLen : keyRec.t.length = 161 := by simp [keyRec]

/-- The levels of the example. -/
def keyLevels : Levels ℚ := ⟨0, 1, 1 / 2, 3 / 5, 2 / 5, false⟩

/-- A sample that is no more than a tenth of a symbol from a boundary is at the boundary. -/
theorem key_at (j : ℕ) (k : ℤ) (h : |(j : ℚ) / 8 - (0 + k * 1)| < 1 / 20) : (j : ℤ) = 8 * k := by
  have h := abs_lt.1 h
  have h1 : (j : ℚ) < 8 * k + 1 := by linarith
  have h2 : 8 * (k : ℚ) - 1 < j := by linarith
  have h3 : (j : ℤ) < 8 * k + 1 := by exact_mod_cast h1
  have h4 : 8 * k - 1 < (j : ℤ) := by exact_mod_cast h2
  omega

theorem key_signal : Signal keyLevels keyRec.t keyRec.y keyRec.s 1 (1 / 20) (1 / 8 + 2 * 0) keyRec.sym := by
  have hs : keyRec.s = 0 := rfl
  have hy : keyRec.sym = keySym := rfl
  rw [hs, hy]
  refine ⟨⟨by simp [keyRec], by simp [keyRec]⟩, ?_, ?_, by norm_num, ?_, ?_, ?_, ?_⟩
  · intro i j hij hj
    rw [keyLen] at hj
    rw [keyRec_t i (by omega), keyRec_t j hj]
    have : (i : ℚ) < j := by exact_mod_cast hij
    linarith
  · intro i hi
    rw [keyLen] at hi
    rw [keyRec_t i (by omega), keyRec_t _ hi]
    push_cast
    linarith
  · intro i hi k h1 h2
    rw [keyLen] at hi
    rw [keyRec_t i hi] at h1 h2
    rw [keyRec_y i hi]
    have a1 : (8 * k : ℚ) < i := by linarith
    have a2 : (i : ℚ) < 8 * k + 8 := by linarith
    have b1 : 8 * k < (i : ℤ) := by exact_mod_cast a1
    have b2 : (i : ℤ) < 8 * k + 8 := by exact_mod_cast a2
    have b3 : ((i / 8 : ℕ) : ℤ) = k := by omega
    unfold keyY
    rw [if_neg (by omega), b3]
    unfold Past keyLevels
    cases keySym k <;> norm_num
  · intro i hi k h1 h2
    rw [keyLen] at hi
    rw [keyRec_t i hi] at h1
    rw [keyRec_y i hi]
    have b3 := key_at i k h1
    have b4 : ((i / 8 : ℕ) : ℤ) = k := by omega
    unfold keyY
    rw [b4, if_neg (by simp [h2])]
    unfold Past keyLevels
    cases keySym k <;> norm_num
  · intro j hj i hi k h1 h2
    rw [keyLen] at hj
    rw [keyRec_t i (by omega)] at h1
    rw [keyRec_t j hj] at h2
    have := key_at i k h1
    have := key_at j k h2
    omega
  · right
    rw [keyRec_y 0 (by norm_num)]
    change keyY 0 < 2 / 5
    decide +kernel

/-- **C102** applies: the edges of the record. -/
example : ∃ es ks, selectedEdges (keyRec.t, keyRec.y) keyLevels .both = .ok (es.map some) ∧ es.Pairwise (· < ·) ∧
    Marks keyRec.t 0 1 (1 / 20) (1 / 20 + (1 / 8 + 2 * 0)) keySym .both es ks :=
  C102_edges key_signal (by norm_num [keyLevels]) (by norm_num [keyLevels]) .both

theorem key_keyed : Keyed keyLevels .both 161 1 (1 / 8) 0 20 (1 / 20) keyRec := by
  refine ⟨key_signal, keyLen, ?_, ?_, ?_, ?_⟩
  · intro j hj
    rw [keyRec_t j hj, keyRec_t 0 (by norm_num), abs_le]
    constructor <;> (push_cast; linarith)
  · intro v hv
    obtain ⟨j, hj, rfl⟩ := List.mem_map.1 hv
    have : (j : ℚ) ≤ 160 := by exact_mod_cast (by have := List.mem_range.1 hj; omega : j ≤ 160)
    rw [abs_of_nonneg (by positivity)]
    linarith
  · intro k
    obtain h | h | h : k % 3 = 0 ∨ k % 3 = 1 ∨ k % 3 = 2 := by omega
    · refine ⟨k + 1, by omega, by omega, ?_, rfl⟩
      have h1 : (k + 1 - 1) % 3 = 0 := by omega
      have h2 : (k + 1) % 3 = 1 := by omega
      simp [keyRec, keySym, h, h2]
    · refine ⟨k + 1, by omega, by omega, ?_, rfl⟩
      have h2 : (k + 1) % 3 = 2 := by omega
      simp [keyRec, keySym, h, h2]
    · refine ⟨k + 2, by omega, by omega, ?_, rfl⟩
      have h1 : (k + 2 - 1) % 3 = 0 := by omega
      have h2 : (k + 2) % 3 = 1 := by omega
      simp [keyRec, keySym, h1, h2]
  · rw [keyRec_t _ (by norm_num), keyRec_t 0 (by norm_num)]
    norm_num

/-- **C102** applies to doubles: two records. -/
example : Fits double (meanF double) 321 322 161 keyLevels .both (1 / 5) 1 (1 / 8) 0 20 (1 / 20) (1 / 10) 1 (100 * ((321 + 1) * double.u) * (20 + 1))
    [keyRec, keyRec] := by
  have hu : double.u = 1 / 2 ^ 53 := rfl
  refine ⟨meanF_isMean double 322, by rw [hu]; norm_num, by rw [hu]; norm_num, by norm_num, ?_, by norm_num, by norm_num [keyLevels],
    by rw [hu]; norm_num, by rw [hu]; norm_num, ⟨?_, by rw [hu]; norm_num⟩, ?_, by norm_num, by simp⟩
  · have h1 : keyRec.t.head? = some 0 := by decide +kernel
    have h2 : keyRec.t.getLast? = some 20 := by decide +kernel
    simp only [List.map_cons, tDeltaF, h1, h2, keyLen]
    decide +kernel
  · intro r hr
    simp only [List.mem_cons, List.not_mem_nil, or_false, or_self] at hr
    subst hr
    intro y hy
    obtain ⟨j, -, rfl⟩ := List.mem_map.1 hy
    unfold keyY
    split
    · norm_num
    · split <;> norm_num
  · intro r hr
    simp only [List.mem_cons, List.not_mem_nil, or_false, or_self] at hr
    subst hr
    exact key_keyed

end Verif.Props.Keyed
