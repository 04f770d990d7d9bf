import Verif.Props.FloatDecode
import Verif.Props.FloatRecover

/-!
C108: the eye diagram with its default clock recovery decodes what was sent, in double precision.
-/

namespace Verif.Props.FloatBits

open Verif Verif.Lines Verif.Eye Verif.Cdr Verif.Pam2 Verif.Pipeline Verif.Float Verif.Props.Float Verif.Props.FloatStats Verif.Props.FloatEye
  Verif.Props.EyeWindow Verif.Props.EyeMask Verif.Props.Pam2Vertical Verif.Props.FloatCdr Verif.Props.OpenEye Verif.Props.Pam2Bits Verif.Props.FloatPam2
  Verif.Props.Pam2Clock Verif.Props.FloatDecode Verif.Props.FloatFit Verif.Props.CdrSearch Verif.Props.FloatSearch Verif.Props.FloatRecover

/-! ### Specification -/

/-- Clean records (see `Clean`) for the default clock recovery with a configured period `t0` at most 0.9 % off.  The edges of a record are at most twelve
symbols apart, on average at most `β`, and jitter by at most a 32nd of a symbol; `κ` bounds the error of the recovered periods; `ε` bounds how far the
clock edges are from the centres of the symbols: the eye is open in the width that the decision looks at.  `η = 10 ^ 4 (d + 1) u (2 A + T)` bounds the
rounding errors. -/
structure Default (u : ℚ) (sampling : Except PyErr ℚ) (d n N : ℕ) (l : Levels ℚ) (p : Polarity) (lw t0 T δ τ A J D m Y η β κ ε : ℚ) (rs : List Received) :
    Prop where
  fine : (d + 1) * u ≤ 1 / 10 ^ 5
  number : 10 ^ 5 * u * N ≤ 1
  eta : η = 10 ^ 4 * ((d + 1) * u) * (2 * A + T)
  small : 100 * η ≤ T
  step : sampling = .ok δ
  pos : 0 < N ∧ 0 < δ ∧ 0 < T ∧ 0 ≤ A ∧ 0 ≤ lw ∧ lw ≤ 1
  configured : |t0 - T| ≤ 9 / 1000 * T
  quiet : 32 * (J + η) ≤ T
  locks : (2 + 7 / 2 * β) * (J + 2 * η) ≤ 2 / 5 * T
  eps : (1 + 7 / 2 * β) * (J + 2 * η) + κ ≤ ε
  sampled : 2 * (δ + ε) ≤ T
  wide : max (lw * (T + κ + η)) (101 / 100 * δ) / 2 + 51 / 100 * δ + ε + κ + η + τ ≤ D
  high : (∀ r ∈ rs, ∀ y ∈ r.y, |y| ≤ Y) ∧ 2 * (d + 1) * u * Y < m
  clean : ∀ r ∈ rs, Clean (34 * u * A) l p N T δ τ A J D m r
  counts : N ≤ n ∧ (∀ r ∈ rs, r.edges.length ≤ n) ∧ (rs.map fun r => (r.last - r.first).toNat).sum ≤ n
  two : ∃ r ∈ rs, 2 ≤ r.last - r.first
  gaps : ∀ r ∈ rs, (r.first :: r.others).IsChain fun a b => a < b ∧ b ≤ a + 12
  unit : ∀ r ∈ rs, T ≤ 3 / 2 * ((r.edges.length : ℚ) - 1)
  accurate : ∀ r ∈ rs, 7 / 2 * (J + 2 * η) ≤ κ * ((r.edges.length : ℚ) - 1)
  often : ∀ r ∈ rs, (r.last - r.first : ℚ) ≤ β * ((r.edges.length : ℚ) - 1)
  first : ∀ r ∈ rs, (r.last - r.first : ℚ) ≤ 6 * (firstPoints r.edges.length - 1 : ℕ)

/-! ### The symbol period -/

/-- Of clocks whose periods are near `T`, the symbol period is near `T`. -/
theorem period_near (R : Rounding) (mean : List ℚ → ℚ) (d : ℕ) (clks : List (List ℚ)) (T e q : ℚ) (hT : 0 < T) (he : 100 * e ≤ T)
    (hq : 2 * q ≤ T) (hm : IsMean R d ((clks.map fun l => l.length - 1).sum) mean) (hd : (d + 1) * R.u ≤ 1 / 100) (h2 : ∃ l ∈ clks, 2 ≤ l.length)
    (hc : ∀ l ∈ clks, ∃ s P, |P - T| ≤ q ∧ ∀ i (h : i < l.length), |l[i] - (s + i * P)| ≤ e) :
    ∃ T', symbolPeriodF R mean clks = .ok (some T') ∧ |T' - T| ≤ q + 3 * e + 5 * ((d + 1) * R.u) * T := by
  have hun := R.u_nonneg
  have hus := R.u_small
  obtain ⟨l0, hl0, hl2⟩ := h2
  have he0 : 0 ≤ e := by
    obtain ⟨s, P, -, hs⟩ := hc l0 hl0
    exact (abs_nonneg _).trans (hs 0 (by omega))
  have hue : R.u * e ≤ 1 / 100 * e := mul_le_mul_of_nonneg_right hus he0
  have huT : R.u * T ≤ 1 / 100 * T := mul_le_mul_of_nonneg_right hus hT.le
  have huT0 : 0 ≤ R.u * T := mul_nonneg hun hT.le
  have huq : R.u * q ≤ R.u * (T / 2) := mul_le_mul_of_nonneg_left (by linarith) hun
  set ps := (clks.map (diffsF R)).flatten with hps
  have hnear : ∀ x ∈ ps, |x - T| ≤ q + 3 * e + 2 * R.u * T := by
    intro x hx
    obtain ⟨l, hl, hxl⟩ := List.mem_flatten.1 hx
    obtain ⟨l', hl', rfl⟩ := List.mem_map.1 hl
    obtain ⟨i, hi, rfl⟩ := mem_diffsF R l' x hxl
    obtain ⟨s, P, hP, hs⟩ := hc l' hl'
    have hP' := abs_le.1 hP
    have a1 := abs_le.1 (hs i (by omega))
    have a2 := abs_le.1 (hs (i + 1) hi)
    push_cast at a2
    generalize l'[i + 1] = p at *
    generalize l'[i] = r at *
    have hpq : |p - r - T| ≤ q + 2 * e := by rw [abs_le]; constructor <;> linarith
    have hpq' := abs_le.1 hpq
    have e1 := R.err (p - r)
    have hab : |p - r| ≤ T + (q + 2 * e) := by rw [abs_le]; constructor <;> linarith
    have e2 : R.u * |p - r| ≤ R.u * (T + (q + 2 * e)) := mul_le_mul_of_nonneg_left hab hun
    rw [show R.fl (p - r) - T = (R.fl (p - r) - (p - r)) + (p - r - T) by ring]
    refine (abs_add_le _ _).trans ?_
    linarith
  have hne : ps ≠ [] := by
    have : (diffsF R l0) ≠ [] := by
      intro hcon
      have := diffsF_length R l0
      rw [hcon, List.length_nil] at this
      omega
    obtain ⟨x, hx⟩ := List.exists_mem_of_ne_nil _ this
    exact List.ne_nil_of_mem (List.mem_flatten.2 ⟨_, List.mem_map.2 ⟨l0, hl0, rfl⟩, hx⟩)
  have hlen : ps.length = (clks.map fun l => l.length - 1).sum := by
    rw [hps, List.length_flatten, List.map_map]
    congr 1
    apply List.map_congr_left
    intro l _
    exact diffsF_length R l
  have hD : 0 ≤ ((d : ℚ) + 1) * R.u := by positivity
  have hDu : R.u ≤ ((d : ℚ) + 1) * R.u := by nlinarith
  have hDT : R.u * T ≤ ((d : ℚ) + 1) * R.u * T := mul_le_mul_of_nonneg_right hDu hT.le
  have hDT2 : ((d : ℚ) + 1) * R.u * T ≤ 1 / 100 * T := mul_le_mul_of_nonneg_right hd hT.le
  have m1 := mean_of_near R d _ mean hm hd ps T (q + 3 * e + 2 * R.u * T) hT (by linarith) hne hlen.le hnear
  have hall : ps.filter (· < R.fl (10 * mean ps)) = ps := by
    rw [List.filter_eq_self]
    intro x hx
    rw [decide_eq_true_iff]
    have a1 := abs_le.1 (hnear x hx)
    have a2 := abs_le.1 m1
    have hpos : 0 < 10 * mean ps := by linarith
    have e1 := R.err (10 * mean ps)
    rw [abs_of_pos hpos] at e1
    have e2 := abs_le.1 e1
    have e3 : R.u * (10 * mean ps) ≤ 1 / 100 * (10 * mean ps) := mul_le_mul_of_nonneg_right hus hpos.le
    linarith
  refine ⟨mean ps, ?_, by linarith⟩
  unfold symbolPeriodF
  rw [if_neg (List.ne_nil_of_mem hl0)]
  simp only
  rw [← hps, if_neg hne, hall, if_neg hne]

/-! ### The clock of a record -/

theorem map_getD (l : List ℚ) : (List.range l.length).map (fun i : ℕ => l.getD i 0) = l := by
  apply List.ext_getElem
  · simp
  · intro i h1 h2
    simp only [List.getElem_map, List.getElem_range]
    rw [List.getD_eq_getElem _ _ h2]

/-- The clock of a clean record with the default clock recovery. -/
theorem clock_default (R : Floats) (mean : List ℚ → ℚ) (dot : List (ℚ × ℚ) → ℚ) (sort : List Scored → List Scored) (compiled : Bool) (d n N : ℕ)
    (l : Levels ℚ) (p : Polarity) (t0 T δ τ A J D m η β κ : ℚ) (r : Received) (hmean : IsMean R.toRounding d n mean)
    (hdot : IsProd R.toRounding d n dot) (hsort : Reorders sort) (hbest : BestFirst sort) (hd : (d + 1) * R.u ≤ 1 / 10 ^ 5)
    (heta : η = 10 ^ 4 * ((d + 1) * R.u) * (2 * A + T)) (hsmall : 100 * η ≤ T) (hT : 0 < T) (hA : 0 ≤ A) (ht0 : |t0 - T| ≤ 9 / 1000 * T)
    (hquiet : 32 * (J + η) ≤ T) (hlocks : (2 + 7 / 2 * β) * (J + 2 * η) ≤ 2 / 5 * T) (hr : Clean (34 * R.u * A) l p N T δ τ A J D m r)
    (hn : r.edges.length ≤ n) (hgap : (r.first :: r.others).IsChain fun a b => a < b ∧ b ≤ a + 12) (hunit : T ≤ 3 / 2 * ((r.edges.length : ℚ) - 1))
    (hacc : 7 / 2 * (J + 2 * η) ≤ κ * ((r.edges.length : ℚ) - 1)) (hβ : (r.last - r.first : ℚ) ≤ β * ((r.edges.length : ℚ) - 1))
    (hfirst : (r.last - r.first : ℚ) ≤ 6 * (firstPoints r.edges.length - 1 : ℕ)) :
    ∃ (e : List ℚ) (clk ties : List ℚ), selectedEdgesF R.toRounding (r.t, r.y) l p = .ok (e.map some) ∧
      recoverF R.toRounding mean dot sort compiled ⟨some t0, false⟩ e false = .ok (clk, ties) ∧
      r.last - r.first ≤ clk.length ∧ clk.length ≤ r.last - r.first + 1 ∧
      (∃ s P, |P - T| ≤ κ ∧ ∀ i (h : i < clk.length), |clk[i] - (s + i * P)| ≤ η / 100) ∧
      (∀ i (h : i < clk.length), |clk[i] - (r.s + (r.first + 1 / 2) * T + i * T)| ≤ (1 + 7 / 2 * β) * (J + 2 * η) + κ) := by
  have hun := R.u_nonneg
  have hus := R.u_small
  have hD : 0 ≤ (d : ℚ) * R.u := by positivity
  have hDA : 0 ≤ (d : ℚ) * R.u * A := mul_nonneg hD hA
  have hDT : 0 ≤ (d : ℚ) * R.u * T := mul_nonneg hD hT.le
  have huA : 0 ≤ R.u * A := mul_nonneg hun hA
  have huT : 0 ≤ R.u * T := mul_nonneg hun hT.le
  have huA2 : R.u * A ≤ 1 / 100 * A := mul_le_mul_of_nonneg_right hus hA
  obtain ⟨e, he1, he2, he3⟩ := selectedF_near R.toRounding (r.t, r.y) l p A r.edges hr.bound.1 hr.found (hr.apart.imp fun h => h)
  have hlen := he2.length_eq
  have hlk : r.edges.length = (r.first :: r.others).length := by
    have := hr.jitter
    unfold Jittered at this
    exact this.length_eq
  have h2 := hr.two
  obtain ⟨k, hk⟩ : ∃ k, e.length = k := ⟨_, rfl⟩
  have hk' : r.edges.length = k := by omega
  have hη1 : 17 * R.u * A ≤ η := by rw [heta]; linarith
  set m : ℕ → ℤ := fun i => (r.first :: r.others).getD i 0 - r.first with hmdef
  have hmlast : m (k - 1) = r.last - r.first := by
    simp only [hmdef]
    unfold Received.last
    rw [List.getLast_eq_getElem, List.getD_eq_getElem _ _ (by omega)]
    congr 2
    omega
  have hmlast' : (m (k - 1) : ℚ) = r.last - r.first := by rw [hmlast]; push_cast; ring
  have hchain := List.isChain_iff_getElem.1 hgap
  have hT' : Ticks R.u d k (fun i => e.getD i 0) m (r.s + r.first * T) T (J + 17 * R.u * A) (2 * A) η := by
    refine ⟨by omega, by simp [hmdef], ?_, ?_, ?_, ?_, ?_, ?_, hT, by linarith, hd, heta, hsmall, by rw [← hk']; exact hunit⟩
    · intro i hi
      have := hchain i (by omega)
      simp only [hmdef]
      rw [List.getD_eq_getElem _ _ (by omega), List.getD_eq_getElem _ _ (by omega)]
      omega
    · intro i hi
      have := hchain i (by omega)
      simp only [hmdef]
      rw [List.getD_eq_getElem _ _ (by omega), List.getD_eq_getElem _ _ (by omega)]
      omega
    · rw [hmlast', ← hk']
      exact hr.dense.2
    · intro i hi
      have hj := hr.jitter
      unfold Jittered at hj
      have a1 := (List.forall₂_iff_get.1 hj).2 i (by omega) (by omega)
      have a2 := (List.forall₂_iff_get.1 he2).2 i (by omega) (by omega)
      simp only [List.get_eq_getElem] at a1 a2
      simp only [hmdef]
      rw [List.getD_eq_getElem _ _ (by omega), List.getD_eq_getElem _ _ (by omega)]
      push_cast
      have a3 := abs_add_le (e[i] - r.edges[i]) (r.edges[i] - (r.s + (((r.first :: r.others)[i] : ℤ) : ℚ) * T))
      rw [sub_add_sub_cancel] at a3
      rw [show r.s + (r.first : ℚ) * T + ((((r.first :: r.others)[i] : ℤ) : ℚ) - r.first) * T = r.s + (((r.first :: r.others)[i] : ℤ) : ℚ) * T by ring]
      linarith
    · intro i hi
      have h1 := hr.bound.2 _ (List.getElem_mem (show i < r.edges.length by omega))
      have a2 := (List.forall₂_iff_get.1 he2).2 i (by omega) (by omega)
      simp only [List.get_eq_getElem] at a2
      rw [List.getD_eq_getElem _ _ (by omega)]
      have := abs_add_le (e[i] - r.edges[i]) r.edges[i]
      rw [sub_add_cancel] at this
      linarith
    · intro i hi
      rw [List.getD_eq_getElem _ _ (by omega), List.getD_eq_getElem _ _ (by omega)]
      rcases Nat.eq_zero_or_pos i with rfl | h0
      · exact le_rfl
      · exact (List.pairwise_iff_getElem.1 he3 0 i (by omega) (by omega) h0).le
  have hk2 : (2 : ℚ) ≤ k := by
    have : 2 ≤ k := by omega
    exact_mod_cast this
  have hJ0 : 0 ≤ J := by
    have hj := hr.jitter
    unfold Jittered at hj
    exact (abs_nonneg _).trans ((List.forall₂_iff_get.1 hj).2 0 (by omega) (by simp))
  rw [hk'] at hacc hβ hfirst
  have hη0 : 0 ≤ η := by linarith
  have hβ0 : 0 ≤ β := by
    have h19 := hr.dense.1
    rw [hk'] at h19
    have : 0 * ((k : ℚ) - 1) ≤ β * ((k : ℚ) - 1) := by linarith
    exact le_of_mul_le_mul_right this (by linarith)
  have hle : (2 + 7 / 2 * β) * (J + 17 * R.u * A + η) ≤ (2 + 7 / 2 * β) * (J + 2 * η) := mul_le_mul_of_nonneg_left (by linarith) (by linarith)
  have hle1 : β * (J + 17 * R.u * A + η) ≤ β * (J + 2 * η) := mul_le_mul_of_nonneg_left (by linarith) hβ0
  obtain ⟨P, start, clk, ties, c1, c2, c3, c4, c5, c6, c7, c8, -⟩ := C107_recovers R d k _ m _ T _ _ η β t0 hT' mean dot (isMean_mono hmean (by omega))
    (fun l hl hl' => hdot l hl (by omega)) sort hsort hbest compiled ht0 (by rw [hmlast']; exact hfirst) (by rw [hmlast']; exact hβ) (by linarith)
  rw [← hk, map_getD] at c1
  have hPk : |P - T| ≤ κ := by
    have : |P - T| * ((k : ℚ) - 1) ≤ κ * ((k : ℚ) - 1) := by linarith
    exact le_of_mul_le_mul_right this (by linarith)
  have hPT : |P - T| ≤ T := by
    have h1 : |P - T| * 1 ≤ |P - T| * ((k : ℚ) - 1) := mul_le_mul_of_nonneg_left (by linarith) (abs_nonneg _)
    linarith
  have hPT' := abs_le.1 hPT
  have huP : R.u * P ≤ R.u * (2 * T) := mul_le_mul_of_nonneg_left (by linarith) hun
  refine ⟨e, clk, ties, he1, c1, by rw [← hmlast]; exact c6, by rw [← hmlast]; exact c7, ⟨start + P / 2, P, hPk, ?_⟩, ?_⟩
  · intro i h
    have := c5.centres i h
    rw [show start + P / 2 + (i : ℚ) * P = start + (i + 1 / 2) * P by ring]
    refine this.trans ?_
    rw [heta]
    linarith
  · intro i h
    have := c8 i h
    rw [show r.s + ((r.first : ℚ) + 1 / 2) * T + i * T = r.s + r.first * T + (i + 1 / 2) * T by ring]
    refine this.trans ?_
    have h0 := abs_nonneg (P - T)
    linarith

/-! ### The symbols of the records -/

/-- The clocks that are recovered, the symbol period, and the samples of the symbols. -/
theorem verticals_default (R : Floats) (mean : List ℚ → ℚ) (dot : List (ℚ × ℚ) → ℚ) (sort : List Scored → List Scored) (compiled : Bool) (d n N : ℕ)
    (l : Levels ℚ) (p : Polarity) (lw cw t0 T δ τ A J D m Y η β κ ε : ℚ) (rs : List Received) (hm : IsMean R.toRounding d n mean)
    (hdot : IsProd R.toRounding d n dot) (hsort : Reorders sort) (hbest : BestFirst sort)
    (h : Default R.u (tDeltaF R.toRounding (rs.map fun r => (r.t, r.y))) d n N l p lw t0 T δ τ A J D m Y η β κ ε rs) :
    ∃ (clk : Received → List ℚ) (T' : ℚ) (start count : Received → ℕ) (v : Received → VOut),
      verticalsF R.toRounding mean (fun e => recoverF R.toRounding mean dot sort compiled ⟨some t0, false⟩ e false) l p lw cw
          (rs.map fun r => (r.t, r.y)) = .ok (rs.map v) ∧
      ∀ r ∈ rs, r.last - r.first ≤ (clk r).length ∧ (clk r).length ≤ r.last - r.first + 1 ∧
        Clocked (r.sent T (clk r).length) (fun j => r.t.getD j 0) (clk r) T T' δ ε (κ + η) τ ∧
        OpenBy (r.sent T (clk r).length) (fun j => r.t.getD j 0) T l.half D m ∧
        sampleVerticalF R.toRounding mean r.y (sampleEdgesF R.toRounding T' δ (r.t.getD 0 0) r.y.length (clk r)) δ T' l.half lw cw = .ok (v r) ∧
        Covers (r.sent T (clk r).length) T δ ε (start r) (count r) ∧
        Found (r.sent T (clk r).length) l.half m (List.range' (start r) (count r)) (v r) := by
  obtain ⟨hd, hu, heta, hsmall, hδ, ⟨hN0, hδ0, hT0, hA, hlw0, hlw1⟩, ht0, hquiet, hlocks, heps, hT, hD, ⟨hY, hmY⟩, hr, ⟨hN, hn, hs⟩, h2, hgap, hunit, hacc,
    hβ, hfirst⟩ := h
  have hun := R.u_nonneg
  have hd' : ((d : ℚ) + 1) * R.u ≤ 1 / 100 := hd.trans (by norm_num)
  have hne : rs ≠ [] := by
    rintro rfl
    cases hδ
  obtain ⟨r0, rs', hrs⟩ := List.exists_cons_of_ne_nil hne
  have hDu0 : 0 ≤ ((d : ℚ) + 1) * R.u := by positivity
  have hη0 : 0 ≤ η := by rw [heta]; positivity
  have hr0 : r0 ∈ rs := by rw [hrs]; simp
  have hcl0 := hr r0 hr0
  have hJ0 : 0 ≤ J := by
    have h0 := hcl0.jitter
    unfold Jittered at h0
    rw [List.forall₂_iff_get] at h0
    exact (abs_nonneg _).trans (h0.2 0 (by rw [h0.1]; simp) (by simp))
  have hk2 : (2 : ℚ) ≤ r0.edges.length := by exact_mod_cast hcl0.two
  have hκ0 : 0 ≤ κ := by
    have : 0 * ((r0.edges.length : ℚ) - 1) ≤ κ * ((r0.edges.length : ℚ) - 1) := by linarith [hacc r0 hr0]
    exact le_of_mul_le_mul_right this (by linarith)
  have hβ0 : 0 ≤ β := by
    have : 0 * ((r0.edges.length : ℚ) - 1) ≤ β * ((r0.edges.length : ℚ) - 1) := by linarith [hβ r0 hr0, hcl0.dense.1]
    exact le_of_mul_le_mul_right this (by linarith)
  have hβJ : 0 ≤ β * (J + 2 * η) := mul_nonneg hβ0 (by linarith)
  have hDuT : ((d : ℚ) + 1) * R.u * T ≤ ((d : ℚ) + 1) * R.u * (2 * A + T) := mul_le_mul_of_nonneg_left (by linarith) hDu0
  -- the clocks
  have hclk := fun r hrm => clock_default R mean dot sort compiled d n N l p t0 T δ τ A J D m η β κ r hm hdot hsort hbest hd heta hsmall hT0 hA ht0 hquiet
    hlocks (hr r hrm) (hn r hrm) (hgap r hrm) (hunit r hrm) (hacc r hrm) (hβ r hrm) (hfirst r hrm)
  choose! e clk ties h1 hrun h3 h4 h5 h6 using hclk
  -- the period
  obtain ⟨T', hT1, hT2⟩ := period_near R.toRounding mean d (rs.map clk) T (η / 100) κ hT0 (by linarith) (by linarith) (isMean_mono hm (by
      refine le_trans ?_ hs
      rw [List.map_map]
      apply List.sum_le_sum
      intro r hrm
      have := h4 r hrm
      simp only [Function.comp]
      omega)) hd' (by
      obtain ⟨r, hrm, h2⟩ := h2
      refine ⟨clk r, List.mem_map.2 ⟨r, hrm, rfl⟩, ?_⟩
      have := h3 r hrm
      omega) (by
      intro c hc
      obtain ⟨r, hrm, rfl⟩ := List.mem_map.1 hc
      exact h5 r hrm)
  have hper : |T' - T| ≤ κ + η := by linarith
  -- the symbols
  have hboth : ∀ r ∈ rs, Clocked (r.sent T (clk r).length) (fun j => r.t.getD j 0) (clk r) T T' δ ε (κ + η) τ ∧
      OpenBy (r.sent T (clk r).length) (fun j => r.t.getD j 0) T l.half D m := by
    intro r hrm
    have hcl := hr r hrm
    have hN' := hcl.samples.2
    constructor
    · refine ⟨rfl, fun i hi => (h6 r hrm i hi).trans heps, hper, by linarith, ?_⟩
      intro j hj
      change j < r.y.length at hj
      exact hcl.times j (by omega)
    · intro j hj k _ _ hjk
      change j < r.y.length at hj
      refine hcl.clear j (by omega) (r.first + k) ?_
      change |r.t.getD j 0 - (r.s + ((r.first : ℚ) + 1 / 2) * T + k * T)| ≤ D at hjk
      push_cast
      rw [show r.s + ((r.first : ℚ) + k + 1 / 2) * T = r.s + ((r.first : ℚ) + 1 / 2) * T + k * T by ring]
      exact hjk
  have hsym : ∀ r ∈ rs, ∃ start count v,
      sampleVerticalF R.toRounding mean r.y (sampleEdgesF R.toRounding T' δ (r.t.getD 0 0) r.y.length (clk r)) δ T' l.half lw cw = .ok v ∧
      Covers (r.sent T (clk r).length) T δ ε start count ∧ Found (r.sent T (clk r).length) l.half m (List.range' start count) v := by
    intro r hrm
    have hcl := hr r hrm
    have hN' := hcl.samples.2
    exact C99_vertical R.toRounding mean d (r.sent T (clk r).length) (fun j => r.t.getD j 0) (clk r) T T' δ ε (κ + η) τ l.half lw cw D m Y
      (isMean_mono hm (by change r.y.length ≤ n; omega)) hd' (hboth r hrm).1 hδ0 hT hlw0 hlw1
      (by change 10 ^ 5 * R.u * (r.y.length : ℚ) ≤ 1; rw [hN']; exact hu) (hY r hrm) hmY (by rw [← add_assoc T]; linarith) (hboth r hrm).2
  haveI : Inhabited VOut := ⟨VOut.empty⟩
  choose! start count v g1 g2 g3 using hsym
  refine ⟨clk, T', start, count, v, ?_, fun r hrm => ⟨h3 r hrm, h4 r hrm, (hboth r hrm).1, (hboth r hrm).2, g1 r hrm, g2 r hrm, g3 r hrm⟩⟩
  unfold verticalsF
  rw [hδ]
  simp only [bind, Except.bind, pure, Except.pure]
  rw [mapM_map_ok _ _ clk rs (by
    intro r hrm
    rw [h1 r hrm]
    simp only
    rw [mapM_number]
    simp only
    rw [hrun r hrm])]
  simp only
  rw [hT1]
  simp only
  rw [List.zip_map']
  refine mapM_map_ok _ _ _ _ ?_
  intro r hrm
  have hpos : 0 < r.t.length := by
    rw [(hr r hrm).samples.1]
    exact hN0
  have hget : pyGet r.t 0 = .ok (r.t.getD 0 0) := by
    unfold pyGet
    rw [List.getElem?_eq_getElem hpos, List.getD_eq_getElem _ _ hpos]
  simp only
  rw [hget]
  simp only
  rw [g1 r hrm]

/-! ### C108 -/

/-- **C108.** From the samples to the directions of the edges, all in rounded arithmetic: for clean records, `calculate` with the default clock recovery
finds what was sent, for symbols that follow each other, all that are far enough from the ends of the record. -/
theorem C108_directions (R : Floats) (mean : List ℚ → ℚ) (dot : List (ℚ × ℚ) → ℚ) (sort : List Scored → List Scored) (compiled : Bool) (d n N : ℕ)
    (l : Levels ℚ) (p : Polarity) (lw cw t0 T δ τ A J D m Y η β κ ε : ℚ) (rs : List Received) (hm : IsMean R.toRounding d n mean)
    (hdot : IsProd R.toRounding d n dot) (hsort : Reorders sort) (hbest : BestFirst sort)
    (h : Default R.u (tDeltaF R.toRounding (rs.map fun r => (r.t, r.y))) d n N l p lw t0 T δ τ A J D m Y η β κ ε rs) :
    ∃ num start count : Received → ℕ,
      directionsF R.toRounding mean (fun e => recoverF R.toRounding mean dot sort compiled ⟨some t0, false⟩ e false) l p lw cw
          (rs.map fun r => (r.t, r.y)) =
        .ok (rs.map fun r => (List.range' (start r) (count r)).map fun k : ℕ => dir (r.sym (r.first + k - 1)) (r.sym (r.first + k))) ∧
      ∀ r ∈ rs, r.last - r.first ≤ num r ∧ num r ≤ r.last - r.first + 1 ∧ Covers (r.sent T (num r)) T δ ε (start r) (count r) := by
  obtain ⟨clk, T', start, count, v, hv, hall⟩ := verticals_default R mean dot sort compiled d n N l p lw cw t0 T δ τ A J D m Y η β κ ε rs hm hdot hsort hbest h
  refine ⟨fun r => (clk r).length, start, count, ?_, fun r hrm => ⟨(hall r hrm).1, (hall r hrm).2.1, (hall r hrm).2.2.2.2.2.1⟩⟩
  unfold directionsF
  rw [hv]
  simp only [bind, Except.bind, pure, Except.pure]
  rw [List.map_map]
  congr 1
  apply List.map_congr_left
  intro r hrm
  simp only [Function.comp]
  rw [(hall r hrm).2.2.2.2.2.2.dirs]
  apply List.map_congr_left
  intro k _
  change dir (r.sym (r.first + ((k : ℤ) - 1))) (r.sym (r.first + k)) = _
  rw [add_sub_assoc]

/-- **C108.** Without a period (no record has more than one recovered clock edge) `calculate` fails with a ValueError. -/
theorem C108_no_period (R : Rounding) (mean : List ℚ → ℚ) (cdr : List ℚ → Except PyErr (List ℚ × List ℚ)) (l : Levels ℚ) (p : Polarity) (lw cw δ : ℚ)
    (wfs : List Wave) (hδ : tDeltaF R wfs = .ok δ)
    (h : ∀ w ∈ wfs, ∃ es e r, selectedEdgesF R w l p = .ok es ∧ es.mapM number = .ok e ∧ cdr e = .ok r ∧ r.1.length ≤ 1) :
    verticalsF R mean cdr l p lw cw wfs = .error .valueError ∧ directionsF R mean cdr l p lw cw wfs = .error .valueError := by
  have key : ∀ ws : List Wave, (∀ w ∈ ws, ∃ es e r, selectedEdgesF R w l p = .ok es ∧ es.mapM number = .ok e ∧ cdr e = .ok r ∧ r.1.length ≤ 1) →
      ∃ clk : List (List ℚ), (ws.mapM fun w => do
        let e ← (← selectedEdgesF R w l p).mapM number
        let r ← cdr e
        return r.1) = .ok clk ∧ ∀ c ∈ clk, c.length ≤ 1 := by
    intro ws
    induction ws with
    | nil => intro _; exact ⟨[], rfl, by simp⟩
    | cons w ws ih =>
      intro hw
      obtain ⟨es, e, r, h1, h2, h3, h4⟩ := hw w (by simp)
      obtain ⟨clk, h5, h6⟩ := ih fun v hv => hw v (List.mem_cons_of_mem _ hv)
      refine ⟨r.1 :: clk, ?_, ?_⟩
      · simp only [bind, Except.bind, pure, Except.pure] at h5
        rw [List.mapM_cons]
        simp only [bind, Except.bind, h1, h2, h3, h5, pure, Except.pure]
      · intro c hc
        rcases List.mem_cons.1 hc with rfl | hc
        · exact h4
        · exact h6 c hc
  obtain ⟨clk, h1, h2⟩ := key wfs h
  have hv : verticalsF R mean cdr l p lw cw wfs = .error .valueError := by
    unfold verticalsF
    rw [hδ]
    simp only [bind, Except.bind, pure, Except.pure] at h1 ⊢
    rw [h1]
    simp only
    have hp : (clk.map (diffsF R)).flatten = [] := by
      rw [List.flatten_eq_nil_iff]
      intro d hd
      obtain ⟨c, hc, rfl⟩ := List.mem_map.1 hd
      have := h2 c hc
      match c, this with
      | [], _ => rfl
      | [_], _ => rfl
      | _ :: _ :: _, h => simp at h
    unfold symbolPeriodF
    by_cases hc : clk = []
    · rw [if_pos hc]
    · rw [if_neg hc, hp]
      rfl
  refine ⟨hv, ?_⟩
  unfold directionsF
  rw [hv]
  rfl

/-- **C108.** The bits, read as NRZM: one for a change of the level, zero for none. -/
theorem C108_nrzm (R : Floats) (mean : List ℚ → ℚ) (dot : List (ℚ × ℚ) → ℚ) (sort : List Scored → List Scored) (compiled : Bool) (d n N : ℕ)
    (l : Levels ℚ) (p : Polarity) (lw cw t0 T δ τ A J D m Y η β κ ε : ℚ) (rs : List Received) (hm : IsMean R.toRounding d n mean)
    (hdot : IsProd R.toRounding d n dot) (hsort : Reorders sort) (hbest : BestFirst sort)
    (h : Default R.u (tDeltaF R.toRounding (rs.map fun r => (r.t, r.y))) d n N l p lw t0 T δ τ A J D m Y η β κ ε rs) :
    ∃ (num start count : Received → ℕ) (dirs : List (List ℤ)),
      directionsF R.toRounding mean (fun e => recoverF R.toRounding mean dot sort compiled ⟨some t0, false⟩ e false) l p lw cw
        (rs.map fun r => (r.t, r.y)) = .ok dirs ∧
      bitStream true (some dirs) true =
        .ok (rs.map fun r => (List.range' (start r) (count r)).map fun k : ℕ => if r.sym (r.first + k) = r.sym (r.first + k - 1) then 0 else 1) ∧
      ∀ r ∈ rs, r.last - r.first ≤ num r ∧ num r ≤ r.last - r.first + 1 ∧ Covers (r.sent T (num r)) T δ ε (start r) (count r) := by
  obtain ⟨num, start, count, h1, h2⟩ := C108_directions R mean dot sort compiled d n N l p lw cw t0 T δ τ A J D m Y η β κ ε rs hm hdot hsort hbest h
  refine ⟨num, start, count, _, h1, ?_, h2⟩
  unfold bitStream
  simp only [Bool.not_true, Bool.false_eq_true, if_false, if_true]
  rw [List.map_map]
  congr 1
  apply List.map_congr_left
  intro r _
  simp only [Function.comp, bitsM, List.map_map]
  apply List.map_congr_left
  intro k _
  simp only [Function.comp]
  unfold dir
  cases r.sym (r.first + k) <;> cases r.sym (r.first + k - 1) <;> simp

/-- **C108.** The bits, read as NRZL: the levels, except that a record with only ones is decoded as zeros (`C46_constant_fails`). -/
theorem C108_nrzl_partial (R : Floats) (mean : List ℚ → ℚ) (dot : List (ℚ × ℚ) → ℚ) (sort : List Scored → List Scored) (compiled : Bool) (d n N : ℕ)
    (l : Levels ℚ) (p : Polarity) (lw cw t0 T δ τ A J D m Y η β κ ε : ℚ) (rs : List Received) (hm : IsMean R.toRounding d n mean)
    (hdot : IsProd R.toRounding d n dot) (hsort : Reorders sort) (hbest : BestFirst sort)
    (h : Default R.u (tDeltaF R.toRounding (rs.map fun r => (r.t, r.y))) d n N l p lw t0 T δ τ A J D m Y η β κ ε rs) :
    ∃ (num start count : Received → ℕ) (dirs : List (List ℤ)),
      directionsF R.toRounding mean (fun e => recoverF R.toRounding mean dot sort compiled ⟨some t0, false⟩ e false) l p lw cw
        (rs.map fun r => (r.t, r.y)) = .ok dirs ∧
      bitStream true (some dirs) false =
        .ok (rs.map fun r => (List.range' (start r) (count r)).map fun k : ℕ =>
          if (∀ i ∈ List.range' (start r) (count r), r.sym (r.first + (i - 1)) = true ∧ r.sym (r.first + i) = true) then 0
          else if r.sym (r.first + k) then 1 else 0) ∧
      ∀ r ∈ rs, r.last - r.first ≤ num r ∧ num r ≤ r.last - r.first + 1 ∧ Covers (r.sent T (num r)) T δ ε (start r) (count r) := by
  obtain ⟨num, start, count, h1, h2⟩ := C108_directions R mean dot sort compiled d n N l p lw cw t0 T δ τ A J D m Y η β κ ε rs hm hdot hsort hbest h
  refine ⟨num, start, count, _, h1, ?_, h2⟩
  unfold bitStream
  simp only [Bool.not_true, Bool.false_eq_true, if_false]
  rw [List.map_map]
  congr 1
  apply List.map_congr_left
  intro r _
  simp only [Function.comp, add_sub_assoc]
  exact bitsL_sent (fun k => r.sym (r.first + k)) (start r) (count r)

/-! ### Doubles -/

/-- The symbols of `exSym`, four samples per symbol; the first sample after a change has gone four fifths or three quarters of the way, so the edges
jitter. -/
def exRec2 : Received :=
  ⟨(List.range 40).map fun j : ℕ => (j : ℚ) / 4,
   (List.range 40).map fun j : ℕ =>
     let k := ⌊((j : ℚ) / 4 - 1 / 8)⌋
     if ((j : ℚ) / 4 - 1 / 8) - k < 1 / 4 ∧ exSym k ≠ exSym (k - 1) then (if exSym k then (if k % 6 = 2 then 3 / 4 else 4 / 5) else 1 / 5)
     else if exSym k then 1 else 0,
   [5 / 32, 37 / 32, 13 / 6, 133 / 32, 197 / 32, 229 / 32, 49 / 6], 0, [1, 2, 4, 6, 7, 8], 31 / 192, exSym⟩

/-- The record is clean. -/
theorem ex_clean2 : Clean (34 * doubles.u * 10) ⟨0, 1, 1 / 2, 3 / 5, 2 / 5, false⟩ .both 40 1 (1 / 4) 0 10 (1 / 192) (1 / 3) (1 / 2) exRec2 := by
  refine ⟨⟨rfl, rfl⟩, by decide +kernel, ⟨by decide +kernel, by decide +kernel⟩, ?_, by decide +kernel, by decide, ?_, by decide +kernel, ?_⟩
  · have h : edgesNp exRec2.t exRec2.y (3 / 5) (1 / 2) (2 / 5) =
        .ok ([some (5 / 32), some (13 / 6), some (197 / 32), some (49 / 6)], [some (37 / 32), some (133 / 32), some (229 / 32)]) := by decide +kernel
    unfold selectedEdges
    simp only
    rw [h]
    exact congrArg Except.ok (sortNan_eq _ exRec2.edges (by decide +kernel) (by decide +kernel))
  · unfold Jittered exRec2
    refine .cons ?_ (.cons ?_ (.cons ?_ (.cons ?_ (.cons ?_ (.cons ?_ (.cons ?_ .nil)))))) <;> decide +kernel
  · have key : ∀ j < 40, ∀ k ∈ Finset.Icc (-2 : ℤ) 11, |exRec2.t.getD j 0 - (exRec2.s + ((k : ℤ) + 1 / 2) * 1)| ≤ (1 : ℚ) / 3 →
        (exRec2.sym k = true → (1 : ℚ) / 2 + 1 / 2 ≤ exRec2.y.getD j 0) ∧ (exRec2.sym k = false → exRec2.y.getD j 0 ≤ (1 : ℚ) / 2 - 1 / 2) := by
      decide +kernel
    intro j hj k hk
    refine key j hj k ?_ hk
    have ht : ∀ j < 40, 0 ≤ exRec2.t.getD j 0 ∧ exRec2.t.getD j 0 ≤ 10 := by decide +kernel
    have h1 := ht j hj
    have h2 := abs_le.1 hk
    have h3 : exRec2.s = 31 / 192 := rfl
    rw [h3] at h2
    rw [Finset.mem_Icc]
    constructor
    · have : (-2 : ℚ) ≤ k := by linarith
      exact_mod_cast this
    · have : (k : ℚ) ≤ 11 := by linarith
      exact_mod_cast this

/-- **C108** applies to doubles: two records with jitter and a configured period that is 0.5 % off. -/
example : Default doubles.u (tDeltaF doubles.toRounding ([exRec2, exRec2].map fun r => (r.t, r.y))) 39 40 40 ⟨0, 1, 1 / 2, 3 / 5, 2 / 5, false⟩ .both
      (1 / 5) (1005 / 1000) 1 (1 / 4) 0 10 (1 / 192) (1 / 3) (1 / 2) 1 (10 ^ 4 * ((39 + 1) * doubles.u) * (2 * 10 + 1)) (4 / 3) (1 / 256) (1 / 24)
      [exRec2, exRec2] ∧
    IsMean doubles.toRounding 39 40 (meanF doubles.toRounding) ∧ IsProd doubles.toRounding 39 40 (prodF doubles.toRounding) ∧
    Reorders (fun l => l.mergeSort byScore) ∧ BestFirst (fun l => l.mergeSort byScore) := by
  have hu : doubles.u = 1 / 2 ^ 53 := rfl
  refine ⟨?_, meanF_isMean doubles.toRounding 40, prodF_isProd doubles.toRounding 40, mergeSort_sorts.1, mergeSort_sorts.2⟩
  have all : ∀ P : Received → Prop, P exRec2 → ∀ r ∈ [exRec2, exRec2], P r := by
    intro P h r hr
    simp only [List.mem_cons, List.not_mem_nil, or_false, or_self] at hr
    rw [hr]
    exact h
  refine ⟨by rw [hu]; norm_num, by rw [hu]; norm_num, by norm_num, by rw [hu]; norm_num, by decide +kernel, by norm_num, by norm_num [abs_of_pos],
    by rw [hu]; norm_num, by rw [hu]; norm_num, by rw [hu]; norm_num, by norm_num, by rw [hu]; norm_num, ⟨all _ (by decide +kernel), by rw [hu]; norm_num⟩,
    all _ ex_clean2, ⟨by norm_num, all _ (by decide), by decide +kernel⟩, ⟨exRec2, by simp, by decide +kernel⟩, all _ ?_, all _ ?_, all _ ?_, all _ ?_,
    all _ ?_⟩
  · unfold exRec2
    decide
  · norm_num [exRec2]
  · rw [hu]
    norm_num [exRec2]
  · norm_num [exRec2, Received.last]
  · norm_num [exRec2, Received.last, firstPoints]

/-- The hypotheses of `C108_no_period` are met: a record with a single edge, taken as the clock edge. -/
example : let w : Wave := ([0, 1, 2, 3, 4, 5], [0, 0, 0, 1, 1, 1]);
    tDeltaF double [w] = .ok 1 ∧ ∀ v ∈ [w], ∃ es e r, selectedEdgesF double v ⟨0, 1, 1 / 2, 3 / 5, 2 / 5, false⟩ .both = .ok es ∧ es.mapM number = .ok e ∧
      (fun x => Except.ok (x, x) : List ℚ → Except PyErr (List ℚ × List ℚ)) e = .ok r ∧ r.1.length ≤ 1 := by
  refine ⟨by decide +kernel, ?_⟩
  intro v hv
  rw [List.mem_singleton.1 hv]
  exact ⟨[some (5 / 2)], [5 / 2], _, by decide +kernel, by decide +kernel, rfl, by decide⟩

/-- The hypotheses of `period_near`: two clocks with periods of 1.001 and 0.999. -/
example : let clk : List (List ℚ) := [[1 / 2, 1501 / 1000, 2502 / 1000], [7, 7999 / 1000]];
    100 * (1 / 10 ^ 5) ≤ (1 : ℚ) ∧ 2 * (1 / 1000) ≤ (1 : ℚ) ∧ IsMean double 9 (clk.map fun l => l.length - 1).sum (meanF double) ∧
    (∃ l ∈ clk, 2 ≤ l.length) ∧
    ∀ l ∈ clk, ∃ s P, |P - 1| ≤ (1 : ℚ) / 1000 ∧ ∀ i (h : i < l.length), |l[i] - (s + i * P)| ≤ (1 : ℚ) / 10 ^ 5 := by
  refine ⟨by norm_num, by norm_num, isMean_mono (meanF_isMean double 10) (by decide), ⟨_, List.mem_cons_self, by decide⟩, ?_⟩
  intro l hl
  simp only [List.mem_cons, List.not_mem_nil, or_false] at hl
  rcases hl with rfl | rfl
  · exact ⟨1 / 2, 1001 / 1000, by norm_num [abs_of_pos], by decide +kernel⟩
  · exact ⟨7, 999 / 1000, by norm_num [abs_of_neg], by decide +kernel⟩

end Verif.Props.FloatBits
