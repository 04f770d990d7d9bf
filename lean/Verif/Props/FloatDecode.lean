import Verif.Props.FloatPam2
import Verif.Props.Pam2Clock

/-!
C99, from the samples to the bits: edges, clock recovery, symbol period, symbols and decisions, each in double precision.
-/

namespace Verif.Props.FloatDecode

open Verif Verif.Lines Verif.Eye Verif.Cdr Verif.Pam2 Verif.Pipeline Verif.Float Verif.Props.Float Verif.Props.FloatStats Verif.Props.FloatEye
  Verif.Props.EyeWindow Verif.Props.EyeMask Verif.Props.Pam2Vertical Verif.Props.FloatCdr Verif.Props.OpenEye Verif.Props.Pam2Bits Verif.Props.FloatPam2
  Verif.Props.Pam2Clock

/-! ### Specification -/

/-- A record and what was sent: the times and values of the samples, the data edges that exact arithmetic gives, the numbers of the symbol boundaries
that they belong to, the time of the boundary 0, and the symbols; symbol `k` is between the boundaries `k` and `k + 1`. -/
structure Received where
  t : List ℚ
  y : List ℚ
  edges : List ℚ
  first : ℤ
  others : List ℤ
  s : ℚ
  sym : ℤ → Bool

/-- The boundary of the last edge. -/
def Received.last (r : Received) : ℤ := (r.first :: r.others).getLast (List.cons_ne_nil _ _)

/-- The symbols from the one after the first edge on. -/
def Received.sent (T : ℚ) (n : ℕ) (r : Received) : Sent :=
  ⟨r.t.getD 0 0, r.y, r.s + (r.first + 1 / 2) * T, n, fun k => r.sym (r.first + k)⟩

/-- A clean record with `N` samples at the distance `δ` (up to `τ`) and symbols of the period `T`: the data edges are within `J` of the symbol
boundaries, they are apart by more than the rounding errors `g`, there are enough of them; the samples no farther than `D` from the centre of a symbol
are on its side of the threshold by at least `m`. -/
structure Clean (g : ℚ) (l : Levels ℚ) (p : Polarity) (N : ℕ) (T δ τ A J D m : ℚ) (r : Received) : Prop where
  samples : r.t.length = N ∧ r.y.length = N
  times : ∀ j < N, |r.t.getD j 0 - (r.t.getD 0 0 + j * δ)| ≤ τ
  bound : (∀ v ∈ r.t, |v| ≤ A) ∧ ∀ e ∈ r.edges, |e| ≤ A
  found : selectedEdges (r.t, r.y) l p = .ok (r.edges.map some)
  apart : r.edges.Pairwise fun a b => a + g < b
  two : 2 ≤ r.edges.length
  jitter : Jittered r.s T J r.edges (r.first :: r.others)
  dense : 19 / 20 * ((r.edges.length : ℚ) - 1) ≤ r.last - r.first ∧ r.last - r.first ≤ 49 / 10 * ((r.edges.length : ℚ) - 1)
  clear : ∀ j < N, ∀ k : ℤ, |r.t.getD j 0 - (r.s + (k + 1 / 2) * T)| ≤ D →
    (r.sym k = true → l.half + m ≤ r.y.getD j 0) ∧ (r.sym k = false → r.y.getD j 0 ≤ l.half - m)

/-- Clean records, numbers that are rounded finely enough, and settings that fit.  `η = 100 (d + 1) u (A + T)` bounds the rounding errors of the
clock; the first of the conditions that mention it says that a symbol has at least two samples, the second that the edges jitter by less than a quarter
of a symbol, the third that the eye is open in the width that the decision looks at. -/
structure Setup (R : Rounding) (mean : List ℚ → ℚ) (d n N : ℕ) (l : Levels ℚ) (p : Polarity) (lw T δ τ A J D m Y η : ℚ) (rs : List Received) :
    Prop where
  mean : IsMean R d n mean
  fine : (d + 1) * R.u ≤ 1 / 100
  number : 10 ^ 5 * R.u * N ≤ 1
  eta : η = 100 * ((d + 1) * R.u) * (A + T)
  step : tDeltaF R (rs.map fun r => (r.t, r.y)) = .ok δ
  pos : 0 < N ∧ 0 < δ ∧ 0 < T ∧ 0 ≤ A ∧ 0 ≤ lw ∧ lw ≤ 1
  sampled : 2 * (δ + J + η) ≤ T
  locks : 2 * J + η < T / 2
  wide : max (lw * (T + η)) (101 / 100 * δ) / 2 + 51 / 100 * δ + J + 2 * η + τ ≤ D
  high : (∀ r ∈ rs, ∀ y ∈ r.y, |y| ≤ Y) ∧ 2 * (d + 1) * R.u * Y < m
  clean : ∀ r ∈ rs, Clean (34 * R.u * A) l p N T δ τ A J D m r
  counts : N ≤ n ∧ (∀ r ∈ rs, r.edges.length ≤ n) ∧ (rs.map fun r => (r.last - r.first).toNat).sum ≤ n
  two : ∃ r ∈ rs, 2 ≤ r.last - r.first

/-! ### The symbol period -/

theorem avg_near (l : List ℚ) (T q : ℚ) (hne : l ≠ []) (h : ∀ x ∈ l, |x - T| ≤ q) : |avg l - T| ≤ q := by
  have hn : (0 : ℚ) < l.length := by exact_mod_cast List.length_pos_iff.2 hne
  have h1 := sum_ge l (T - q) fun y hy => by linarith [(abs_le.1 (h y hy)).1]
  have h2 := sum_le l (T + q) fun y hy => by linarith [(abs_le.1 (h y hy)).2]
  unfold avg
  rw [abs_le]
  constructor
  · have : T - q ≤ l.sum / l.length := by rw [le_div_iff₀ hn]; exact h1
    linarith
  · have : l.sum / l.length ≤ T + q := by rw [div_le_iff₀ hn]; exact h2
    linarith

/-- The rounded mean of values near `T`. -/
theorem mean_of_near (R : Rounding) (d n : ℕ) (mean : List ℚ → ℚ) (hm : IsMean R d n mean) (hd : (d + 1) * R.u ≤ 1 / 100) (l : List ℚ) (T q : ℚ)
    (hT : 0 < T) (hq : q ≤ T) (hne : l ≠ []) (hl : l.length ≤ n) (h : ∀ x ∈ l, |x - T| ≤ q) : |mean l - T| ≤ q + 3 * ((d + 1) * R.u) * T := by
  have hun := R.u_nonneg
  have h1 := mean_near R d n mean hm hd l hne hl
  have h2 := avg_near l T q hne h
  have h3 := avg_abs_le l (2 * T) (by
    intro x hx
    have := abs_le.1 (h x hx)
    rw [abs_le]
    constructor <;> linarith) hne
  have hD : 0 ≤ ((d : ℚ) + 1) * R.u := by positivity
  have h4 : 100 / 99 * (((d : ℚ) + 1) * R.u) * avg (l.map fun x => |x|) ≤ 100 / 99 * (((d : ℚ) + 1) * R.u) * (2 * T) :=
    mul_le_mul_of_nonneg_left h3 (by positivity)
  have h5 : 0 ≤ ((d : ℚ) + 1) * R.u * T := mul_nonneg hD hT.le
  rw [show mean l - T = (mean l - avg l) + (avg l - T) by ring]
  refine (abs_add_le _ _).trans ?_
  linarith

theorem mem_diffsF (R : Rounding) (l : List ℚ) (x : ℚ) (h : x ∈ diffsF R l) : ∃ i, ∃ (h : i + 1 < l.length), x = R.fl (l[i + 1] - l[i]) := by
  induction l with
  | nil => cases h
  | cons a l ih =>
    cases l with
    | nil => cases h
    | cons b l =>
      change x ∈ R.fl (b - a) :: diffsF R (b :: l) at h
      rcases List.mem_cons.1 h with rfl | h
      · exact ⟨0, by simp, rfl⟩
      · obtain ⟨i, hi, rfl⟩ := ih h
        refine ⟨i + 1, by simpa using hi, ?_⟩
        simp

theorem diffsF_length (R : Rounding) (l : List ℚ) : (diffsF R l).length = l.length - 1 := by
  induction l with
  | nil => rfl
  | cons a l ih =>
    cases l with
    | nil => rfl
    | cons b l =>
      change (R.fl (b - a) :: diffsF R (b :: l)).length = _
      rw [List.length_cons, ih]
      simp

/-- **C99 (period).** Of clocks whose edges are near those of a regular clock, the symbol period is near the period. -/
theorem C99_period (R : Rounding) (mean : List ℚ → ℚ) (d : ℕ) (clks : List (List ℚ)) (T e : ℚ) (hT : 0 < T) (he : 5 * e ≤ T)
    (hm : IsMean R d ((clks.map fun l => l.length - 1).sum) mean) (hd : (d + 1) * R.u ≤ 1 / 100) (h2 : ∃ l ∈ clks, 2 ≤ l.length)
    (hc : ∀ l ∈ clks, ∃ s, ∀ i (h : i < l.length), |l[i] - (s + i * T)| ≤ e) :
    ∃ T', symbolPeriodF R mean clks = .ok (some T') ∧ |T' - T| ≤ 3 * e + 4 * ((d + 1) * R.u) * T := by
  have hun := R.u_nonneg
  have hus := R.u_small
  obtain ⟨l0, hl0, hl2⟩ := h2
  have he0 : 0 ≤ e := by
    obtain ⟨s, hs⟩ := hc l0 hl0
    exact (abs_nonneg _).trans (hs 0 (by omega))
  have hue : R.u * e ≤ 1 / 100 * e := mul_le_mul_of_nonneg_right hus he0
  have huT : R.u * T ≤ 1 / 100 * T := mul_le_mul_of_nonneg_right hus hT.le
  have huT0 : 0 ≤ R.u * T := mul_nonneg hun hT.le
  set ps := (clks.map (diffsF R)).flatten with hps
  have hnear : ∀ x ∈ ps, |x - T| ≤ 3 * e + R.u * T := by
    intro x hx
    obtain ⟨l, hl, hxl⟩ := List.mem_flatten.1 hx
    obtain ⟨l', hl', rfl⟩ := List.mem_map.1 hl
    obtain ⟨i, hi, rfl⟩ := mem_diffsF R l' x hxl
    obtain ⟨s, hs⟩ := hc l' hl'
    have a1 := abs_le.1 (hs i (by omega))
    have a2 := abs_le.1 (hs (i + 1) hi)
    push_cast at a2
    generalize l'[i + 1] = p at *
    generalize l'[i] = q at *
    have hpq : |p - q - T| ≤ 2 * e := by rw [abs_le]; constructor <;> linarith
    have hpq' := abs_le.1 hpq
    have e1 := R.err (p - q)
    have hab : |p - q| ≤ T + 2 * e := by rw [abs_le]; constructor <;> linarith
    have e2 : R.u * |p - q| ≤ R.u * (T + 2 * e) := mul_le_mul_of_nonneg_left hab hun
    rw [show R.fl (p - q) - T = (R.fl (p - q) - (p - q)) + (p - q - T) by ring]
    refine (abs_add_le _ _).trans ?_
    linarith
  have hne : ps ≠ [] := by
    have : (diffsF R l0) ≠ [] := by
      intro hcon
      have := diffsF_length R l0
      rw [hcon, List.length_nil] at this
      omega
    obtain ⟨x, hx⟩ := List.exists_mem_of_ne_nil _ this
    exact List.ne_nil_of_mem (List.mem_flatten.2 ⟨_, List.mem_map.2 ⟨l0, hl0, rfl⟩, hx⟩)
  have hlen : ps.length = (clks.map fun l => l.length - 1).sum := by
    rw [hps, List.length_flatten, List.map_map]
    congr 1
    apply List.map_congr_left
    intro l _
    exact diffsF_length R l
  have hD : 0 ≤ ((d : ℚ) + 1) * R.u := by positivity
  have hDu : R.u ≤ ((d : ℚ) + 1) * R.u := by nlinarith
  have hDT : R.u * T ≤ ((d : ℚ) + 1) * R.u * T := mul_le_mul_of_nonneg_right hDu hT.le
  have hDT2 : ((d : ℚ) + 1) * R.u * T ≤ 1 / 100 * T := mul_le_mul_of_nonneg_right hd hT.le
  have m1 := mean_of_near R d _ mean hm hd ps T (3 * e + R.u * T) hT (by linarith) hne hlen.le hnear
  have hall : ps.filter (· < R.fl (10 * mean ps)) = ps := by
    rw [List.filter_eq_self]
    intro x hx
    rw [decide_eq_true_iff]
    have a1 := abs_le.1 (hnear x hx)
    have a2 := abs_le.1 m1
    have hpos : 0 < 10 * mean ps := by linarith
    have e1 := R.err (10 * mean ps)
    rw [abs_of_pos hpos] at e1
    have e2 := abs_le.1 e1
    have e3 : R.u * (10 * mean ps) ≤ 1 / 100 * (10 * mean ps) := mul_le_mul_of_nonneg_right hus hpos.le
    linarith
  refine ⟨mean ps, ?_, by linarith⟩
  unfold symbolPeriodF
  rw [if_neg (List.ne_nil_of_mem hl0)]
  simp only
  rw [← hps, if_neg hne, hall, if_neg hne]

/-! ### The edges -/

theorem all_some (l : List (Option ℚ)) (h : none ∉ l) : ∃ l' : List ℚ, l = l'.map some := by
  induction l with
  | nil => exact ⟨[], rfl⟩
  | cons a l ih =>
    obtain ⟨l', rfl⟩ := ih fun hn => h (List.mem_cons_of_mem _ hn)
    cases a with
    | none => exact absurd List.mem_cons_self h
    | some x => exact ⟨x :: l', rfl⟩

theorem close_some (u M H : ℚ) (l : List ℚ) : ∀ l' : List (Option ℚ), List.Forall₂ (Close u M H) (l.map some) l' →
    ∃ k : List ℚ, l' = k.map some ∧ List.Forall₂ (fun a b => |b - a| ≤ u * (M + 8 * H)) l k := by
  induction l with
  | nil =>
    intro l' h
    cases h
    exact ⟨[], rfl, .nil⟩
  | cons a l ih =>
    intro l' h
    cases h with
    | @cons _ b _ l' h1 h2 =>
      obtain ⟨k, rfl, hk⟩ := ih _ h2
      cases b with
      | none => exact absurd h1 id
      | some b => exact ⟨b :: k, rfl, .cons h1 hk⟩

theorem forall₂_gap (g : ℚ) (l k : List ℚ) (h : List.Forall₂ (fun a b => |b - a| ≤ g) l k) (hl : l.Pairwise fun a b => a + 2 * g < b) :
    k.Pairwise (· < ·) := by
  induction h with
  | nil => exact .nil
  | @cons a b l k h1 h2 ih =>
    rw [List.pairwise_cons] at hl ⊢
    refine ⟨?_, ih hl.2⟩
    intro y hy
    obtain ⟨i, hi, rfl⟩ := List.getElem_of_mem hy
    have hi' : i < l.length := by rw [h2.length_eq]; exact hi
    have h3 := hl.1 l[i] (List.getElem_mem hi')
    have h4 := abs_le.1 ((List.forall₂_iff_get.1 h2).2 i hi' hi)
    simp only [List.get_eq_getElem] at h4
    have h5 := abs_le.1 h1
    linarith

theorem sortNan_eq (l : List (Option ℚ)) (k : List ℚ) (hp : (k.map some).Perm l) (hk : k.Pairwise (· ≤ ·)) : sortNan l = k.map some := by
  obtain ⟨p1, o1⟩ := sort_spec l
  have ho : (k.map some).Pairwise Before := by
    rw [List.pairwise_map]
    exact hk.imp fun {a b} hab => Or.inr ⟨a, b, rfl, rfl, hab⟩
  refine List.Perm.eq_of_pairwise ?_ o1 ho (p1.trans hp.symm)
  rintro (_ | x) (_ | y) _ _ h1 h2
  · rfl
  · exact absurd h1 (by simp [Before])
  · exact absurd h2 (by simp [Before])
  · exact congrArg some (le_antisymm (by simpa [Before] using h1) (by simpa [Before] using h2))

/-- The edges of the configured polarity in floats are near the exact ones, in the same order. -/
theorem selectedF_near (R : Rounding) (w : Wave) (l : Levels ℚ) (p : Polarity) (A : ℚ) (edges : List ℚ) (hA : ∀ v ∈ w.1, |v| ≤ A)
    (h : selectedEdges w l p = .ok (edges.map some)) (hgap : edges.Pairwise fun a b => a + 34 * R.u * A < b) :
    ∃ k : List ℚ, selectedEdgesF R w l p = .ok (k.map some) ∧ List.Forall₂ (fun a b => |b - a| ≤ 17 * R.u * A) edges k ∧ k.Pairwise (· < ·) := by
  have hH : ∀ i, i + 1 < w.1.length → |w.1.getD (i + 1) 0 - w.1.getD i 0| ≤ 2 * A := by
    intro i hi
    rw [List.getD_eq_getElem _ _ hi, List.getD_eq_getElem _ _ (show i < w.1.length by omega)]
    have a1 := hA _ (List.getElem_mem hi)
    have a2 := hA _ (List.getElem_mem (show i < w.1.length by omega))
    have := abs_sub w.1[i + 1] w.1[i]
    linarith
  unfold selectedEdges at h
  unfold selectedEdgesF
  obtain ⟨-, h2⟩ := C80_edges R w.1 w.2 l.rising l.half l.falling A (2 * A) hA hH
  cases he : edgesNp w.1 w.2 l.rising l.half l.falling with
  | error e => rw [he] at h; cases h
  | ok rf =>
    obtain ⟨r, f⟩ := rf
    rw [he] at h
    simp only [bind, Except.bind, pure, Except.pure, Except.ok.injEq] at h
    obtain ⟨r', f', e', hr, hf⟩ := h2 r f he
    rw [e']
    simp only [bind, Except.bind, pure, Except.pure]
    have key : ∃ k : List ℚ, filterPolarity (r', f') p = k.map some ∧ List.Forall₂ (fun a b => |b - a| ≤ 17 * R.u * A) edges k := by
      have hc : R.u * (A + 8 * (2 * A)) = 17 * R.u * A := by ring
      cases p with
      | rising =>
        change r = _ at h
        rw [h] at hr
        obtain ⟨k, hk1, hk2⟩ := close_some _ _ _ _ _ hr
        rw [hc] at hk2
        exact ⟨k, hk1, hk2⟩
      | falling =>
        change f = _ at h
        rw [h] at hf
        obtain ⟨k, hk1, hk2⟩ := close_some _ _ _ _ _ hf
        rw [hc] at hk2
        exact ⟨k, hk1, hk2⟩
      | both =>
        change sortNan (r ++ f) = _ at h
        have hp := (sort_spec (r ++ f)).1
        rw [h] at hp
        obtain ⟨v, hv1, hv2⟩ := List.perm_comp_forall₂ hp (List.rel_append hr hf)
        obtain ⟨k, rfl, hk⟩ := close_some _ _ _ _ _ hv1
        rw [hc] at hk
        refine ⟨k, ?_, hk⟩
        refine sortNan_eq _ _ hv2 ((forall₂_gap _ _ _ hk (hgap.imp ?_)).imp fun h => h.le)
        intro a b hab
        linarith
    obtain ⟨k, hk1, hk2⟩ := key
    refine ⟨k, by rw [hk1], hk2, forall₂_gap _ _ _ hk2 (hgap.imp ?_)⟩
    intro a b hab
    linarith

/-! ### All steps -/

theorem isMean_mono {R : Rounding} {d n n' : ℕ} {mean : List ℚ → ℚ} (h : IsMean R d n mean) (hn : n' ≤ n) : IsMean R d n' mean :=
  fun l hne hl => h l hne (hl.trans hn)

theorem forall₂_last {α β : Type} {P : α → β → Prop} {l : List α} {k : List β} (h : List.Forall₂ P l k) :
    ∀ a ∈ l.getLast?, ∀ b ∈ k.getLast?, P a b := by
  intro a ha b hb
  have hlen := h.length_eq
  rw [Option.mem_def, List.getLast?_eq_getElem?] at ha hb
  obtain ⟨h1, rfl⟩ := List.getElem?_eq_some_iff.1 ha
  obtain ⟨h2, rfl⟩ := List.getElem?_eq_some_iff.1 hb
  have := (List.forall₂_iff_get.1 h).2 (l.length - 1) h1 (by omega)
  simp only [List.get_eq_getElem] at this
  simpa [hlen] using this

theorem mapM_number (l : List ℚ) : (l.map some).mapM number = .ok l := by
  induction l with
  | nil => rfl
  | cons a l ih =>
    rw [List.map_cons, List.mapM_cons, ih]
    rfl

theorem mapM_map_ok {α β γ : Type} (f : β → Except PyErr γ) (w : α → β) (g : α → γ) (l : List α) (h : ∀ a ∈ l, f (w a) = .ok (g a)) :
    (l.map w).mapM f = .ok (l.map g) := by
  induction l with
  | nil => rfl
  | cons a l ih =>
    rw [List.map_cons, List.mapM_cons, h a (by simp), ih fun x hx => h x (List.mem_cons_of_mem _ hx)]
    rfl

/-- The clock of a clean record. -/
theorem clock_clean (R : Rounding) (mean : List ℚ → ℚ) (d n N : ℕ) (minimize : List ℚ → ℚ → ℚ → ℚ → Except PyErr ℚ)
    (detrend : List ℚ → ℚ → Except PyErr (Option ℚ)) (l : Levels ℚ) (p : Polarity) (T δ τ A J D m : ℚ) (r : Received)
    (hm : IsMean R d n mean) (hd : (d + 1) * R.u ≤ 1 / 100) (hT : 0 < T) (hA : 0 ≤ A) (hJ : 2 * J + 100 * ((d + 1) * R.u) * (A + T) < T / 2)
    (hr : Clean (34 * R.u * A) l p N T δ τ A J D m r) (hn : r.edges.length ≤ n) :
    ∃ (e : List ℚ) (clk ties : List ℚ), selectedEdgesF R (r.t, r.y) l p = .ok (e.map some) ∧
      runF R mean minimize detrend ⟨some T, true⟩ e false = .ok (clk, ties) ∧
      r.last - r.first ≤ clk.length ∧ clk.length ≤ r.last - r.first + 1 ∧
      (∃ s, ∀ i (h : i < clk.length), |clk[i] - (s + i * T)| ≤ 24 * R.u * (A + T)) ∧
      (∀ i (h : i < clk.length), |clk[i] - (r.s + (r.first + 1 / 2) * T + i * T)| ≤ J + 100 * ((d + 1) * R.u) * (A + T)) := by
  have hun := R.u_nonneg
  have hus := R.u_small
  have hD : 0 ≤ (d : ℚ) * R.u := by positivity
  have hDA : 0 ≤ (d : ℚ) * R.u * A := mul_nonneg hD hA
  have hDT : 0 ≤ (d : ℚ) * R.u * T := mul_nonneg hD hT.le
  have huA : 0 ≤ R.u * A := mul_nonneg hun hA
  have huT : 0 ≤ R.u * T := mul_nonneg hun hT.le
  have huA2 : R.u * A ≤ 1 / 100 * A := mul_le_mul_of_nonneg_right hus hA
  have huuA : R.u * (R.u * A) ≤ R.u * (1 / 100 * A) := mul_le_mul_of_nonneg_left huA2 hun
  obtain ⟨e, he1, he2, he3⟩ := selectedF_near R (r.t, r.y) l p A r.edges hr.bound.1 hr.found (hr.apart.imp fun h => h)
  have hlen := he2.length_eq
  have hbound : ∀ x ∈ e, |x| ≤ 6 / 5 * A := by
    intro x hx
    obtain ⟨i, hi, rfl⟩ := List.getElem_of_mem hx
    have hi' : i < r.edges.length := by omega
    have h1 := hr.bound.2 _ (List.getElem_mem hi')
    have h2 := (List.forall₂_iff_get.1 he2).2 i hi' hi
    simp only [List.get_eq_getElem] at h2
    have := abs_add_le (e[i] - r.edges[i]) r.edges[i]
    rw [sub_add_cancel] at this
    linarith
  have hjit : Jittered r.s T (J + 17 * R.u * A) e (r.first :: r.others) := by
    have hj := hr.jitter
    unfold Jittered at hj ⊢
    rw [List.forall₂_iff_get] at hj he2 ⊢
    refine ⟨by omega, ?_⟩
    intro i h1 h2
    have a1 := hj.2 i (by omega) h2
    have a2 := he2.2 i (by omega) h1
    have := abs_add_le (e.get ⟨i, h1⟩ - r.edges.get ⟨i, by omega⟩) (r.edges.get ⟨i, by omega⟩ - (r.s + (((r.first :: r.others).get ⟨i, h2⟩ : ℤ) : ℚ) * T))
    rw [sub_add_sub_cancel] at this
    linarith
  obtain ⟨clk, ties, start, c1, c2, c3, -⟩ := C98_locks R mean minimize detrend d e T (6 / 5 * A) (J + 17 * R.u * A) r.s r.first r.others r.last he3
    (isMean_mono hm (by omega)) hd hbound hT (by have := hr.two; omega) hjit (List.getLast?_eq_some_getLast _) (by linarith) (by rw [← hlen]; exact hr.dense)
  have hne : e ≠ [] := by
    intro hc
    have h2 := hr.two
    rw [hlen, hc] at h2
    simp at h2
  have hcount := c2.count (e.head hne) (List.head?_eq_some_head hne) (e.getLast hne) (List.getLast?_eq_some_getLast hne)
  have hl := forall₂_last hjit _ (List.getLast?_eq_some_getLast hne) r.last (List.getLast?_eq_some_getLast _)
  have hf : |e.head hne - (r.s + r.first * T)| ≤ J + 17 * R.u * A := by
    unfold Jittered at hjit
    cases hjit with
    | cons h1 h2 => exact h1
  have hl' := abs_le.1 hl
  have hf' := abs_le.1 hf
  refine ⟨e, clk, ties, he1, c1, ?_, ?_, ⟨start + T / 2, ?_⟩, ?_⟩
  · by_contra hcon
    push Not at hcon
    have : ((clk.length : ℤ) : ℚ) + 1 ≤ r.last - r.first := by exact_mod_cast hcon
    push_cast at this
    have h3 := mul_le_mul_of_nonneg_right this hT.le
    nlinarith
  · by_contra hcon
    push Not at hcon
    have : ((r.last - r.first : ℤ) : ℚ) + 2 ≤ clk.length := by
      have : r.last - r.first + 2 ≤ clk.length := by omega
      exact_mod_cast this
    push_cast at this
    have h3 := mul_le_mul_of_nonneg_right this hT.le
    nlinarith
  · intro i h
    have := c2.centres i h
    rw [show start + T / 2 + (i : ℚ) * T = start + (i + 1 / 2) * T by ring]
    refine this.trans ?_
    linarith
  · intro i h
    have := c3 i h
    rw [show r.s + ((r.first : ℚ) + 1 / 2) * T + i * T = r.s + (r.first + i + 1 / 2) * T by ring]
    refine this.trans ?_
    linarith

/-- **C99.** From the samples to the directions of the edges, all in rounded arithmetic: for clean records, `calculate` with a clock recovery that has a
fixed period finds what was sent, for symbols that follow each other, all that are far enough from the ends of the record. -/
theorem C99_directions (R : Rounding) (mean : List ℚ → ℚ) (d n N : ℕ) (minimize : List ℚ → ℚ → ℚ → ℚ → Except PyErr ℚ)
    (detrend : List ℚ → ℚ → Except PyErr (Option ℚ)) (l : Levels ℚ) (p : Polarity) (lw cw T δ τ A J D m Y η : ℚ) (rs : List Received)
    (h : Setup R mean d n N l p lw T δ τ A J D m Y η rs) :
    ∃ num start count : Received → ℕ,
      directionsF R mean (fun e => runF R mean minimize detrend ⟨some T, true⟩ e false) l p lw cw (rs.map fun r => (r.t, r.y)) =
        .ok (rs.map fun r => (List.range' (start r) (count r)).map fun k : ℕ => dir (r.sym (r.first + k - 1)) (r.sym (r.first + k))) ∧
      ∀ r ∈ rs, r.last - r.first ≤ num r ∧ num r ≤ r.last - r.first + 1 ∧
        Covers (r.sent T (num r)) T δ (J + η) (start r) (count r) := by
  obtain ⟨hm, hd, hu, rfl, hδ, ⟨hN0, hδ0, hT0, hA, hlw0, hlw1⟩, hT, hJ, hD, ⟨hY, hmY⟩, hr, ⟨hN, hn, hs⟩, h2⟩ := h
  have hun := R.u_nonneg
  have hne : rs ≠ [] := by
    rintro rfl
    cases hδ
  obtain ⟨r0, rs', hrs⟩ := List.exists_cons_of_ne_nil hne
  have hη : 0 ≤ 100 * (((d : ℚ) + 1) * R.u) * (A + T) := by positivity
  have hJ0 : 0 ≤ J := by
    have h0 := (hr r0 (by rw [hrs]; simp)).jitter
    unfold Jittered at h0
    rw [List.forall₂_iff_get] at h0
    exact (abs_nonneg _).trans (h0.2 0 (by rw [h0.1]; simp) (by simp))
  have hDu : R.u ≤ ((d : ℚ) + 1) * R.u := by
    have : 0 ≤ (d : ℚ) * R.u := by positivity
    linarith
  have hDuAT : R.u * (A + T) ≤ ((d : ℚ) + 1) * R.u * (A + T) := mul_le_mul_of_nonneg_right hDu (by linarith)
  have hDuT : ((d : ℚ) + 1) * R.u * T ≤ ((d : ℚ) + 1) * R.u * (A + T) := mul_le_mul_of_nonneg_left (by linarith) (by positivity)
  -- the clocks
  have hclk := fun r hrm => clock_clean R mean d n N minimize detrend l p T δ τ A J D m r hm hd hT0 hA hJ (hr r hrm) (hn r hrm)
  choose! e clk ties h1 hrun h3 h4 h5 h6 using hclk
  -- the period
  obtain ⟨T', hT1, hT2⟩ := C99_period R mean d (rs.map clk) T (24 * R.u * (A + T)) hT0 (by linarith) (isMean_mono hm (by
      refine le_trans ?_ hs
      rw [List.map_map]
      apply List.sum_le_sum
      intro r hrm
      have := h4 r hrm
      simp only [Function.comp]
      omega)) hd (by
      obtain ⟨r, hrm, h2⟩ := h2
      refine ⟨clk r, List.mem_map.2 ⟨r, hrm, rfl⟩, ?_⟩
      have := h3 r hrm
      omega) (by
      intro c hc
      obtain ⟨r, hrm, rfl⟩ := List.mem_map.1 hc
      exact h5 r hrm)
  have hper : |T' - T| ≤ 100 * ((d + 1) * R.u) * (A + T) := by linarith
  -- the symbols
  have hsym : ∀ r ∈ rs, ∃ start count v, sampleVerticalF R mean r.y (sampleEdgesF R T' δ (r.t.getD 0 0) r.y.length (clk r)) δ T' l.half lw cw = .ok v ∧
      Covers (r.sent T (clk r).length) T δ (J + 100 * ((d + 1) * R.u) * (A + T)) start count ∧
      Found (r.sent T (clk r).length) l.half m (List.range' start count) v := by
    intro r hrm
    have hcl := hr r hrm
    have hN' := hcl.samples.2
    refine C99_vertical R mean d (r.sent T (clk r).length) (fun j => r.t.getD j 0) (clk r) T T' δ (J + 100 * ((d + 1) * R.u) * (A + T))
      (100 * ((d + 1) * R.u) * (A + T)) τ l.half lw cw D m Y (isMean_mono hm (by change r.y.length ≤ n; omega)) hd ?_ hδ0 (by linarith) hlw0 hlw1
      (by change 10 ^ 5 * R.u * (r.y.length : ℚ) ≤ 1; rw [hN']; exact hu) (hY r hrm) hmY (by linarith) ?_
    · refine ⟨rfl, h6 r hrm, hper, by linarith, ?_⟩
      intro j hj
      change j < r.y.length at hj
      exact hcl.times j (by omega)
    · intro j hj k _ _ hjk
      change j < r.y.length at hj
      refine hcl.clear j (by omega) (r.first + k) ?_
      change |r.t.getD j 0 - (r.s + ((r.first : ℚ) + 1 / 2) * T + k * T)| ≤ D at hjk
      push_cast
      rw [show r.s + ((r.first : ℚ) + k + 1 / 2) * T = r.s + ((r.first : ℚ) + 1 / 2) * T + k * T by ring]
      exact hjk
  haveI : Inhabited VOut := ⟨VOut.empty⟩
  choose! start count v g1 g2 g3 using hsym
  refine ⟨fun r => (clk r).length, start, count, ?_, fun r hrm => ⟨h3 r hrm, h4 r hrm, g2 r hrm⟩⟩
  have hv : verticalsF R mean (fun e => runF R mean minimize detrend ⟨some T, true⟩ e false) l p lw cw (rs.map fun r => (r.t, r.y)) = .ok (rs.map v) := by
    unfold verticalsF
    rw [hδ]
    simp only [bind, Except.bind, pure, Except.pure]
    rw [mapM_map_ok _ _ clk rs (by
      intro r hrm
      rw [h1 r hrm]
      simp only
      rw [mapM_number]
      simp only
      rw [hrun r hrm])]
    simp only
    rw [hT1]
    simp only
    rw [List.zip_map']
    refine mapM_map_ok _ _ _ _ ?_
    intro r hrm
    have hpos : 0 < r.t.length := by
      rw [(hr r hrm).samples.1]
      exact hN0
    have hget : pyGet r.t 0 = .ok (r.t.getD 0 0) := by
      unfold pyGet
      rw [List.getElem?_eq_getElem hpos, List.getD_eq_getElem _ _ hpos]
    simp only
    rw [hget]
    simp only
    rw [g1 r hrm]
  unfold directionsF
  rw [hv]
  simp only [bind, Except.bind, pure, Except.pure]
  rw [List.map_map]
  congr 1
  apply List.map_congr_left
  intro r hrm
  simp only [Function.comp]
  rw [(g3 r hrm).dirs]
  apply List.map_congr_left
  intro k _
  change dir (r.sym (r.first + ((k : ℤ) - 1))) (r.sym (r.first + k)) = _
  rw [add_sub_assoc]

/-- **C99.** The bits, read as NRZM: one for a change of the level, zero for none. -/
theorem C99_nrzm (R : Rounding) (mean : List ℚ → ℚ) (d n N : ℕ) (minimize : List ℚ → ℚ → ℚ → ℚ → Except PyErr ℚ)
    (detrend : List ℚ → ℚ → Except PyErr (Option ℚ)) (l : Levels ℚ) (p : Polarity) (lw cw T δ τ A J D m Y η : ℚ) (rs : List Received)
    (h : Setup R mean d n N l p lw T δ τ A J D m Y η rs) :
    ∃ (num start count : Received → ℕ) (dirs : List (List ℤ)),
      directionsF R mean (fun e => runF R mean minimize detrend ⟨some T, true⟩ e false) l p lw cw (rs.map fun r => (r.t, r.y)) = .ok dirs ∧
      bitStream true (some dirs) true =
        .ok (rs.map fun r => (List.range' (start r) (count r)).map fun k : ℕ => if r.sym (r.first + k) = r.sym (r.first + k - 1) then 0 else 1) ∧
      ∀ r ∈ rs, r.last - r.first ≤ num r ∧ num r ≤ r.last - r.first + 1 ∧
        Covers (r.sent T (num r)) T δ (J + η) (start r) (count r) := by
  obtain ⟨num, start, count, h1, h2⟩ := C99_directions R mean d n N minimize detrend l p lw cw T δ τ A J D m Y η rs h
  refine ⟨num, start, count, _, h1, ?_, h2⟩
  unfold bitStream
  simp only [Bool.not_true, Bool.false_eq_true, if_false, if_true]
  rw [List.map_map]
  congr 1
  apply List.map_congr_left
  intro r _
  simp only [Function.comp, bitsM, List.map_map]
  apply List.map_congr_left
  intro k _
  simp only [Function.comp]
  unfold dir
  cases r.sym (r.first + k) <;> cases r.sym (r.first + k - 1) <;> simp

/-- **C99.** The bits, read as NRZL: the levels, except that a record with only ones is decoded as zeros (`C46_constant_fails`). -/
theorem C99_nrzl_partial (R : Rounding) (mean : List ℚ → ℚ) (d n N : ℕ) (minimize : List ℚ → ℚ → ℚ → ℚ → Except PyErr ℚ)
    (detrend : List ℚ → ℚ → Except PyErr (Option ℚ)) (l : Levels ℚ) (p : Polarity) (lw cw T δ τ A J D m Y η : ℚ) (rs : List Received)
    (h : Setup R mean d n N l p lw T δ τ A J D m Y η rs) :
    ∃ (num start count : Received → ℕ) (dirs : List (List ℤ)),
      directionsF R mean (fun e => runF R mean minimize detrend ⟨some T, true⟩ e false) l p lw cw (rs.map fun r => (r.t, r.y)) = .ok dirs ∧
      bitStream true (some dirs) false =
        .ok (rs.map fun r => (List.range' (start r) (count r)).map fun k : ℕ =>
          if (∀ i ∈ List.range' (start r) (count r), r.sym (r.first + (i - 1)) = true ∧ r.sym (r.first + i) = true) then 0
          else if r.sym (r.first + k) then 1 else 0) ∧
      ∀ r ∈ rs, r.last - r.first ≤ num r ∧ num r ≤ r.last - r.first + 1 ∧
        Covers (r.sent T (num r)) T δ (J + η) (start r) (count r) := by
  obtain ⟨num, start, count, h1, h2⟩ := C99_directions R mean d n N minimize detrend l p lw cw T δ τ A J D m Y η rs h
  refine ⟨num, start, count, _, h1, ?_, h2⟩
  unfold bitStream
  simp only [Bool.not_true, Bool.false_eq_true, if_false]
  rw [List.map_map]
  congr 1
  apply List.map_congr_left
  intro r _
  simp only [Function.comp, add_sub_assoc]
  exact bitsL_sent (fun k => r.sym (r.first + k)) (start r) (count r)

/-! ### Regular sampling -/

/-- **C99.** The time between samples is computed such that regular times remain regular. -/
theorem C99_sampling (R : Rounding) (w : Wave) (ws : List Wave) (δ τ : ℚ) (hδ : 0 ≤ δ) (hN : 2 ≤ w.1.length)
    (ht : ∀ j < w.1.length, |w.1.getD j 0 - (w.1.getD 0 0 + j * δ)| ≤ τ) :
    ∃ δ', tDeltaF R (w :: ws) = .ok δ' ∧ |δ' - δ| * (w.1.length - 1) ≤ 2 * τ + 3 * R.u * ((w.1.length - 1) * δ) ∧
      ∀ j < w.1.length, |w.1.getD j 0 - (w.1.getD 0 0 + j * δ')| ≤ 3 * τ + 3 * R.u * ((w.1.length - 1) * δ) := by
  obtain ⟨t, y⟩ := w
  simp only at hN ht ⊢
  have hun := R.u_nonneg
  have hus := R.u_small
  have hτ : 0 ≤ τ := (abs_nonneg _).trans (ht 0 (by omega))
  obtain ⟨k, hk⟩ : ∃ k, t.length = k + 2 := ⟨t.length - 2, by omega⟩
  have hh : t.head? = some (t.getD 0 0) := by
    rw [List.head?_eq_getElem?, List.getElem?_eq_getElem (by omega), List.getD_eq_getElem _ _ (by omega)]
  have hl : t.getLast? = some (t.getD (k + 1) 0) := by
    rw [List.getLast?_eq_getElem?, hk, show k + 2 - 1 = k + 1 by omega, List.getElem?_eq_getElem (by omega), List.getD_eq_getElem _ _ (by omega)]
  have hlast := ht (k + 1) (by omega)
  have hk0 : (0 : ℚ) < (k : ℚ) + 1 := by positivity
  obtain ⟨a, ha, hfa⟩ := rel R (t.getD (k + 1) 0 - t.getD 0 0)
  obtain ⟨b, hb, hfb⟩ := rel R (R.fl (t.getD (k + 1) 0 - t.getD 0 0) / ((k + 1 : ℕ) : ℚ))
  have e : tDeltaF R ((t, y) :: ws) = .ok ((t.getD (k + 1) 0 - t.getD 0 0) * (1 + a) / ((k : ℚ) + 1) * (1 + b)) := by
    unfold tDeltaF
    simp only
    rw [hh, hl]
    simp only
    rw [if_neg (by omega), hk, show k + 2 - 1 = k + 1 by omega, hfb, hfa]
    push_cast
    rfl
  have hx : |t.getD (k + 1) 0 - t.getD 0 0 - (k + 1) * δ| ≤ τ := by
    rw [show t.getD (k + 1) 0 - t.getD 0 0 - ((k : ℚ) + 1) * δ = t.getD (k + 1) 0 - (t.getD 0 0 + ((k + 1 : ℕ) : ℚ) * δ) by push_cast; ring]
    exact hlast
  have hM : 0 ≤ ((k : ℚ) + 1) * δ := mul_nonneg hk0.le hδ
  have key : |(t.getD (k + 1) 0 - t.getD 0 0) * (1 + a) / ((k : ℚ) + 1) * (1 + b) - δ| * (k + 1) ≤ 2 * τ + 3 * R.u * ((k + 1) * δ) := by
    generalize t.getD (k + 1) 0 - t.getD 0 0 = x at *
    rw [← abs_of_pos hk0, ← abs_mul, abs_of_pos hk0]
    rw [show (x * (1 + a) / ((k : ℚ) + 1) * (1 + b) - δ) * (k + 1) = (x - (k + 1) * δ) + x * (a + b + a * b) by field_simp; ring]
    have hc : |a + b + a * b| ≤ 201 / 100 * R.u := by
      have h1 := abs_add_le (a + b) (a * b)
      have h2 := abs_add_le a b
      have h3 : |a * b| ≤ R.u * (1 / 100) := by
        rw [abs_mul]
        exact mul_le_mul ha (hb.trans hus) (abs_nonneg _) hun
      linarith
    have hx' : |x| ≤ (k + 1) * δ + τ := by
      have := abs_add_le (x - ((k : ℚ) + 1) * δ) ((k + 1) * δ)
      rw [sub_add_cancel, abs_of_nonneg hM] at this
      linarith
    have h4 := abs_add_le (x - ((k : ℚ) + 1) * δ) (x * (a + b + a * b))
    have h5 : |x * (a + b + a * b)| ≤ ((k + 1) * δ + τ) * (201 / 100 * R.u) := by
      rw [abs_mul]
      exact mul_le_mul hx' hc (abs_nonneg _) (by linarith)
    have h6 : τ * R.u ≤ τ * (1 / 100) := mul_le_mul_of_nonneg_left hus hτ
    have h7 : 0 ≤ ((k : ℚ) + 1) * δ * R.u := mul_nonneg hM hun
    linarith
  have hlen : ((t.length : ℚ) - 1) = k + 1 := by rw [hk]; push_cast; ring
  rw [hlen]
  refine ⟨_, e, key, ?_⟩
  intro j hj
  generalize (t.getD (k + 1) 0 - t.getD 0 0) * (1 + a) / ((k : ℚ) + 1) * (1 + b) = δ' at *
  have h1 := ht j hj
  have h2 : |(j : ℚ) * (δ' - δ)| ≤ |δ' - δ| * (k + 1) := by
    rw [abs_mul, abs_of_nonneg (by positivity : (0 : ℚ) ≤ j), mul_comm]
    refine mul_le_mul_of_nonneg_left ?_ (abs_nonneg _)
    have : j ≤ k + 1 := by omega
    exact_mod_cast this
  have h3 := abs_sub (t.getD j 0 - (t.getD 0 0 + j * δ)) (j * (δ' - δ))
  rw [show t.getD j 0 - (t.getD 0 0 + (j : ℚ) * δ) - j * (δ' - δ) = t.getD j 0 - (t.getD 0 0 + j * δ') by ring] at h3
  linarith

/-! ### Exact arithmetic -/

/-- **C99.** Without rounding the functions are those of the other properties. -/
theorem C99_exact (T δ : ℚ) :
    (∀ ys cs half lw cw, sampleVerticalF exact avg ys cs δ T half lw cw = sampleVertical ys cs δ T half lw cw) ∧
    (∀ mem ys cs half lw cw, sampleVerticalCF exact mem ys cs δ T half lw cw = sampleVerticalC mem ys cs δ T half lw cw) ∧
    (∀ e, symbolPeriodF exact avg e = symbolPeriod e) ∧ (∀ w, tDeltaF exact w = tDelta w) ∧
    (∀ w l p, selectedEdgesF exact w l p = selectedEdges w l p) := by
  have hfl : ∀ x, exact.fl x = x := fun _ => rfl
  have hg : gridTF exact T δ = gridT T δ := by
    unfold gridTF gridT
    rw [linspaceF_exact]
    rfl
  have hs : ∀ lw cw a ps, samplesF exact lw cw a ps = samples lw cw a ps := fun _ _ _ _ => rfl
  have ha : ∀ half, aboveF avg half = above half := by
    intro half
    funext l
    unfold aboveF above mean
    by_cases h : l = []
    · simp [h]
    · rw [if_neg h, if_neg h]
      rfl
  have hc : ∀ half, aboveCF exact half = aboveC half := by
    intro half
    funext l
    unfold aboveCF aboveC
    rw [show (fun s y => exact.fl (s + y)) = fun s y : ℚ => s + y from rfl, ← List.sum_eq_foldl, hfl]
  have hdiff : ∀ l, diffsF exact l = diffs l := by
    intro l
    induction l with
    | nil => rfl
    | cons a l ih =>
      cases l with
      | nil => rfl
      | cons b l =>
        change (b - a) :: diffsF exact (b :: l) = (b - a) :: diffs (b :: l)
        rw [ih]
  refine ⟨?_, ?_, ?_, ?_, ?_⟩
  · intro ys cs half lw cw
    unfold sampleVerticalF sampleVertical pointsF points
    rw [hg, ha]
    rfl
  · intro mem ys cs half lw cw
    unfold sampleVerticalCF sampleVerticalC pointsCF pointsC
    rw [hg, hc]
    rfl
  · intro e
    unfold symbolPeriodF symbolPeriod mean
    rw [show diffsF exact = diffs from funext hdiff]
    by_cases h : e = []
    · rw [if_pos h, if_pos h]
    · rw [if_neg h, if_neg h]
      by_cases h2 : (e.map diffs).flatten = []
      · simp [h2]
      · simp only [h2, if_false, hfl]
        rfl
  · intro w
    cases w with
    | nil => rfl
    | cons w ws => rfl
  · intro w l p
    unfold selectedEdgesF selectedEdges
    rw [C80_exact.1]

/-! ### Doubles -/

/-- The symbols 1011001011 after a zero, from the boundary 0 on. -/
def exSym (k : ℤ) : Bool := k.toNat ∈ [0, 2, 3, 6, 8, 9] && 0 ≤ k

/-- Four samples per symbol; the first sample after a change has only gone four fifths of the way. -/
def exRec : Received :=
  ⟨(List.range 40).map fun j : ℕ => (j : ℚ) / 4,
   (List.range 40).map fun j : ℕ =>
     let k := ⌊((j : ℚ) / 4 - 1 / 8)⌋
     if ((j : ℚ) / 4 - 1 / 8) - k < 1 / 4 ∧ exSym k ≠ exSym (k - 1) then (if exSym k then 4 / 5 else 1 / 5) else if exSym k then 1 else 0,
   [5 / 32, 37 / 32, 69 / 32, 133 / 32, 197 / 32, 229 / 32, 261 / 32], 0, [1, 2, 4, 6, 7, 8], 1 / 8, exSym⟩

/-- The record is clean. -/
theorem ex_clean : Clean (34 * double.u * 10) ⟨0, 1, 1 / 2, 3 / 5, 2 / 5, false⟩ .both 40 1 (1 / 4) 0 10 (1 / 16) (1 / 3) (1 / 2) exRec := by
  refine ⟨⟨rfl, rfl⟩, by decide +kernel, ⟨by decide +kernel, by decide +kernel⟩, ?_, by decide +kernel, by decide, ?_, by decide +kernel, ?_⟩
  · have h : edgesNp exRec.t exRec.y (3 / 5) (1 / 2) (2 / 5) =
        .ok ([some (5 / 32), some (69 / 32), some (197 / 32), some (261 / 32)], [some (37 / 32), some (133 / 32), some (229 / 32)]) := by decide +kernel
    unfold selectedEdges
    simp only
    rw [h]
    exact congrArg Except.ok (sortNan_eq _ exRec.edges (by decide +kernel) (by decide +kernel))
  · unfold Jittered exRec
    refine .cons ?_ (.cons ?_ (.cons ?_ (.cons ?_ (.cons ?_ (.cons ?_ (.cons ?_ .nil)))))) <;> decide +kernel
  · have key : ∀ j < 40, ∀ k ∈ Finset.Icc (-2 : ℤ) 11, |exRec.t.getD j 0 - (exRec.s + ((k : ℤ) + 1 / 2) * 1)| ≤ (1 : ℚ) / 3 →
        (exRec.sym k = true → (1 : ℚ) / 2 + 1 / 2 ≤ exRec.y.getD j 0) ∧ (exRec.sym k = false → exRec.y.getD j 0 ≤ (1 : ℚ) / 2 - 1 / 2) := by
      decide +kernel
    intro j hj k hk
    refine key j hj k ?_ hk
    have ht : ∀ j < 40, 0 ≤ exRec.t.getD j 0 ∧ exRec.t.getD j 0 ≤ 10 := by decide +kernel
    have h1 := ht j hj
    have h2 := abs_le.1 hk
    have h3 : exRec.s = 1 / 8 := rfl
    rw [h3] at h2
    rw [Finset.mem_Icc]
    constructor
    · have : (-2 : ℚ) ≤ k := by linarith
      exact_mod_cast this
    · have : (k : ℚ) ≤ 11 := by linarith
      exact_mod_cast this

/-- **C99** applies to doubles: two records that are decoded without error. -/
example : Setup double (meanF double) 39 40 40 ⟨0, 1, 1 / 2, 3 / 5, 2 / 5, false⟩ .both (1 / 5) 1 (1 / 4) 0 10 (1 / 16) (1 / 3) (1 / 2) 1
    (100 * ((39 + 1) * double.u) * (10 + 1)) [exRec, exRec] := by
  have hu : double.u = 1 / 2 ^ 53 := rfl
  refine ⟨meanF_isMean double 40, by rw [hu]; norm_num, by rw [hu]; norm_num, by norm_num, by decide +kernel, by norm_num, by rw [hu]; norm_num,
    by rw [hu]; norm_num, by rw [hu]; norm_num, ⟨?_, by rw [hu]; norm_num⟩, ?_, ⟨by norm_num, ?_, by decide +kernel⟩, ⟨exRec, by simp, by decide +kernel⟩⟩
  · intro r hr
    simp only [List.mem_cons, List.not_mem_nil, or_false, or_self] at hr
    subst hr
    decide +kernel
  · intro r hr
    simp only [List.mem_cons, List.not_mem_nil, or_false, or_self] at hr
    subst hr
    exact ex_clean
  · intro r hr
    simp only [List.mem_cons, List.not_mem_nil, or_false, or_self] at hr
    subst hr
    decide

/-- **C99**, the single steps: the hypotheses of the theorems about the decisions, the period and the sampling. -/
example : (let r : Sent := ⟨0, exRec.y, 5 / 8, 9, exSym⟩;
    Clocked r (fun j => exRec.t.getD j 0) ((List.range 9).map fun i : ℕ => 21 / 32 + (i : ℚ)) 1 (33 / 32) (1 / 4) (1 / 16) (1 / 32) 0 ∧
      IsMean double 39 r.y.length (meanF double) ∧ 2 * (1 / 4 + 1 / 16) ≤ (1 : ℚ) ∧ 10 ^ 5 * double.u * r.y.length ≤ 1 ∧ (∀ y ∈ r.y, |y| ≤ 1) ∧
      2 * (r.y.length + 1) * double.u * 1 < 1 / 2 ∧ max (1 / 5 * (1 + 1 / 32)) (101 / 100 * (1 / 4)) / 2 + 51 / 100 * (1 / 4) + 1 / 16 + 1 / 32 + 0 ≤ (9 : ℚ) / 25 ∧
      OpenBy r (fun j => exRec.t.getD j 0) 1 (1 / 2) (9 / 25) (1 / 2)) ∧
    (let clk : List (List ℚ) := [[1 / 2, 3 / 2 + 1 / 1000, 5 / 2], [7, 8]];
      5 * (1 / 1000) ≤ (1 : ℚ) ∧ IsMean double 9 (clk.map fun l => l.length - 1).sum (meanF double) ∧ (∃ l ∈ clk, 2 ≤ l.length) ∧
      ∀ l ∈ clk, ∃ s, ∀ i (h : i < l.length), |l[i] - (s + i * 1)| ≤ (1 : ℚ) / 1000) ∧
    ∀ j < 3, |[(0 : ℚ), nearest (1 / 10), nearest (1 / 5)].getD j 0 - (0 + j * (1 / 10))| ≤ double.u := by
  refine ⟨⟨⟨rfl, by decide +kernel, by decide +kernel, by decide +kernel, by decide +kernel⟩, meanF_isMean double 40, by norm_num, by decide +kernel,
    by decide +kernel, by decide +kernel, by decide +kernel, ?_⟩, ⟨by norm_num, ?_, ⟨_, List.mem_cons_self, by decide⟩, ?_⟩, by decide +kernel⟩
  · have key : ∀ j < 40, ∀ k ∈ Finset.Icc (-1 : ℤ) 9, |exRec.t.getD j 0 - (5 / 8 + (k : ℤ) * 1)| ≤ (9 : ℚ) / 25 →
        (exSym k = true → (1 : ℚ) / 2 + 1 / 2 ≤ exRec.y.getD j 0) ∧ (exSym k = false → exRec.y.getD j 0 ≤ (1 : ℚ) / 2 - 1 / 2) := by
      decide +kernel
    intro j hj k h1 h2
    exact key j hj k (Finset.mem_Icc.2 ⟨h1, h2⟩)
  · intro l hne hl
    exact meanF_isMean double 10 l hne (hl.trans (by decide))
  · intro l hl
    simp only [List.mem_cons, List.not_mem_nil, or_false] at hl
    rcases hl with rfl | rfl
    · exact ⟨1 / 2, by decide +kernel⟩
    · exact ⟨7, by decide +kernel⟩

end Verif.Props.FloatDecode
