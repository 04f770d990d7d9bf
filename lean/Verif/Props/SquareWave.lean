import Verif.Props.OpenEye
import Verif.Props.Pam2Clock
import Verif.Props.CdrRun
import Verif.Props.Edges

/-!
C71: a square wave is decoded: edges, clock recovery, sampling, decision and bits together.
-/

namespace Verif.Props.SquareWave

open Verif Verif.Lines Verif.Eye Verif.Pam2 Verif.Pipeline Verif.Props.Crossing Verif.Props.Edges Verif.Props.Pam2Vertical Verif.Props.Pam2Bits
  Verif.Props.Pipeline Verif.Props.OpenEye

/-! ### Specification -/

/-- A square wave: the time of the first sample and the symbols, sent from there on. -/
structure Square where
  t0 : ℚ
  sym : ℕ → Bool

/-- The samples of `M` symbols with `S` samples each. -/
def Square.values (S M : ℕ) (y0 y1 : ℚ) (q : Square) : List ℚ := (List.range (S * M)).map fun i : ℕ => if q.sym (i / S) then y1 else y0

/-- The waveform. -/
def Square.wave (S M : ℕ) (δ y0 y1 : ℚ) (q : Square) : Wave := ((List.range (S * M)).map fun i : ℕ => q.t0 + i * δ, q.values S M y0 y1)

/-- Symbol `j` begins with an edge of the polarity. -/
def changeAt (sym : ℕ → Bool) (p : Polarity) (j : ℕ) : Bool :=
  decide (1 ≤ j) && match p with
    | .rising => !sym (j - 1) && sym j
    | .falling => sym (j - 1) && !sym j
    | .both => sym (j - 1) != sym j

/-- The symbols that begin with an edge of the polarity. -/
def Square.changes (M : ℕ) (p : Polarity) (q : Square) : List ℕ := (List.range M).filter (changeAt q.sym p)

/-! ### Edges -/

section
variable (S M : ℕ) (δ y0 y1 : ℚ) (q : Square)

theorem values_length : (q.values S M y0 y1).length = S * M := by simp [Square.values]

theorem values_get (i : ℕ) (h : i < S * M) : (q.values S M y0 y1).getD i 0 = if q.sym (i / S) then y1 else y0 := by
  have h' : i < (q.values S M y0 y1).length := by rw [values_length]; exact h
  rw [List.getD_eq_getElem?_getD, List.getElem?_eq_getElem h']
  simp [Square.values]

theorem times_get (i : ℕ) (h : i < S * M) : (q.wave S M δ y0 y1).1.getD i 0 = q.t0 + i * δ := by
  have h' : i < (q.wave S M δ y0 y1).1.length := by simpa [Square.wave] using h
  rw [List.getD_eq_getElem?_getD, List.getElem?_eq_getElem h']
  simp [Square.wave]

theorem low_iff (rise fall : ℚ) (h0 : y0 < fall) (hrf : fall ≤ rise) (h1 : rise < y1) (i : ℕ) (hi : i < S * M) :
    LowBefore (q.values S M y0 y1) rise fall (i + 1) ↔ q.sym (i / S) = false := by
  rw [lowBefore_succ, values_get S M y0 y1 q i hi]
  cases q.sym (i / S)
  · simp only [Bool.false_eq_true, if_false, iff_true]
    exact Or.inl h0
  · simp only [if_true, Bool.true_eq_false, iff_false]
    rintro (h | ⟨-, h⟩)
    · linarith
    · exact h h1

theorem div_change (i : ℕ) (_hS : 0 < S) (h : i / S ≠ (i + 1) / S) : (i + 1) % S = 0 ∧ (i + 1) / S - 1 = i / S ∧ 1 ≤ (i + 1) / S := by
  have hd := Nat.succ_div (a := i) (b := S)
  generalize i / S = x at *
  generalize (i + 1) / S = y at *
  split at hd
  · rename_i hdvd
    refine ⟨Nat.mod_eq_zero_of_dvd hdvd, by omega, by omega⟩
  · omega

theorem rise_iff (rise fall : ℚ) (h0 : y0 < fall) (hrf : fall ≤ rise) (h1 : rise < y1) (hS : 0 < S) (i : ℕ) :
    RiseAt (q.values S M y0 y1) rise fall i ↔ i ∈ (q.changes M .rising).map (· * S) := by
  unfold RiseAt Square.changes
  rw [values_length, List.mem_map]
  constructor
  · rintro ⟨a1, a2, a3, a4⟩
    obtain ⟨i, rfl⟩ : ∃ k, i = k + 1 := ⟨i - 1, by omega⟩
    rw [low_iff S M y0 y1 q rise fall h0 hrf h1 i (by omega)] at a3
    rw [values_get S M y0 y1 q _ a2] at a4
    have hs : q.sym ((i + 1) / S) = true := by
      by_contra hc
      rw [if_neg hc] at a4
      linarith
    obtain ⟨d1, d2, d3⟩ := div_change S i hS (by intro hc; rw [hc, hs] at a3; cases a3)
    refine ⟨(i + 1) / S, List.mem_filter.2 ⟨List.mem_range.2 (Nat.div_lt_of_lt_mul a2), ?_⟩, Nat.div_mul_cancel (Nat.dvd_of_mod_eq_zero d1)⟩
    simp [changeAt, d2, a3, hs, d3]
  · rintro ⟨j, hj, rfl⟩
    obtain ⟨hjM, hc⟩ := List.mem_filter.1 hj
    rw [List.mem_range] at hjM
    simp only [changeAt, Bool.and_eq_true, decide_eq_true_eq, Bool.not_eq_true'] at hc
    have hlt : j * S < S * M := by rw [mul_comm]; exact Nat.mul_lt_mul_of_pos_left hjM hS
    have hpos : 1 ≤ j * S := Nat.mul_pos hc.1 hS
    obtain ⟨i, hi⟩ : ∃ k, j * S = k + 1 := ⟨j * S - 1, by omega⟩
    have hdiv : i / S = j - 1 := by
      have := Nat.succ_div_of_dvd (a := i) (b := S) ⟨j, by rw [← hi, mul_comm]⟩
      have h2 : (i + 1) / S = j := by rw [← hi]; exact Nat.mul_div_cancel j hS
      omega
    refine ⟨hpos, hlt, ?_, ?_⟩
    · rw [hi, low_iff S M y0 y1 q rise fall h0 hrf h1 i (by omega), hdiv]
      exact hc.2.1
    · rw [values_get S M y0 y1 q _ hlt, Nat.mul_div_cancel j hS, if_pos hc.2.2]
      exact h1

theorem fall_iff (rise fall : ℚ) (h0 : y0 < fall) (hrf : fall ≤ rise) (h1 : rise < y1) (hS : 0 < S) (i : ℕ) :
    FallAt (q.values S M y0 y1) rise fall i ↔ i ∈ (q.changes M .falling).map (· * S) := by
  unfold FallAt Square.changes
  rw [values_length, List.mem_map]
  constructor
  · rintro ⟨a1, a2, a3, a4⟩
    obtain ⟨i, rfl⟩ : ∃ k, i = k + 1 := ⟨i - 1, by omega⟩
    rw [low_iff S M y0 y1 q rise fall h0 hrf h1 i (by omega)] at a3
    have a3' : q.sym (i / S) = true := by simpa using a3
    rw [values_get S M y0 y1 q _ a2] at a4
    have hs : q.sym ((i + 1) / S) = false := by
      by_contra hc
      rw [if_pos (by simpa using hc)] at a4
      linarith
    obtain ⟨d1, d2, d3⟩ := div_change S i hS (by intro hc; rw [hc, hs] at a3'; cases a3')
    refine ⟨(i + 1) / S, List.mem_filter.2 ⟨List.mem_range.2 (Nat.div_lt_of_lt_mul a2), ?_⟩, Nat.div_mul_cancel (Nat.dvd_of_mod_eq_zero d1)⟩
    simp [changeAt, d2, a3', hs, d3]
  · rintro ⟨j, hj, rfl⟩
    obtain ⟨hjM, hc⟩ := List.mem_filter.1 hj
    rw [List.mem_range] at hjM
    simp only [changeAt, Bool.and_eq_true, decide_eq_true_eq, Bool.not_eq_true'] at hc
    have hlt : j * S < S * M := by rw [mul_comm]; exact Nat.mul_lt_mul_of_pos_left hjM hS
    have hpos : 1 ≤ j * S := Nat.mul_pos hc.1 hS
    obtain ⟨i, hi⟩ : ∃ k, j * S = k + 1 := ⟨j * S - 1, by omega⟩
    have hdiv : i / S = j - 1 := by
      have := Nat.succ_div_of_dvd (a := i) (b := S) ⟨j, by rw [← hi, mul_comm]⟩
      have h2 : (i + 1) / S = j := by rw [← hi]; exact Nat.mul_div_cancel j hS
      omega
    refine ⟨hpos, hlt, ?_, ?_⟩
    · rw [hi, low_iff S M y0 y1 q rise fall h0 hrf h1 i (by omega), hdiv, hc.2.1]
      simp
    · rw [values_get S M y0 y1 q _ hlt, Nat.mul_div_cancel j hS, if_neg (by rw [hc.2.2]; simp)]
      exact h0

/-- The time of an edge at the beginning of symbol `j`: between two samples. -/
def edgeAt (t0 : ℚ) (j : ℕ) : ℚ := t0 + ((j : ℚ) * S - 1 / 2) * δ

theorem edge_time (hS : 0 < S) (hy : y0 < y1) (j : ℕ) (hj : 1 ≤ j) (hjM : j < M) (hne : q.sym (j - 1) ≠ q.sym j) (z : Option ℚ)
    (hz : EdgeTime (q.wave S M δ y0 y1).1 (q.values S M y0 y1) ((y1 + y0) / 2) (j * S) z) : z = some (edgeAt S δ q.t0 j) := by
  have hlt : j * S < S * M := by rw [mul_comm]; exact Nat.mul_lt_mul_of_pos_left hjM hS
  have hpos : 1 ≤ j * S := Nat.mul_pos hj hS
  have hdiv : (j * S - 1) / S = j - 1 := by
    have := Nat.succ_div_of_dvd (a := j * S - 1) (b := S) ⟨j, by rw [mul_comm S j]; omega⟩
    have h2 : (j * S - 1 + 1) / S = j := by rw [Nat.sub_add_cancel hpos]; exact Nat.mul_div_cancel j hS
    omega
  have g1 := values_get S M y0 y1 q (j * S - 1) (by omega)
  have g2 := values_get S M y0 y1 q (j * S) hlt
  rw [hdiv] at g1
  rw [Nat.mul_div_cancel j hS] at g2
  have hside : SideChange (q.values S M y0 y1) ((y1 + y0) / 2) (j * S) := by
    unfold SideChange
    rw [g1, g2]
    cases hs : q.sym j <;> cases hs' : q.sym (j - 1) <;> simp [hs, hs'] at hne ⊢
    · right; constructor <;> linarith
    · left; constructor <;> linarith
  cases z with
  | none => exact absurd hside (hz (j * S) hpos le_rfl)
  | some z =>
    obtain ⟨i, hi1, hi2, -, hno, hint⟩ := hz
    obtain rfl : i = j * S := by
      by_contra hc
      exact hno (j * S) (by omega) le_rfl hside
    obtain ⟨hint, -⟩ := hint
    rw [g1, g2, times_get S M δ y0 y1 q _ hlt, times_get S M δ y0 y1 q _ (by omega), Nat.cast_sub hpos] at hint
    congr 1
    unfold edgeAt
    push_cast at hint
    cases hs : q.sym j <;> cases hs' : q.sym (j - 1) <;> simp only [hs, hs'] at hne hint
    · exact absurd rfl hne
    · simp only [Bool.false_eq_true, if_false, if_true] at hint
      have : (y0 - y1) * (z - (q.t0 + ((j : ℚ) * S - 1 / 2) * δ)) = 0 := by linarith
      rcases mul_eq_zero.1 this with h | h <;> linarith
    · simp only [Bool.false_eq_true, if_false, if_true] at hint
      have : (y1 - y0) * (z - (q.t0 + ((j : ℚ) * S - 1 / 2) * δ)) = 0 := by linarith
      rcases mul_eq_zero.1 this with h | h <;> linarith
    · exact absurd rfl hne

theorem changes_lt (p : Polarity) : (q.changes M p).Pairwise (· < ·) := List.pairwise_lt_range.filter _

theorem scaled_lt (hS : 0 < S) (p : Polarity) : ((q.changes M p).map (· * S)).Pairwise (· < ·) := by
  rw [List.pairwise_map]
  exact (changes_lt M q p).imp fun h => Nat.mul_lt_mul_of_pos_right h hS

theorem sorted_unique (l l' : List ℕ) (h : l.Pairwise (· < ·)) (h' : l'.Pairwise (· < ·)) (hm : ∀ i, i ∈ l ↔ i ∈ l') : l = l' := by
  have hp : l.Perm l' := (List.perm_ext_iff_of_nodup (h.imp fun h => ne_of_lt h) (h'.imp fun h => ne_of_lt h)).2 hm
  exact hp.eq_of_pairwise (fun a b _ _ h1 h2 => absurd h1 (lt_asymm h2)) h h'

theorem times_eq (P : ℕ → Option ℚ → Prop) (l : List ℕ) (r : List (Option ℚ)) (h : List.Forall₂ P (l.map (· * S)) r)
    (hP : ∀ j ∈ l, ∀ z, P (j * S) z → z = some (edgeAt S δ q.t0 j)) : r = l.map fun j => some (edgeAt S δ q.t0 j) := by
  induction l generalizing r with
  | nil =>
    rw [List.map_nil, List.forall₂_nil_left_iff] at h
    rw [h]
    rfl
  | cons j l ih =>
    rw [List.map_cons, List.forall₂_cons_left_iff] at h
    obtain ⟨z, r', h1, h2, rfl⟩ := h
    rw [List.map_cons, hP j (by simp) z h1, ih r' h2 fun i hi => hP i (List.mem_cons_of_mem _ hi)]

theorem mem_changes (p : Polarity) (j : ℕ) (h : j ∈ q.changes M p) : 1 ≤ j ∧ j < M ∧ q.sym (j - 1) ≠ q.sym j := by
  obtain ⟨h1, h2⟩ := List.mem_filter.1 h
  rw [List.mem_range] at h1
  unfold changeAt at h2
  rw [Bool.and_eq_true, decide_eq_true_eq] at h2
  refine ⟨h2.1, h1, ?_⟩
  have h3 := h2.2
  cases p <;> cases hs : q.sym j <;> cases hs' : q.sym (j - 1) <;> simp [hs, hs'] at h3 ⊢

theorem edges_square (rise fall : ℚ) (h0 : y0 < fall) (hrf : fall ≤ rise) (h1 : rise < y1) (hS : 0 < S) (hM : 0 < M) :
    edgesNp (q.wave S M δ y0 y1).1 (q.wave S M δ y0 y1).2 rise ((y1 + y0) / 2) fall =
      .ok ((q.changes M .rising).map fun j => some (edgeAt S δ q.t0 j), (q.changes M .falling).map fun j => some (edgeAt S δ q.t0 j)) := by
  have hlen : (q.wave S M δ y0 y1).1.length = (q.wave S M δ y0 y1).2.length := by simp [Square.wave, Square.values]
  have hv : (q.wave S M δ y0 y1).2 = q.values S M y0 y1 := rfl
  have hy : y0 < y1 := by linarith
  rw [C07_edges_np _ _ _ _ _ hlen]
  obtain ⟨rises, falls, e, R, F, hR, hF, mR, mF, tR, tF⟩ := C07_edges_schmitt (q.wave S M δ y0 y1).1 (q.wave S M δ y0 y1).2 rise ((y1 + y0) / 2) fall
    hlen (by rw [hv, values_length]; exact Nat.mul_pos hS hM) hrf
  rw [e]
  rw [hv] at mR mF tR tF
  obtain rfl : R = (q.changes M .rising).map (· * S) :=
    sorted_unique _ _ hR (scaled_lt S M q hS _) fun i => (mR i).trans (rise_iff S M y0 y1 q rise fall h0 hrf h1 hS i)
  obtain rfl : F = (q.changes M .falling).map (· * S) :=
    sorted_unique _ _ hF (scaled_lt S M q hS _) fun i => (mF i).trans (fall_iff S M y0 y1 q rise fall h0 hrf h1 hS i)
  rw [times_eq S δ q _ _ rises tR, times_eq S δ q _ _ falls tF]
  · intro j hj z hz
    obtain ⟨k1, k2, k3⟩ := mem_changes M q _ j hj
    exact edge_time S M δ y0 y1 q hS hy j k1 k2 k3 z hz
  · intro j hj z hz
    obtain ⟨k1, k2, k3⟩ := mem_changes M q _ j hj
    exact edge_time S M δ y0 y1 q hS hy j k1 k2 k3 z hz

theorem edgeAt_lt (hδ : 0 < δ) (hS : 0 < S) (i j : ℕ) (h : i < j) : edgeAt S δ q.t0 i < edgeAt S δ q.t0 j := by
  unfold edgeAt
  have h1 : (i : ℚ) < j := by exact_mod_cast h
  have h2 : (0 : ℚ) < S := by exact_mod_cast hS
  have : (i : ℚ) * S < j * S := by nlinarith
  nlinarith

/-- The edges that are passed to the clock recovery. -/
theorem selected_square (l : Levels ℚ) (h0 : y0 < l.falling) (hrf : l.falling ≤ l.rising) (h1 : l.rising < y1) (hh : l.half = (y1 + y0) / 2)
    (hS : 0 < S) (hM : 0 < M) (hδ : 0 < δ) (p : Polarity) :
    selectedEdges (q.wave S M δ y0 y1) l p = .ok ((q.changes M p).map fun j => some (edgeAt S δ q.t0 j)) := by
  unfold selectedEdges
  rw [hh, edges_square S M δ y0 y1 q l.rising l.falling h0 hrf h1 hS hM]
  simp only [bind, Except.bind, pure, Except.pure]
  congr 1
  cases p with
  | rising => rfl
  | falling => rfl
  | both =>
    obtain ⟨hp, hs⟩ := Verif.Props.Pam2Clock.selected_spec ((q.changes M .rising).map fun j => some (edgeAt S δ q.t0 j))
      ((q.changes M .falling).map fun j => some (edgeAt S δ q.t0 j)) .both
    have hp2 : ((q.changes M .rising) ++ (q.changes M .falling)).Perm (q.changes M .both) := by
      rw [List.perm_ext_iff_of_nodup]
      · intro j
        rw [List.mem_append]
        unfold Square.changes changeAt
        simp only [List.mem_filter, Bool.and_eq_true, decide_eq_true_eq]
        cases q.sym j <;> cases q.sym (j - 1) <;> simp
      · rw [List.nodup_append]
        refine ⟨(changes_lt M q _).imp fun h => ne_of_lt h, (changes_lt M q _).imp fun h => ne_of_lt h, ?_⟩
        intro a ha b hb hab
        subst hab
        unfold Square.changes changeAt at ha hb
        simp only [List.mem_filter, Bool.and_eq_true, decide_eq_true_eq] at ha hb
        have e1 := ha.2.2.2
        have e2 := hb.2.2.2
        rw [e1] at e2
        cases e2
      · exact (changes_lt M q _).imp fun h => ne_of_lt h
    rw [← List.map_append] at hp
    have hp3 := hp.trans (hp2.map fun j => some (edgeAt S δ q.t0 j))
    refine hp3.eq_of_pairwise (le := Verif.Props.Pam2Clock.Before) ?_ hs ?_
    · rintro a b ha hb h1 h2
      obtain ⟨i, -, rfl⟩ := List.mem_map.1 hb
      rcases h1 with h1 | ⟨x, y, rfl, hy, hxy⟩
      · cases h1
      · rcases h2 with h2 | ⟨x', y', hx', hy', hxy'⟩
        · cases h2
        · rw [hy]
          obtain rfl : x = y' := Option.some.inj hy'
          obtain rfl : y = x' := Option.some.inj (hy.symm.trans hx')
          rw [le_antisymm hxy hxy']
    · rw [List.pairwise_map]
      exact (changes_lt M q .both).imp fun h => Or.inr ⟨_, _, rfl, rfl, (edgeAt_lt S δ q hδ hS _ _ h).le⟩

end

/-! ### Clock recovery -/

/-- The edges suffice to recover the clock (C48): there are two, they are at most 24 symbols apart, 5 on average, and not too many symbols. -/
def Square.Recoverable (M : ℕ) (p : Polarity) (q : Square) : Prop :=
  2 ≤ (q.changes M p).length ∧ (q.changes M p).IsChain (fun x y => y ≤ x + 24) ∧
    (q.changes M p).getLastD 0 - (q.changes M p).headD 0 ≤ 5 * ((q.changes M p).length - 1) ∧
    2 * ((q.changes M p).getLastD 0 - (q.changes M p).headD 0) < 99 * (max 20 (1000000 / (q.changes M p).length) - 1)

/-- The record with the clock between the first and the last edge. -/
def Square.sent (S M : ℕ) (δ y0 y1 : ℚ) (p : Polarity) (q : Square) : Sent where
  t0 := q.t0
  y := q.values S M y0 y1
  b := edgeAt S δ q.t0 ((q.changes M p).headD 0) + S * δ / 2
  n := (q.changes M p).getLastD 0 - (q.changes M p).headD 0
  sym := fun k => q.sym (((q.changes M p).headD 0 : ℤ) + k).toNat

theorem number_some (l : List ℚ) : (l.map some).mapM number = .ok l := by
  induction l with
  | nil => rfl
  | cons a e ih => rw [List.map_cons, List.mapM_cons, ih]; rfl

theorem recovered_square (sort : List Cdr.Scored → List Cdr.Scored) (finer : List Cdr.Finer) (hsort : CdrSearch.Reorders sort)
    (hbest : CdrSearch.BestFirst sort) (S M : ℕ) (δ y0 y1 tSym : ℚ) (p : Polarity) (q : Square) (hr : q.Recoverable M p)
    (ht : 0 < tSym) (hunit : tSym ≤ 200) (htT : |S * δ - tSym| ≤ tSym / 100) :
    recover (fun e => Cdr.runWith sort finer ⟨some tSym, false⟩ e true) ((q.changes M p).map fun j => some (edgeAt S δ q.t0 j)) =
      .ok (((q.sent S M δ y0 y1 p).clock (S * δ)).map some) := by
  obtain ⟨h2, hc, havg, hpts⟩ := hr
  have hlt := changes_lt M q p
  unfold Square.sent Sent.clock
  simp only
  generalize q.changes M p = l at *
  obtain ⟨j0, rest, rfl⟩ := List.exists_cons_of_ne_nil (List.ne_nil_of_length_pos (by omega : 0 < l.length))
  have hrest : rest ≠ [] := by rintro rfl; simp at h2
  simp only [List.headD_cons, List.length_cons, Nat.add_sub_cancel] at *
  have hge : ∀ x ∈ rest, j0 < x := (List.pairwise_cons.1 hlt).1
  obtain ⟨last, hlast⟩ : ∃ x, (j0 :: rest).getLast? = some x := ⟨_, List.getLast?_eq_some_getLast (by simp)⟩
  have hlast' : (j0 :: rest).getLastD 0 = last := by rw [List.getLastD_eq_getLast?, hlast]; rfl
  rw [hlast'] at havg hpts ⊢
  have hjl : j0 ≤ last := by
    rcases List.mem_cons.1 (List.mem_of_getLast? hlast) with h | h
    · omega
    · exact (hge _ h).le
  have hzero : ((0 : ℤ) :: rest.map fun x : ℕ => (x : ℤ) - j0) = (j0 :: rest).map fun x : ℕ => (x : ℤ) - j0 := by simp
  have key := CdrRun.C48_exact sort finer hsort hbest (rest.map fun x : ℕ => (x : ℤ) - j0) (edgeAt S δ q.t0 j0) (S * δ) tSym (last - j0) ht hunit htT
    (by simpa using hrest) (by
      rw [hzero, List.isChain_map]
      have hboth : (j0 :: rest).IsChain fun x y => x < y ∧ y ≤ x + 24 := by
        have h1 : (j0 :: rest).IsChain (· < ·) := hlt.isChain
        clear hlast hlast' hjl hzero hpts havg hge hrest h2 hlt
        induction rest generalizing j0 with
        | nil => simp
        | cons a r ih =>
          rw [List.isChain_cons_cons] at h1 hc ⊢
          exact ⟨⟨h1.1, hc.1⟩, ih _ hc.2 h1.2⟩
      exact hboth.imp fun x y h => by omega) (by
      rw [hzero, List.getLast?_map, hlast, Option.map_some]
      congr 1
      omega) (by rw [List.length_map]; exact havg) (by rw [List.length_map]; exact hpts)
  have hedges : ((j0 :: rest).map fun j => some (edgeAt S δ q.t0 j)) =
      (((0 : ℤ) :: rest.map fun x : ℕ => (x : ℤ) - j0).map fun x : ℤ => edgeAt S δ q.t0 j0 + x * (S * δ)).map some := by
    rw [hzero, List.map_map, List.map_map]
    apply List.map_congr_left
    intro j _
    simp only [Function.comp]
    congr 1
    unfold edgeAt
    push_cast
    ring
  unfold recover
  rw [hedges, number_some]
  simp only [bind, Except.bind]
  have hrun : ∀ (e : List ℚ) (r : List ℚ × List ℚ), e ≠ [] → Cdr.runWith sort finer ⟨some tSym, false⟩ e false = .ok r →
      ∃ t, Cdr.runWith sort finer ⟨some tSym, false⟩ e true = .ok (r.1, t) := by
    intro e r hne he
    obtain ⟨a, e', rfl⟩ := List.exists_cons_of_ne_nil hne
    obtain ⟨x, hx⟩ : ∃ x, (a :: e').getLast? = some x := ⟨_, List.getLast?_eq_some_getLast hne⟩
    unfold Cdr.runWith at he ⊢
    rw [(CdrRun.run_eq _ _ _ a e' x hx).2, he]
    exact ⟨_, rfl⟩
  obtain ⟨t, hrun⟩ := hrun _ _ (by simp) key
  rw [hrun]
  simp only [pure, Except.pure]
  congr 2
  apply List.map_congr_left
  intro k _
  ring

/-- The eye of a square wave is open. -/
theorem square_open (S M : ℕ) (δ y0 y1 half W : ℚ) (p : Polarity) (q : Square) (hS : 0 < S) (hδ : 0 < δ) (h0 : y0 ≤ half) (h1 : half < y1)
    (hW : W < 1) (h2 : 2 ≤ (q.changes M p).length) : (q.sent S M δ y0 y1 p).Open (S * M) (S * δ) δ half W := by
  intro j hj k hk1 hk2 hd
  have hj0 : 1 ≤ (q.changes M p).headD 0 := by
    cases hl : q.changes M p with
    | nil => rw [hl] at h2; simp at h2
    | cons a l => exact (mem_changes M q p a (by rw [hl]; simp)).1
  unfold Square.sent at hd ⊢
  simp only at hd ⊢
  rw [values_get S M y0 y1 q j hj]
  obtain ⟨s, hs⟩ := Int.eq_ofNat_of_zero_le (by omega : 0 ≤ ((q.changes M p).headD 0 : ℤ) + k)
  have hdiv : j / S = s := by
    have hsq : (((q.changes M p).headD 0 : ℕ) : ℚ) + k = s := by exact_mod_cast hs
    have hSq : (0 : ℚ) < S := by exact_mod_cast hS
    unfold edgeAt at hd
    have e : q.t0 + j * δ - (q.t0 + ((((q.changes M p).headD 0 : ℕ) : ℚ) * S - 1 / 2) * δ + S * δ / 2 + k * (S * δ)) =
        (j - (s * S - 1 / 2 + S / 2)) * δ := by rw [← hsq]; ring
    rw [e, abs_mul, abs_of_pos hδ, show W * (S * δ) / 2 + δ / 2 = (W * S / 2 + 1 / 2) * δ by ring] at hd
    have hd2 := le_of_mul_le_mul_right hd hδ
    rw [abs_le] at hd2
    have hWS : W * S < S := by nlinarith
    rw [Nat.div_eq_iff hS]
    have e1 : (s : ℚ) * S < j + 1 := by linarith [hd2.1]
    have e2 : (j : ℚ) < s * S + S := by linarith [hd2.2]
    have e1' : s * S < j + 1 := by exact_mod_cast e1
    have e2' : j < s * S + S := by exact_mod_cast e2
    constructor <;> omega
  rw [hdiv, hs]
  simp only [Int.toNat_natCast]
  cases q.sym s
  · simpa using h0
  · simpa using h1

/-! ### C71 -/

theorem mapM_map {α β γ : Type} (g : α → β) (f : β → Except PyErr γ) (h : α → γ) (l : List α) (hf : ∀ a ∈ l, f (g a) = .ok (h a)) :
    (l.map g).mapM f = .ok (l.map h) := by
  induction l with
  | nil => rfl
  | cons a l ih =>
    rw [List.map_cons, List.mapM_cons, hf a (by simp), ih fun x hx => hf x (List.mem_cons_of_mem _ hx)]
    rfl

/-- The thresholds with manual levels. -/
theorem manual_thresholds (c : LevelConfig ℚ) (m : Level ℚ × Level ℚ) (y0 y1 : ℚ) (h0 : c.y0 = some y0) (h1 : c.y1 = some y1) (hth : c.yTh = none)
    (hh : 0 ≤ c.hys.getD (c.hysUa * (y1 - y0)) ∧ c.hys.getD (c.hysUa * (y1 - y0)) < y1 - y0) :
    (levels c m).half = (y1 + y0) / 2 ∧ (levels c m).lowSnr = false ∧ y0 < (levels c m).falling ∧ (levels c m).falling ≤ (levels c m).rising ∧
      (levels c m).rising < y1 := by
  unfold levels startLevels
  cases hy : c.hys with
  | none =>
    simp only [hy, Option.getD_none] at hh
    simp only [h0, h1, hth, Option.getD_some, reduceCtorEq, or_self, if_false]
    simp only [add_zero, if_true, true_and]
    exact ⟨by linarith, by linarith, by linarith⟩
  | some h =>
    simp only [hy, Option.getD_some] at hh
    simp only [h0, h1, hth, Option.getD_some, reduceCtorEq, or_self, if_false]
    simp only [add_zero, if_true, true_and]
    exact ⟨by linarith, by linarith, by linarith⟩

theorem clock_square (sort : List Cdr.Scored → List Cdr.Scored) (finer : List Cdr.Finer) (hsort : CdrSearch.Reorders sort)
    (hbest : CdrSearch.BestFirst sort) (l : Levels ℚ) (p : Polarity) (period : Option ℚ) (S M : ℕ) (δ y0 y1 tSym : ℚ) (qs : List Square)
    (hS : 0 < S) (hδ : 0 < δ) (hh : l.half = (y1 + y0) / 2) (hsnr : l.lowSnr = false) (h0 : y0 < l.falling) (hrf : l.falling ≤ l.rising)
    (h1 : l.rising < y1) (hr : ∀ q ∈ qs, q.Recoverable M p) (ht : 0 < tSym) (hunit : tSym ≤ 200) (htT : |S * δ - tSym| ≤ tSym / 100) :
    clockEdges none none (qs.map (Square.wave S M δ y0 y1)) l p (recover fun e => Cdr.runWith sort finer ⟨some tSym, false⟩ e true) period =
      .ok (qs.map fun q => ((q.sent S M δ y0 y1 p).clock (S * δ)).map some) := by
  unfold clockEdges
  simp only [hsnr, Bool.false_eq_true, if_false]
  apply mapM_map
  intro q hq
  have hM : 0 < M := by
    have := (hr q hq).1
    rcases Nat.eq_zero_or_pos M with rfl | h
    · simp [Square.changes] at this
    · exact h
  rw [selected_square S M δ y0 y1 q l h0 hrf h1 hh hS hM hδ p]
  simp only [bind, Except.bind]
  exact recovered_square sort finer hsort hbest S M δ y0 y1 tSym p q (hr q hq) ht hunit htT

/-- The range of decoded symbols: between the first and the last edge, and all of those that are far enough from the ends of the record. -/
def Decoded (S M : ℕ) (p : Polarity) (q : Square) (start count : ℕ) : Prop :=
  (q.changes M p).headD 0 ≤ start ∧ start + count ≤ (q.changes M p).getLastD 0 ∧
    ∀ j, (q.changes M p).headD 0 ≤ j → j < (q.changes M p).getLastD 0 → S + 9 ≤ 2 * (j * S) → 2 * (j * S) + 3 * S + 7 ≤ 2 * (S * M) →
      start ≤ j ∧ j < start + count

theorem head_le_last (M : ℕ) (p : Polarity) (q : Square) (h2 : 2 ≤ (q.changes M p).length) :
    1 ≤ (q.changes M p).headD 0 ∧ (q.changes M p).headD 0 < (q.changes M p).getLastD 0 := by
  have hlt := changes_lt M q p
  have hm := mem_changes M q p
  cases hl : q.changes M p with
  | nil => rw [hl] at h2; simp at h2
  | cons a l =>
    rw [hl] at h2 hlt hm
    refine ⟨(hm a (by simp)).1, ?_⟩
    have hne : l ≠ [] := by rintro rfl; simp at h2
    rw [List.headD_cons, List.getLastD_cons, List.getLastD_eq_getLast?, List.getLast?_eq_some_getLast hne, Option.getD_some]
    exact (List.pairwise_cons.1 hlt).1 _ (List.getLast_mem hne)

theorem decoded_of (S M : ℕ) (δ y0 y1 : ℚ) (p : Polarity) (q : Square) (hδ : 0 < δ) (h2 : 2 ≤ (q.changes M p).length) (start count : ℕ)
    (h1 : start + count ≤ (q.sent S M δ y0 y1 p).n)
    (hk : ∀ k < (q.sent S M δ y0 y1 p).n, q.t0 + S * δ + 4 * δ ≤ (q.sent S M δ y0 y1 p).b + k * (S * δ) →
      (q.sent S M δ y0 y1 p).b + k * (S * δ) ≤ q.t0 + (((S * M : ℕ) : ℚ) - 1) * δ - S * δ - 3 * δ → start ≤ k ∧ k < start + count) :
    Decoded S M p q ((q.changes M p).headD 0 + start) count := by
  obtain ⟨g1, g2⟩ := head_le_last M p q h2
  unfold Square.sent at h1 hk
  simp only at h1 hk
  unfold Decoded
  generalize (q.changes M p).headD 0 = j0 at *
  refine ⟨by omega, by omega, ?_⟩
  intro j hj1 hj2 hlo hhi
  obtain ⟨k, rfl⟩ := Nat.exists_eq_add_of_le (by omega : j0 ≤ j)
  have hlo' : (S : ℚ) + 9 ≤ 2 * ((j0 + k) * S) := by exact_mod_cast hlo
  have hhi' : 2 * (((j0 : ℚ) + k) * S) + 3 * S + 7 ≤ 2 * (S * M) := by exact_mod_cast hhi
  have := hk k (by omega) (by
    unfold edgeAt
    nlinarith) (by
    unfold edgeAt
    push_cast
    nlinarith)
  omega

theorem range'_shift (j start count : ℕ) : List.range' (j + start) count = (List.range' start count).map (j + ·) := by
  rw [List.map_add_range']

theorem sym_shift (S M : ℕ) (δ y0 y1 : ℚ) (p : Polarity) (q : Square) (k : ℕ) :
    (q.sent S M δ y0 y1 p).sym k = q.sym ((q.changes M p).headD 0 + k) := by
  unfold Square.sent
  simp only
  congr 1

theorem sym_pred (S M : ℕ) (δ y0 y1 : ℚ) (p : Polarity) (q : Square) (k : ℕ) (h : 1 ≤ (q.changes M p).headD 0) :
    (q.sent S M δ y0 y1 p).sym (k - 1) = q.sym ((q.changes M p).headD 0 + k - 1) := by
  unfold Square.sent
  simp only
  congr 1
  omega

/-- The same for any thresholds between the two levels. -/
theorem decodes_nrzm (sort : List Cdr.Scored → List Cdr.Scored) (finer : List Cdr.Finer) (hsort : CdrSearch.Reorders sort)
    (hbest : CdrSearch.BestFirst sort) (s : Settings) (m : Level ℚ × Level ℚ) (mask : Option MaskFn) (qs : List Square) (S M : ℕ)
    (δ y0 y1 tSym : ℚ) (hS : 0 < S) (hδ : 0 < δ)
    (e1 : (levels s.level m).half = (y1 + y0) / 2) (e2 : (levels s.level m).lowSnr = false) (e3 : y0 < (levels s.level m).falling)
    (e4 : (levels s.level m).falling ≤ (levels s.level m).rising) (e5 : (levels s.level m).rising < y1)
    (hrec : ∀ q ∈ qs, q.Recoverable M s.polarity) (htwo : ∃ q ∈ qs, (q.changes M s.polarity).headD 0 + 2 ≤ (q.changes M s.polarity).getLastD 0)
    (ht : 0 < tSym) (hunit : tSym ≤ 200) (htT : |S * δ - tSym| ≤ tSym / 100)
    (hskip : s.skip = false) (hr : 0 < s.resolution) (hl : Drawable s.resolution s.edgeLower) (hu : Drawable s.resolution s.edgeUpper)
    (hm : MaskOk mask s.level (S * δ) δ (qs.map fun q => q.values S M y0 y1)) (hw : decisionWidth s.levelWidth (S * δ) δ < 1) :
    ∃ (a : Analysis) (start count : Square → ℕ),
      calculateAll s m none none (recover fun e => Cdr.runWith sort finer ⟨some tSym, false⟩ e true) mask (qs.map (Square.wave S M δ y0 y1)) = .ok a ∧
      a.tSym = S * δ ∧
      bits a true = .ok (qs.map fun q => (List.range' (start q) (count q)).map fun j : ℕ => if q.sym (j - 1) = q.sym j then 0 else 1) ∧
      ∀ q ∈ qs, Decoded S M s.polarity q (start q) (count q) := by
  have hT : (0 : ℚ) < S * δ := mul_pos (by exact_mod_cast hS) hδ
  have hwaves : qs.map (Square.wave S M δ y0 y1) = (qs.map (Square.sent S M δ y0 y1 s.polarity)).map (Sent.wave (S * M) δ) := by
    rw [List.map_map]
    rfl
  have hN : 2 ≤ S * M := by
    obtain ⟨q, hq, -⟩ := htwo
    have hne : q.changes M s.polarity ≠ [] := by
      intro h
      have := (hrec q hq).1
      rw [h] at this
      simp at this
    obtain ⟨j, l, hj⟩ := List.exists_cons_of_ne_nil hne
    have := mem_changes M q s.polarity j (by rw [hj]; simp)
    nlinarith
  obtain ⟨a, start, count, g1, g2, g3, g4⟩ := C70_nrzm s m none none (recover fun e => Cdr.runWith sort finer ⟨some tSym, false⟩ e true) mask
    (qs.map (Square.sent S M δ y0 y1 s.polarity)) (S * M) (S * δ) δ hT hδ hN (by
      intro r hr
      obtain ⟨q, -, rfl⟩ := List.mem_map.1 hr
      simp [Square.sent, Square.values]) (by
      obtain ⟨q, hq, h⟩ := htwo
      exact ⟨_, List.mem_map_of_mem hq, by unfold Square.sent; simp only; omega⟩) (by
      rw [← hwaves, List.map_map]
      exact clock_square sort finer hsort hbest _ s.polarity s.period S M δ y0 y1 tSym qs hS hδ e1 e2 e3 e4 e5 hrec ht hunit htT)
    hskip hr hl hu (by rw [List.map_map]; exact hm) hw (by
      intro r hr
      obtain ⟨q, hq, rfl⟩ := List.mem_map.1 hr
      exact square_open S M δ y0 y1 _ _ s.polarity q hS hδ (by linarith) (by linarith) hw (hrec q hq).1)
  refine ⟨a, fun q => (q.changes M s.polarity).headD 0 + start (q.sent S M δ y0 y1 s.polarity), fun q => count (q.sent S M δ y0 y1 s.polarity),
    by rw [hwaves]; exact g1, g2, ?_, ?_⟩
  · rw [g3, List.map_map]
    congr 1
    apply List.map_congr_left
    intro q hq
    have hj0 := (head_le_last M s.polarity q (hrec q hq).1).1
    simp only [Function.comp, range'_shift, List.map_map]
    apply List.map_congr_left
    intro k _
    have hk1 : (q.sent S M δ y0 y1 s.polarity).sym k = q.sym ((q.changes M s.polarity).headD 0 + k) := sym_shift ..
    have hk2 : (q.sent S M δ y0 y1 s.polarity).sym (k - 1) = q.sym ((q.changes M s.polarity).headD 0 + k - 1) := sym_pred _ _ _ _ _ _ _ _ hj0
    simp only [Function.comp, hk1, hk2]
  · intro q hq
    obtain ⟨i1, i2, -⟩ := g4 _ (List.mem_map_of_mem hq)
    exact decoded_of S M δ y0 y1 s.polarity q hδ (hrec q hq).1 _ _ i1 i2

/-- **C71 (NRZM)**: square waves of `M` symbols of `S` samples each are decoded end to end: edges, clock recovery, levels, decisions and bits.  The
result is the sent symbols, one bit per symbol from `start`: one if it differs from the symbol before it.  All symbols between the first and the last
edge of the selected polarity that are far enough from the ends of the record are decoded. -/
theorem C71_nrzm (sort : List Cdr.Scored → List Cdr.Scored) (finer : List Cdr.Finer) (hsort : CdrSearch.Reorders sort)
    (hbest : CdrSearch.BestFirst sort) (s : Settings) (m : Level ℚ × Level ℚ) (mask : Option MaskFn) (qs : List Square) (S M : ℕ)
    (δ y0 y1 tSym : ℚ) (hS : 0 < S) (hδ : 0 < δ)
    (h0 : s.level.y0 = some y0) (h1 : s.level.y1 = some y1) (hth : s.level.yTh = none)
    (hh : 0 ≤ s.level.hys.getD (s.level.hysUa * (y1 - y0)) ∧ s.level.hys.getD (s.level.hysUa * (y1 - y0)) < y1 - y0)
    (hrec : ∀ q ∈ qs, q.Recoverable M s.polarity) (htwo : ∃ q ∈ qs, (q.changes M s.polarity).headD 0 + 2 ≤ (q.changes M s.polarity).getLastD 0)
    (ht : 0 < tSym) (hunit : tSym ≤ 200) (htT : |S * δ - tSym| ≤ tSym / 100)
    (hskip : s.skip = false) (hr : 0 < s.resolution) (hl : Drawable s.resolution s.edgeLower) (hu : Drawable s.resolution s.edgeUpper)
    (hm : MaskOk mask s.level (S * δ) δ (qs.map fun q => q.values S M y0 y1)) (hw : decisionWidth s.levelWidth (S * δ) δ < 1) :
    ∃ (a : Analysis) (start count : Square → ℕ),
      calculateAll s m none none (recover fun e => Cdr.runWith sort finer ⟨some tSym, false⟩ e true) mask (qs.map (Square.wave S M δ y0 y1)) = .ok a ∧
      a.tSym = S * δ ∧
      bits a true = .ok (qs.map fun q => (List.range' (start q) (count q)).map fun j : ℕ => if q.sym (j - 1) = q.sym j then 0 else 1) ∧
      ∀ q ∈ qs, Decoded S M s.polarity q (start q) (count q) := by
  obtain ⟨e1, e2, e3, e4, e5⟩ := manual_thresholds s.level m y0 y1 h0 h1 hth hh
  exact decodes_nrzm sort finer hsort hbest s m mask qs S M δ y0 y1 tSym hS hδ e1 e2 e3 e4 e5 hrec htwo ht hunit htT hskip hr hl hu hm hw

/-- The same for any thresholds between the two levels. -/
theorem decodes_nrzl_partial (sort : List Cdr.Scored → List Cdr.Scored) (finer : List Cdr.Finer) (hsort : CdrSearch.Reorders sort)
    (hbest : CdrSearch.BestFirst sort) (s : Settings) (m : Level ℚ × Level ℚ) (mask : Option MaskFn) (qs : List Square) (S M : ℕ)
    (δ y0 y1 tSym : ℚ) (hS : 0 < S) (hδ : 0 < δ)
    (e1 : (levels s.level m).half = (y1 + y0) / 2) (e2 : (levels s.level m).lowSnr = false) (e3 : y0 < (levels s.level m).falling)
    (e4 : (levels s.level m).falling ≤ (levels s.level m).rising) (e5 : (levels s.level m).rising < y1)
    (hrec : ∀ q ∈ qs, q.Recoverable M s.polarity) (htwo : ∃ q ∈ qs, (q.changes M s.polarity).headD 0 + 2 ≤ (q.changes M s.polarity).getLastD 0)
    (ht : 0 < tSym) (hunit : tSym ≤ 200) (htT : |S * δ - tSym| ≤ tSym / 100)
    (hskip : s.skip = false) (hr : 0 < s.resolution) (hl : Drawable s.resolution s.edgeLower) (hu : Drawable s.resolution s.edgeUpper)
    (hm : MaskOk mask s.level (S * δ) δ (qs.map fun q => q.values S M y0 y1)) (hw : decisionWidth s.levelWidth (S * δ) δ < 1) :
    ∃ (a : Analysis) (start count : Square → ℕ),
      calculateAll s m none none (recover fun e => Cdr.runWith sort finer ⟨some tSym, false⟩ e true) mask (qs.map (Square.wave S M δ y0 y1)) = .ok a ∧
      a.tSym = S * δ ∧
      bits a false = .ok (qs.map fun q => (List.range' (start q) (count q)).map fun j : ℕ =>
        if (∀ i ∈ List.range' (start q) (count q), q.sym (i - 1) = true ∧ q.sym i = true) then 0 else if q.sym j then 1 else 0) ∧
      ∀ q ∈ qs, Decoded S M s.polarity q (start q) (count q) := by
  have hT : (0 : ℚ) < S * δ := mul_pos (by exact_mod_cast hS) hδ
  have hwaves : qs.map (Square.wave S M δ y0 y1) = (qs.map (Square.sent S M δ y0 y1 s.polarity)).map (Sent.wave (S * M) δ) := by
    rw [List.map_map]
    rfl
  have hN : 2 ≤ S * M := by
    obtain ⟨q, hq, -⟩ := htwo
    have hne : q.changes M s.polarity ≠ [] := by
      intro h
      have := (hrec q hq).1
      rw [h] at this
      simp at this
    obtain ⟨j, l, hj⟩ := List.exists_cons_of_ne_nil hne
    have := mem_changes M q s.polarity j (by rw [hj]; simp)
    nlinarith
  obtain ⟨a, start, count, g1, g2, g3, g4⟩ := C70_nrzl_partial s m none none (recover fun e => Cdr.runWith sort finer ⟨some tSym, false⟩ e true) mask
    (qs.map (Square.sent S M δ y0 y1 s.polarity)) (S * M) (S * δ) δ hT hδ hN (by
      intro r hr
      obtain ⟨q, -, rfl⟩ := List.mem_map.1 hr
      simp [Square.sent, Square.values]) (by
      obtain ⟨q, hq, h⟩ := htwo
      exact ⟨_, List.mem_map_of_mem hq, by unfold Square.sent; simp only; omega⟩) (by
      rw [← hwaves, List.map_map]
      exact clock_square sort finer hsort hbest _ s.polarity s.period S M δ y0 y1 tSym qs hS hδ e1 e2 e3 e4 e5 hrec ht hunit htT)
    hskip hr hl hu (by rw [List.map_map]; exact hm) hw (by
      intro r hr
      obtain ⟨q, hq, rfl⟩ := List.mem_map.1 hr
      exact square_open S M δ y0 y1 _ _ s.polarity q hS hδ (by linarith) (by linarith) hw (hrec q hq).1)
  refine ⟨a, fun q => (q.changes M s.polarity).headD 0 + start (q.sent S M δ y0 y1 s.polarity), fun q => count (q.sent S M δ y0 y1 s.polarity),
    by rw [hwaves]; exact g1, g2, ?_, ?_⟩
  · rw [g3, List.map_map]
    congr 1
    apply List.map_congr_left
    intro q hq
    have hj0 := (head_le_last M s.polarity q (hrec q hq).1).1
    simp only [Function.comp, range'_shift, List.map_map]
    apply List.map_congr_left
    intro k _
    have hk1 : (q.sent S M δ y0 y1 s.polarity).sym k = q.sym ((q.changes M s.polarity).headD 0 + k) := sym_shift ..
    have hk2 : (q.sent S M δ y0 y1 s.polarity).sym (k - 1) = q.sym ((q.changes M s.polarity).headD 0 + k - 1) := sym_pred _ _ _ _ _ _ _ _ hj0
    have hall : (∀ i ∈ List.range' (start (q.sent S M δ y0 y1 s.polarity)) (count (q.sent S M δ y0 y1 s.polarity)),
        (q.sent S M δ y0 y1 s.polarity).sym ((i : ℤ) - 1) = true ∧ (q.sent S M δ y0 y1 s.polarity).sym i = true) ↔
        ∀ i ∈ (List.range' (start (q.sent S M δ y0 y1 s.polarity)) (count (q.sent S M δ y0 y1 s.polarity))).map
          ((q.changes M s.polarity).headD 0 + ·), q.sym (i - 1) = true ∧ q.sym i = true := by
      rw [List.forall_mem_map]
      refine forall₂_congr fun i _ => ?_
      rw [sym_shift, sym_pred _ _ _ _ _ _ _ _ hj0]
    simp only [Function.comp, hk1, hall]
  · intro q hq
    obtain ⟨i1, i2, -⟩ := g4 _ (List.mem_map_of_mem hq)
    exact decoded_of S M δ y0 y1 s.polarity q hδ (hrec q hq).1 _ _ i1 i2

/-- **C71 (NRZL)**, the same: the bits are the sent symbols.  Partial: if all decoded symbols and those before them are ones, the bits are zeros. -/
theorem C71_nrzl_partial (sort : List Cdr.Scored → List Cdr.Scored) (finer : List Cdr.Finer) (hsort : CdrSearch.Reorders sort)
    (hbest : CdrSearch.BestFirst sort) (s : Settings) (m : Level ℚ × Level ℚ) (mask : Option MaskFn) (qs : List Square) (S M : ℕ)
    (δ y0 y1 tSym : ℚ) (hS : 0 < S) (hδ : 0 < δ)
    (h0 : s.level.y0 = some y0) (h1 : s.level.y1 = some y1) (hth : s.level.yTh = none)
    (hh : 0 ≤ s.level.hys.getD (s.level.hysUa * (y1 - y0)) ∧ s.level.hys.getD (s.level.hysUa * (y1 - y0)) < y1 - y0)
    (hrec : ∀ q ∈ qs, q.Recoverable M s.polarity) (htwo : ∃ q ∈ qs, (q.changes M s.polarity).headD 0 + 2 ≤ (q.changes M s.polarity).getLastD 0)
    (ht : 0 < tSym) (hunit : tSym ≤ 200) (htT : |S * δ - tSym| ≤ tSym / 100)
    (hskip : s.skip = false) (hr : 0 < s.resolution) (hl : Drawable s.resolution s.edgeLower) (hu : Drawable s.resolution s.edgeUpper)
    (hm : MaskOk mask s.level (S * δ) δ (qs.map fun q => q.values S M y0 y1)) (hw : decisionWidth s.levelWidth (S * δ) δ < 1) :
    ∃ (a : Analysis) (start count : Square → ℕ),
      calculateAll s m none none (recover fun e => Cdr.runWith sort finer ⟨some tSym, false⟩ e true) mask (qs.map (Square.wave S M δ y0 y1)) = .ok a ∧
      a.tSym = S * δ ∧
      bits a false = .ok (qs.map fun q => (List.range' (start q) (count q)).map fun j : ℕ =>
        if (∀ i ∈ List.range' (start q) (count q), q.sym (i - 1) = true ∧ q.sym i = true) then 0 else if q.sym j then 1 else 0) ∧
      ∀ q ∈ qs, Decoded S M s.polarity q (start q) (count q) := by
  obtain ⟨e1, e2, e3, e4, e5⟩ := manual_thresholds s.level m y0 y1 h0 h1 hth hh
  exact decodes_nrzl_partial sort finer hsort hbest s m mask qs S M δ y0 y1 tSym hS hδ e1 e2 e3 e4 e5 hrec htwo ht hunit htT hskip hr hl hu hm hw

/-- Ones and zeros in turn, then two ones. -/
def exSquare : Square := ⟨3, fun j => j % 2 == 1 || j == 6⟩

/-- The hypotheses of C71 are met: 10 symbols of 10 samples, 1 ns per symbol, nominal symbol period 1.005 ns, in ns. -/
example : ∃ (a : Analysis) (start count : Square → ℕ),
    calculateAll (exSettings (4 / 5)) (⟨0, 0⟩, ⟨0, 0⟩) none none
      (recover fun e => Cdr.runWith (·.mergeSort CdrSearch.byScore) [] ⟨some (201 / 200), false⟩ e true) none [exSquare.wave 10 10 (1 / 10) 0 1] = .ok a ∧
    a.tSym = 1 ∧ bits a true = .ok [(List.range' (start exSquare) (count exSquare)).map fun j : ℕ => if exSquare.sym (j - 1) = exSquare.sym j then 0 else 1] ∧
    start exSquare = 2 ∧ count exSquare = 6 := by
  have hch : exSquare.changes 10 .falling = [2, 4, 8] := by decide +kernel
  obtain ⟨a, start, count, h1, h2, h3, h4⟩ := C71_nrzm (·.mergeSort CdrSearch.byScore) [] CdrSearch.mergeSort_sorts.1 CdrSearch.mergeSort_sorts.2
    (exSettings (4 / 5)) (⟨0, 0⟩, ⟨0, 0⟩) none [exSquare] 10 10 (1 / 10) 0 1 (201 / 200) (by norm_num) (by norm_num) rfl rfl rfl
    (by norm_num [exSettings]) (by
      intro q hq
      obtain rfl := List.mem_singleton.1 hq
      unfold Square.Recoverable
      rw [show (exSettings (4 / 5)).polarity = .falling from rfl, hch]
      decide) ⟨exSquare, by simp, by rw [show (exSettings (4 / 5)).polarity = .falling from rfl, hch]; decide⟩
    (by norm_num) (by norm_num) (by rw [abs_le]; norm_num) rfl (by decide) (by unfold Drawable; decide +kernel) (by unfold Drawable; decide +kernel)
    (by intro f hf; cases hf) (by decide +kernel)
  obtain ⟨g1, g2, g3⟩ := h4 exSquare (by simp)
  rw [show (exSettings (4 / 5)).polarity = .falling from rfl, hch] at g1 g2 g3
  have k1 := g3 2 (by decide) (by decide) (by decide) (by decide)
  have k2 := g3 7 (by decide) (by decide) (by decide) (by decide)
  simp only [List.headD_cons, List.getLastD_cons] at g1 g2
  simp only [List.getLastD_nil] at g2
  refine ⟨a, start, count, h1, by rw [h2]; norm_num, h3, by omega, by omega⟩

end Verif.Props.SquareWave
