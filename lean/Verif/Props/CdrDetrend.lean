import Verif.Model.Cdr
import Verif.Props.EyeWindow
import Mathlib.Tactic.Linarith
import Mathlib.Tactic.FieldSimp

/-!
C49: `detrend_ties` is the least squares fit of the period; C12: the compiled version.
-/

namespace Verif.Props.CdrDetrend

open Verif Verif.Eye Verif.Cdr Verif.Props.EyeWindow

/-! ### Specification -/

/-- `k` numbers the symbols at the edges: each gap between edges is a nearest whole number of periods of `t`. -/
def Numbered (t : ℚ) (edges : List ℚ) (k : List ℤ) : Prop :=
  k.length = edges.length ∧ k.head? = edges.head?.map (fun _ => 0) ∧
  (edges.zip k).IsChain fun a b => |(b.1 - a.1) - (b.2 - a.2) * t| ≤ t / 2

/-- The sum of squared errors of edges at `a + k * T`. -/
def sse (k e : List ℚ) (a T : ℚ) : ℚ := ((k.zip e).map fun p => (p.2 - a - p.1 * T) ^ 2).sum

/-- `T` is the period of a best fit. -/
def BestFit (k e : List ℚ) (T : ℚ) : Prop := ∃ a, ∀ a' T', sse k e a T ≤ sse k e a' T'

/-! ### Fallback and compiled version -/

/-- The change of the offset at a difference. -/
def turn (t d : ℚ) : ℤ := if t / 2 < |d| then (if 0 < d then -1 else 1) else 0

theorem fix_fold (t : ℚ) (ds : List (ℚ × ℕ)) (s : List (ℤ × ℚ)) :
    ds.foldl (fixStep t) s = s.zipIdx.map fun p =>
      let w : ℤ := (ds.map fun d => if p.2 < d.2 + 1 then (0 : ℤ) else if 0 < d.1 then -1 else 1).sum
      (p.1.1 - w, p.1.2 + w * t) := by
  induction ds generalizing s with
  | nil =>
    simp only [List.foldl_nil, List.map_nil, List.sum_nil, sub_zero, Int.cast_zero, zero_mul, add_zero]
    apply List.ext_getElem
    · simp
    · intro i h1 h2
      simp
  | cons d ds ih =>
    rw [List.foldl_cons, ih]
    unfold fixStep
    apply List.ext_getElem
    · simp
    · intro i h1 h2
      simp only [List.getElem_map, List.getElem_zipIdx, List.map_cons, List.sum_cons, Nat.zero_add, Prod.mk.injEq]
      constructor
      · ring
      · push_cast
        ring

theorem turns_eq (t : ℚ) (l : List ℚ) (k i : ℕ) :
    (((l.zipIdx k).filter fun d => decide (t / 2 < |d.1|)).map fun d => if i < d.2 + 1 then (0 : ℤ) else if 0 < d.1 then -1 else 1).sum =
      ((l.take (i - k)).map (turn t)).sum := by
  induction l generalizing k with
  | nil => simp
  | cons d l ih =>
    rw [List.zipIdx_cons, List.filter_cons]
    by_cases hi : i < k + 1
    · have h0 : i - k = 0 := by omega
      have h1 : i - (k + 1) = 0 := by omega
      have := ih (k + 1)
      rw [h1, List.take_zero, List.map_nil, List.sum_nil] at this
      rw [h0, List.take_zero, List.map_nil, List.sum_nil]
      split
      · rw [List.map_cons, List.sum_cons, this, if_pos hi, add_zero]
      · exact this
    · have h0 : i - k = (i - (k + 1)) + 1 := by omega
      rw [h0, List.take_succ_cons, List.map_cons, List.sum_cons, ← ih (k + 1)]
      unfold turn
      by_cases hd : t / 2 < |d|
      · simp only [hd, decide_true, if_true, List.map_cons, List.sum_cons, if_neg hi]
      · simp only [hd, decide_false, Bool.false_eq_true, if_false, zero_add]

/-- Bits and errors before jumps are removed. -/
def raw (first t e : ℚ) : ℤ × ℚ := (floorDiv (e - first + t / 2) t, pyMod (e - first + t / 2) t - t / 2)

theorem raw_spec (first t e : ℚ) (ht : 0 < t) :
    e - first = (raw first t e).1 * t + (raw first t e).2 ∧ -(t / 2) ≤ (raw first t e).2 ∧ (raw first t e).2 < t / 2 := by
  obtain ⟨h1, h2, -⟩ := pyMod_spec (e - first + t / 2) t ht
  have h3 : pyMod (e - first + t / 2) t = (e - first + t / 2) - t * ⌊(e - first + t / 2) / t⌋ := rfl
  unfold raw floorDiv
  simp only
  refine ⟨?_, by linarith, by linarith⟩
  rw [h3]
  ring

theorem raw_first (first t : ℚ) (ht : 0 < t) : raw first t first = (0, 0) := by
  have h : floorDiv (first - first + t / 2) t = 0 := by
    unfold floorDiv
    rw [sub_self, zero_add, div_div, mul_comm, ← div_div, div_self ht.ne']
    norm_num
  obtain ⟨h1, -⟩ := raw_spec first t first ht
  have h2 : (raw first t first).1 = 0 := h
  rw [h2] at h1
  ext
  · exact h2
  · have : (raw first t first).2 = 0 := by simpa using h1.symm
    exact this

theorem unwrap_eq (edges : List ℚ) (first t : ℚ) :
    unwrap edges first t = (edges.map (raw first t)).zipIdx.map fun p =>
      let w : ℤ := (((diffs (edges.map fun e => (raw first t e).2)).take p.2).map (turn t)).sum
      (p.1.1 - w, p.1.2 + w * t) := by
  unfold unwrap
  simp only
  rw [fix_fold]
  have hm : (edges.map fun e => (floorDiv (e - first + t / 2) t, pyMod (e - first + t / 2) t - t / 2)) = edges.map (raw first t) := rfl
  rw [hm, List.map_map]
  apply List.map_congr_left
  intro p _
  have := turns_eq t (diffs (List.map (Prod.snd ∘ raw first t) edges)) 0 p.2
  rw [Nat.sub_zero] at this
  have hc : (edges.map fun e => (raw first t e).2) = edges.map (Prod.snd ∘ raw first t) := rfl
  rw [hc, ← this]

/-- The loop of the compiled version from the state after an edge `p`. -/
theorem unwrapC_eq (first t : ℚ) (ht : 0 < t) (es : List ℚ) (p : ℚ) (w : ℤ) :
    unwrapC first t es (raw first t p).2 (-w) (w * t) = (es.map (raw first t)).zipIdx.map fun q =>
      let v : ℤ := w + (((diffs ((p :: es).map fun e => (raw first t e).2)).take (q.2 + 1)).map (turn t)).sum
      (q.1.1 - v, q.1.2 + v * t) := by
  induction es generalizing p w with
  | nil => rfl
  | cons e es ih =>
    have htie : e - first - (floorDiv (e - first + t / 2) t) * t = (raw first t e).2 := by
      obtain ⟨h1, -⟩ := raw_spec first t e ht
      show e - first - ((raw first t e).1 : ℚ) * t = _
      linarith
    have ho : (if (raw first t e).2 - (raw first t p).2 < -(t / 2) then (-w - 1, (w : ℚ) * t + t)
        else if t / 2 < (raw first t e).2 - (raw first t p).2 then (-w + 1, (w : ℚ) * t - t) else (-w, (w : ℚ) * t)) =
        (-(w + turn t ((raw first t e).2 - (raw first t p).2)), ((w + turn t ((raw first t e).2 - (raw first t p).2) : ℤ) : ℚ) * t) := by
      generalize (raw first t e).2 - (raw first t p).2 = d
      unfold turn
      split
      · rename_i h
        have h1 : t / 2 < |d| := by rw [lt_abs]; right; linarith
        have h2 : ¬ 0 < d := by linarith
        rw [if_pos h1, if_neg h2]
        push_cast
        ext
        · show -w - 1 = -(w + 1); ring
        · show (w : ℚ) * t + t = (w + 1) * t; ring
      · split
        · rename_i h
          have h1 : t / 2 < |d| := by rw [lt_abs]; left; linarith
          have h2 : 0 < d := by linarith
          rw [if_pos h1, if_pos h2]
          push_cast
          ext
          · show -w + 1 = -(w + -1); ring
          · show (w : ℚ) * t - t = (w + -1) * t; ring
        · rename_i ha hb
          have h1 : ¬ t / 2 < |d| := by rw [lt_abs]; push Not at ha hb ⊢; constructor <;> linarith
          rw [if_neg h1]
          simp
    unfold unwrapC
    simp only [htie]
    rw [ho]
    simp only
    rw [ih e]
    have hd : diffs ((p :: e :: es).map fun e => (raw first t e).2) =
        ((raw first t e).2 - (raw first t p).2) :: diffs ((e :: es).map fun e => (raw first t e).2) := rfl
    rw [hd, List.map_cons (f := raw first t), List.zipIdx_cons, List.map_cons]
    congr 1
    · show (_, _) = (_, _)
      simp only [Nat.zero_add, List.take_succ_cons, List.take_zero, List.map_cons, List.map_nil, List.sum_cons, List.sum_nil, add_zero]
      ext
      · show floorDiv (e - first + t / 2) t + -(w + _) = (raw first t e).1 - (w + _)
        show (raw first t e).1 + -(w + _) = (raw first t e).1 - (w + _)
        ring
      · rfl
    · apply List.ext_getElem
      · simp
      · intro i h1 h2
        simp only [List.getElem_map, List.getElem_zipIdx, Nat.zero_add, List.take_succ_cons, List.map_cons, List.sum_cons, Prod.mk.injEq]
        constructor
        · ring_nf
        · push_cast
          ring_nf

theorem unwrap_both (first : ℚ) (rest : List ℚ) (t : ℚ) (ht : 0 < t) :
    unwrap (first :: rest) first t = (0, 0) :: unwrapC first t rest 0 0 0 := by
  have h := unwrapC_eq first t ht rest first 0
  rw [raw_first first t ht] at h
  simp only [neg_zero, Int.cast_zero, zero_mul, zero_add] at h
  rw [h, unwrap_eq, List.map_cons (f := raw first t), List.zipIdx_cons, List.map_cons, raw_first first t ht]
  congr 1
  · simp
  · apply List.ext_getElem
    · simp
    · intro i h1 h2
      simp only [List.getElem_map, List.getElem_zipIdx, Nat.zero_add]
      rw [show 1 + i = i + 1 by omega]

/-- C12: the compiled `detrend_ties` returns the same as the fallback. -/
theorem C12_detrend (edges : List ℚ) (t : ℚ) (ht : 0 < t) (h : edges ≠ []) : detrendTies edges t = .ok (detrendTiesC edges t) := by
  cases edges with
  | nil => exact absurd rfl h
  | cons first rest =>
    unfold detrendTies detrendTiesC
    have : pyGet (first :: rest) 0 = .ok first := rfl
    rw [this]
    simp only [bind, Except.bind, pure, Except.pure, unwrap_both first rest t ht]

/-! ### The numbering -/

theorem unwrapC_numbered (first t : ℚ) (ht : 0 < t) (es : List ℚ) (p : ℚ) (w : ℤ) :
    ∃ k : List ℤ, k.length = es.length ∧
      unwrapC first t es (raw first t p).2 (-w) (w * t) = (es.zip k).map (fun q => (q.2, q.1 - first - q.2 * t)) ∧
      ((p, (raw first t p).1 - w) :: es.zip k).IsChain fun a b : ℚ × ℤ => |(b.1 - a.1) - (b.2 - a.2) * t| ≤ t / 2 := by
  induction es generalizing p w with
  | nil => exact ⟨[], rfl, rfl, List.isChain_singleton _⟩
  | cons e es ih =>
    obtain ⟨e1, e2, e3⟩ := raw_spec first t e ht
    obtain ⟨p1, p2, p3⟩ := raw_spec first t p ht
    have htie : e - first - (floorDiv (e - first + t / 2) t) * t = (raw first t e).2 := by
      show e - first - ((raw first t e).1 : ℚ) * t = _
      linarith
    obtain ⟨v, hv, hb⟩ : ∃ v : ℤ, (if (raw first t e).2 - (raw first t p).2 < -(t / 2) then (-w - 1, (w : ℚ) * t + t)
        else if t / 2 < (raw first t e).2 - (raw first t p).2 then (-w + 1, (w : ℚ) * t - t) else (-w, (w : ℚ) * t)) = (-v, (v : ℚ) * t) ∧
        |(raw first t e).2 - (raw first t p).2 + ((v : ℚ) - w) * t| ≤ t / 2 := by
      split
      · rename_i h
        refine ⟨w + 1, by push_cast; ext <;> simp only <;> ring, ?_⟩
        push_cast
        rw [abs_le]
        constructor <;> linarith
      · split
        · rename_i h
          refine ⟨w - 1, by push_cast; ext <;> simp only <;> ring, ?_⟩
          push_cast
          rw [abs_le]
          constructor <;> linarith
        · rename_i ha hb
          push Not at ha hb
          refine ⟨w, rfl, ?_⟩
          rw [abs_le]
          constructor <;> linarith
    obtain ⟨k, h1, h2, h3⟩ := ih e v
    refine ⟨((raw first t e).1 - v) :: k, by simp [h1], ?_, ?_⟩
    · unfold unwrapC
      simp only [htie]
      rw [hv]
      simp only
      rw [h2, List.zip_cons_cons, List.map_cons]
      congr 1
      ext
      · show (raw first t e).1 + -v = (raw first t e).1 - v
        ring
      · show (raw first t e).2 + v * t = e - first - ((raw first t e).1 - v : ℤ) * t
        rw [e1]
        push_cast
        ring
    · rw [List.zip_cons_cons, List.isChain_cons_cons]
      refine ⟨?_, h3⟩
      simp only
      have : e - p - (((raw first t e).1 - v : ℤ) - ((raw first t p).1 - w : ℤ) : ℚ) * t =
          (raw first t e).2 - (raw first t p).2 + ((v : ℚ) - w) * t := by
        push_cast
        linear_combination e1 - p1
      rw [this]
      exact hb

/-- What `detrend_ties` computes: the slope of the errors over a numbering. -/
theorem detrend_numbered (first : ℚ) (rest : List ℚ) (t : ℚ) (ht : 0 < t) :
    ∃ k : List ℤ, Numbered t (first :: rest) k ∧
      detrendTies (first :: rest) t = .ok ((slope (k.map fun x : ℤ => (x : ℚ)) (((first :: rest).zip k).map fun q => q.1 - first - q.2 * t)).map
        fun m => t + m) := by
  obtain ⟨k, h1, h2, h3⟩ := unwrapC_numbered first t ht rest first 0
  rw [raw_first first t ht] at h2 h3
  simp only [neg_zero, Int.cast_zero, zero_mul, sub_zero] at h2 h3
  refine ⟨0 :: k, ⟨by simp [h1], rfl, h3⟩, ?_⟩
  unfold detrendTies
  have : pyGet (first :: rest) 0 = .ok first := rfl
  rw [this]
  simp only [bind, Except.bind, pure, Except.pure, unwrap_both first rest t ht, h2, List.map_cons, List.map_map, List.zip_cons_cons,
    Int.cast_zero, zero_mul, sub_self, Function.comp_def, Except.ok.injEq]
  have e : (rest.zip k).map (fun q => ((q.2 : ℤ) : ℚ)) = k.map fun x : ℤ => (x : ℚ) := by
    have := List.map_map (f := Prod.snd) (g := fun x : ℤ => (x : ℚ)) (l := rest.zip k)
    rw [List.map_snd_zip (by omega)] at this
    exact this.symm
  rw [e]

/-! ### Regression -/

theorem sum_parts (l : List (ℚ × ℚ)) (a b : ℚ) :
    (l.map fun p => (p.1 - a) * (p.2 - b)).sum =
      (l.map fun p => p.1 * p.2).sum - a * (l.map Prod.snd).sum - b * (l.map Prod.fst).sum + a * b * l.length := by
  induction l with
  | nil => simp
  | cons p l ih =>
    simp only [List.map_cons, List.sum_cons, List.length_cons, ih]
    push_cast
    ring

theorem sq_parts (l : List (ℚ × ℚ)) (a : ℚ) :
    ((l.map Prod.fst).map fun x => (x - a) * (x - a)).sum =
      (l.map fun p => p.1 * p.1).sum - 2 * a * (l.map Prod.fst).sum + a * a * l.length := by
  induction l with
  | nil => simp
  | cons p l ih =>
    simp only [List.map_cons, List.sum_cons, List.length_cons, ih]
    push_cast
    ring

theorem slope_pairs (l : List (ℚ × ℚ)) (h : l ≠ []) :
    slope (l.map Prod.fst) (l.map Prod.snd) =
      if l.length * (l.map fun p => p.1 * p.1).sum - (l.map Prod.fst).sum ^ 2 = 0 then none
      else some ((l.length * (l.map fun p => p.1 * p.2).sum - (l.map Prod.fst).sum * (l.map Prod.snd).sum) /
        (l.length * (l.map fun p => p.1 * p.1).sum - (l.map Prod.fst).sum ^ 2)) := by
  have hl : (l.length : ℚ) ≠ 0 := by exact_mod_cast (List.length_pos_iff.2 h).ne'
  have hz : (l.map Prod.fst).zip (l.map Prod.snd) = l := by
    clear h hl
    induction l with
    | nil => rfl
    | cons p l ih => rw [List.map_cons, List.map_cons, List.zip_cons_cons, ih]
  unfold slope
  simp only [List.length_map, hz]
  rw [sum_parts, sq_parts]
  generalize (l.map fun p => p.1 * p.1).sum = Sxx
  generalize (l.map fun p => p.1 * p.2).sum = Sxy
  generalize (l.map Prod.fst).sum = Sx
  generalize (l.map Prod.snd).sum = Sy
  generalize (l.length : ℚ) = n at *
  have e1 : (Sxx - 2 * (Sx / n) * Sx + Sx / n * (Sx / n) * n) / n = (n * Sxx - Sx ^ 2) / n ^ 2 := by field_simp; ring
  have e2 : (Sxy - Sx / n * Sy - Sy / n * Sx + Sx / n * (Sy / n) * n) / n = (n * Sxy - Sx * Sy) / n ^ 2 := by field_simp; ring
  rw [e1, e2]
  have hn2 : n ^ 2 ≠ 0 := pow_ne_zero _ hl
  by_cases hD : n * Sxx - Sx ^ 2 = 0
  · rw [if_pos hD, if_pos (by rw [hD, zero_div])]
  · rw [if_neg hD, if_neg (div_ne_zero hD hn2), div_div_div_cancel_right₀ hn2]

theorem sse_parts (l : List (ℚ × ℚ)) (a T : ℚ) :
    (l.map fun p => (p.2 - a - p.1 * T) ^ 2).sum = (l.map fun p => p.2 * p.2).sum + l.length * a ^ 2 + T ^ 2 * (l.map fun p => p.1 * p.1).sum -
      2 * a * (l.map Prod.snd).sum - 2 * T * (l.map fun p => p.1 * p.2).sum + 2 * a * T * (l.map Prod.fst).sum := by
  induction l with
  | nil => simp
  | cons p l ih =>
    simp only [List.map_cons, List.sum_cons, List.length_cons, ih]
    push_cast
    ring

theorem form_nonneg (l : List (ℚ × ℚ)) (x y : ℚ) :
    0 ≤ l.length * x ^ 2 + 2 * x * y * (l.map Prod.fst).sum + y ^ 2 * (l.map fun p => p.1 * p.1).sum := by
  induction l with
  | nil => simp
  | cons p l ih =>
    simp only [List.map_cons, List.sum_cons, List.length_cons]
    push_cast
    nlinarith [sq_nonneg (x + p.1 * y)]

/-- A regression slope is the period of a best fit. -/
theorem slope_best (l : List (ℚ × ℚ)) (h : l ≠ []) (T : ℚ) (hs : slope (l.map Prod.fst) (l.map Prod.snd) = some T) :
    ∃ a, ∀ a' T', (l.map fun p => (p.2 - a - p.1 * T) ^ 2).sum ≤ (l.map fun p => (p.2 - a' - p.1 * T') ^ 2).sum := by
  rw [slope_pairs l h] at hs
  split at hs
  · cases hs
  · rename_i hD
    have hT := Option.some.inj hs
    have hl : (l.length : ℚ) ≠ 0 := by exact_mod_cast (List.length_pos_iff.2 h).ne'
    refine ⟨((l.map Prod.snd).sum - T * (l.map Prod.fst).sum) / l.length, fun a' T' => ?_⟩
    rw [sse_parts, sse_parts]
    obtain ⟨a, ha⟩ : ∃ a, ((l.map Prod.snd).sum - T * (l.map Prod.fst).sum) / l.length = a := ⟨_, rfl⟩
    rw [ha]
    have hf := form_nonneg l (a' - a) (T' - T)
    have hT' : T * (l.length * (l.map fun p => p.1 * p.1).sum - (l.map Prod.fst).sum ^ 2) =
        l.length * (l.map fun p => p.1 * p.2).sum - (l.map Prod.fst).sum * (l.map Prod.snd).sum := by
      rw [← hT]; exact div_mul_cancel₀ _ hD
    have ha' : a * l.length = (l.map Prod.snd).sum - T * (l.map Prod.fst).sum := by rw [← ha]; exact div_mul_cancel₀ _ hl
    generalize (l.map fun p => p.1 * p.1).sum = Sxx at *
    generalize (l.map fun p => p.1 * p.2).sum = Sxy at *
    generalize (l.map fun p => p.2 * p.2).sum = Syy at *
    generalize (l.map Prod.fst).sum = Sx at *
    generalize (l.map Prod.snd).sum = Sy at *
    generalize (l.length : ℚ) = n at *
    -- second normal equation
    have h2 : Sxy - a * Sx - T * Sxx = 0 := by
      have : n * (Sxy - a * Sx - T * Sxx) = 0 := by linear_combination (-1) * hT' - Sx * ha'
      exact (mul_eq_zero.1 this).resolve_left hl
    have key : Syy + n * a' ^ 2 + T' ^ 2 * Sxx - 2 * a' * Sy - 2 * T' * Sxy + 2 * a' * T' * Sx -
        (Syy + n * a ^ 2 + T ^ 2 * Sxx - 2 * a * Sy - 2 * T * Sxy + 2 * a * T * Sx) =
        n * (a' - a) ^ 2 + 2 * (a' - a) * (T' - T) * Sx + (T' - T) ^ 2 * Sxx := by
      linear_combination (2 * (a' - a)) * ha' - 2 * (T' - T) * h2
    linarith

/-- Adding a multiple of `x` to the values adds the factor to the slope. -/
theorem slope_shift (l : List (ℚ × ℚ)) (h : l ≠ []) (c t : ℚ) :
    (slope (l.map Prod.fst) (l.map fun p => p.2 - c - p.1 * t)).map (fun m => t + m) = slope (l.map Prod.fst) (l.map Prod.snd) := by
  have hm : ∀ m : List (ℚ × ℚ), ((m.map fun p => (p.1, p.2 - c - p.1 * t)).map fun p => p.1 * p.2).sum =
      (m.map fun p => p.1 * p.2).sum - c * (m.map Prod.fst).sum - t * (m.map fun p => p.1 * p.1).sum ∧
      ((m.map fun p => (p.1, p.2 - c - p.1 * t)).map Prod.snd).sum = (m.map Prod.snd).sum - c * m.length - t * (m.map Prod.fst).sum := by
    intro m
    induction m with
    | nil => simp
    | cons p m ih =>
      obtain ⟨i1, i2⟩ := ih
      simp only [List.map_cons, List.sum_cons, i1, i2, List.length_cons]
      push_cast
      constructor <;> ring
  have e1 := slope_pairs (l.map fun p => (p.1, p.2 - c - p.1 * t)) (by simpa using h)
  obtain ⟨m1, m2⟩ := hm l
  rw [m1, m2] at e1
  simp only [List.map_map, List.length_map, Function.comp_def] at e1
  have e1' : slope (l.map Prod.fst) (l.map fun p => p.2 - c - p.1 * t) = _ := e1
  rw [e1', slope_pairs l h]
  have hfst : (l.map fun x : ℚ × ℚ => x.1) = l.map Prod.fst := rfl
  rw [hfst]
  by_cases hD : l.length * (l.map fun p => p.1 * p.1).sum - (l.map Prod.fst).sum ^ 2 = 0
  · rw [if_pos hD, if_pos hD]
    rfl
  · rw [if_neg hD, if_neg hD, Option.map_some, Option.some.injEq]
    rw [eq_div_iff hD, add_mul, div_mul_cancel₀ _ hD]
    ring

theorem zip_cast (e : List ℚ) (k : List ℤ) (h : k.length = e.length) :
    ((k.map fun x : ℤ => (x : ℚ)).zip e).map Prod.fst = k.map (fun x : ℤ => (x : ℚ)) ∧ ((k.map fun x : ℤ => (x : ℚ)).zip e).map Prod.snd = e :=
  ⟨List.map_fst_zip (by simp [h]), List.map_snd_zip (by simp [h])⟩

/-- The period is the slope of the edges over the numbering. -/
theorem detrend_slope (edges : List ℚ) (t : ℚ) (ht : 0 < t) (h : edges ≠ []) :
    ∃ k : List ℤ, Numbered t edges k ∧ detrendTies edges t = .ok (slope (k.map fun x : ℤ => (x : ℚ)) edges) := by
  cases edges with
  | nil => exact absurd rfl h
  | cons first rest =>
    obtain ⟨k, hk, hd⟩ := detrend_numbered first rest t ht
    refine ⟨k, hk, ?_⟩
    obtain ⟨z1, z2⟩ := zip_cast (first :: rest) k hk.1
    have hne : (k.map fun x : ℤ => (x : ℚ)).zip (first :: rest) ≠ [] := by
      have : k ≠ [] := by
        intro hn
        rw [hn] at hk
        simpa using hk.1
      obtain ⟨a, k', rfl⟩ := List.exists_cons_of_ne_nil this
      simp
    have hs := slope_shift _ hne first t
    rw [z1, z2] at hs
    rw [hd, ← hs]
    congr 3
    have : ∀ (e : List ℚ) (k : List ℤ), (e.zip k).map (fun q => q.1 - first - q.2 * t) =
        ((k.map fun x : ℤ => (x : ℚ)).zip e).map fun p => p.2 - first - p.1 * t := by
      intro e
      induction e with
      | nil => intro k; simp
      | cons a e ih =>
        intro k
        cases k with
        | nil => simp
        | cons b k => simp only [List.zip_cons_cons, List.map_cons, ih]
    exact this _ _

/-! ### C49 -/

/-- C49: the period returned by `detrend_ties` is that of a best fit of the edges by their symbol numbers, where each gap is a nearest whole
number of the given period; nan if all edges have the same number. -/
theorem C49_best_fit (edges : List ℚ) (t : ℚ) (ht : 0 < t) (h : edges ≠ []) :
    ∃ (k : List ℤ) (r : Option ℚ), Numbered t edges k ∧ detrendTies edges t = .ok r ∧
      (∀ T, r = some T → BestFit (k.map fun x : ℤ => (x : ℚ)) edges T) ∧ (r = none ↔ ∀ x ∈ k, x = 0) := by
  obtain ⟨k, hk, hd⟩ := detrend_slope edges t ht h
  obtain ⟨z1, z2⟩ := zip_cast edges k hk.1
  have hke : k ≠ [] := by
    intro hn
    have := hk.1
    rw [hn] at this
    exact h (List.length_eq_zero_iff.1 this.symm)
  have hne : (k.map fun x : ℤ => (x : ℚ)).zip edges ≠ [] := by
    obtain ⟨a, k', rfl⟩ := List.exists_cons_of_ne_nil hke
    obtain ⟨b, e', rfl⟩ := List.exists_cons_of_ne_nil h
    simp
  refine ⟨k, _, hk, hd, ?_, ?_⟩
  · intro T hT
    have := slope_best _ hne T (by rw [z1, z2]; exact hT)
    exact this
  · have hs := slope_pairs _ hne
    rw [z1, z2] at hs
    rw [hs]
    have hlen : ((k.map fun x : ℤ => (x : ℚ)).zip edges).length = k.length := by simp [hk.1]
    have hsq : ((k.map fun x : ℤ => (x : ℚ)).zip edges).map (fun p => p.1 * p.1) = (k.map fun x : ℤ => (x : ℚ)).map fun x => x * x := by
      rw [← z1, List.map_map, z1]
      rfl
    rw [hlen, hsq]
    have h0 : ∃ k', k = 0 :: k' := by
      obtain ⟨a, k', rfl⟩ := List.exists_cons_of_ne_nil hke
      obtain ⟨b, e', rfl⟩ := List.exists_cons_of_ne_nil h
      have := hk.2.1
      simp only [List.head?_cons, Option.map_some, Option.some.injEq] at this
      exact ⟨k', by rw [this]⟩
    obtain ⟨k', rfl⟩ := h0
    -- variance
    have hvar : ∀ m : List ℤ, ((m.map fun x : ℤ => (x : ℚ)).sum) ^ 2 ≤ m.length * ((m.map fun x : ℤ => (x : ℚ)).map fun x => x * x).sum := by
      intro m
      by_cases hm : m = []
      · simp [hm]
      · have hl : (0 : ℚ) < m.length := by exact_mod_cast List.length_pos_iff.2 hm
        have hf := form_nonneg (m.map fun x : ℤ => ((x : ℚ), (0 : ℚ))) ((m.map fun x : ℤ => (x : ℚ)).sum) (-(m.length : ℚ))
        simp only [List.map_map, List.length_map, Function.comp_def] at hf ⊢
        generalize (m.map fun x : ℤ => (x : ℚ)).sum = S at *
        generalize (m.map fun x : ℤ => (x : ℚ) * x).sum = Q at *
        have : 0 ≤ (m.length : ℚ) * (m.length * Q - S ^ 2) := by nlinarith
        have := nonneg_of_mul_nonneg_right this hl
        linarith
    have hq : ∀ m : List ℤ, 0 ≤ ((m.map fun x : ℤ => (x : ℚ)).map fun x => x * x).sum ∧
        (((m.map fun x : ℤ => (x : ℚ)).map fun x => x * x).sum = 0 → ∀ x ∈ m, x = 0) := by
      intro m
      induction m with
      | nil => simp
      | cons a m ih =>
        simp only [List.map_cons, List.sum_cons]
        have ha : (0 : ℚ) ≤ (a : ℚ) * a := mul_self_nonneg _
        refine ⟨by linarith [ih.1], fun h0 x hx => ?_⟩
        have h1 : (a : ℚ) * a = 0 := by linarith [ih.1]
        have h2 := ih.2 (by linarith [ih.1])
        rcases List.mem_cons.1 hx with rfl | hx
        · have := mul_self_eq_zero.1 h1
          exact_mod_cast this
        · exact h2 x hx
    constructor
    · intro hn
      split at hn
      · rename_i hD
        have h1 := hvar k'
        obtain ⟨h2, h3⟩ := hq k'
        simp only [List.map_cons, List.sum_cons, Int.cast_zero, zero_add, mul_zero, List.length_cons] at hD
        push_cast at hD
        have hQ : ((k'.map fun x : ℤ => (x : ℚ)).map fun x => x * x).sum = 0 := by linarith
        intro x hx
        rcases List.mem_cons.1 hx with rfl | hx
        · rfl
        · exact h3 hQ x hx
      · cases hn
    · intro hz
      have e0 : ((0 :: k').map fun x : ℤ => (x : ℚ)) = (0 :: k').map fun _ : ℤ => (0 : ℚ) := by
        apply List.map_congr_left
        intro x hx
        rw [hz x hx]
        simp
      rw [e0]
      rw [if_pos]
      simp

theorem number_unique (t : ℚ) (ht : 0 < t) (e : List ℚ) (k m : List ℤ) (hk : k.length = e.length) (hm : m.length = e.length) (z : ℤ)
    (h0 : ∀ a ∈ k.head?, ∀ b ∈ m.head?, b - a = z)
    (h1 : (e.zip k).IsChain fun a b => |(b.1 - a.1) - (b.2 - a.2) * t| ≤ t / 2)
    (h2 : (e.zip m).IsChain fun a b => |(b.1 - a.1) - (b.2 - a.2) * t| < t / 2) : m = k.map fun x => x + z := by
  induction e generalizing k m with
  | nil =>
    rw [List.length_nil, List.length_eq_zero_iff] at hk hm
    rw [hk, hm]
    rfl
  | cons a e ih =>
    obtain ⟨x, k, rfl⟩ : ∃ x k', k = x :: k' := by
      cases k with
      | nil => simp at hk
      | cons x k => exact ⟨x, k, rfl⟩
    obtain ⟨y, m, rfl⟩ : ∃ x k', m = x :: k' := by
      cases m with
      | nil => simp at hm
      | cons x k => exact ⟨x, k, rfl⟩
    have hz : y - x = z := h0 x rfl y rfl
    have hy : y = x + z := by omega
    rw [List.map_cons, ← hy]
    congr 1
    cases e with
    | nil =>
      have e1 : k = [] := by simpa using hk
      have e2 : m = [] := by simpa using hm
      rw [e1, e2]
      rfl
    | cons b e =>
      obtain ⟨x', k, rfl⟩ : ∃ x k', k = x :: k' := by
        cases k with
        | nil => simp at hk
        | cons x k => exact ⟨x, k, rfl⟩
      obtain ⟨y', m, rfl⟩ : ∃ x k', m = x :: k' := by
        cases m with
        | nil => simp at hm
        | cons x k => exact ⟨x, k, rfl⟩
      simp only [List.zip_cons_cons, List.isChain_cons_cons] at h1 h2
      refine ih (x' :: k) (y' :: m) (by simpa using hk) (by simpa using hm) ?_ (by simpa using h1.2) (by simpa using h2.2)
      intro p hp q hq
      obtain rfl : x' = p := by simpa using hp
      obtain rfl : y' = q := by simpa using hq
      have g1 := abs_le.1 h1.1
      have g2 := abs_lt.1 h2.1
      have hlt : ((y' - y - (x' - x) : ℤ) : ℚ) * t < 1 * t := by push_cast; linarith [g1.1, g1.2, g2.1, g2.2]
      have hgt : (-1 : ℚ) * t < ((y' - y - (x' - x) : ℤ) : ℚ) * t := by push_cast; linarith [g1.1, g1.2, g2.1, g2.2]
      have l1 := lt_of_mul_lt_mul_right hlt ht.le
      have l2 := lt_of_mul_lt_mul_right hgt ht.le
      have l1' : y' - y - (x' - x) < 1 := by exact_mod_cast l1
      have l2' : -1 < y' - y - (x' - x) := by exact_mod_cast l2
      omega

/-- C49: edges without jitter, `m[i]` symbols of `T` after some time, give the exact period from every initial period that is not off by half a
period over any gap. -/
theorem C49_exact (m : List ℤ) (a T t : ℚ) (ht : 0 < t) (hd : ∃ x ∈ m, ∃ y ∈ m, x ≠ y)
    (hg : m.IsChain fun x y => |((y - x : ℤ) : ℚ) * (T - t)| < t / 2) :
    detrendTies (m.map fun x : ℤ => a + x * T) t = .ok (some T) := by
  obtain ⟨x0, hx0, y0, hy0, hxy⟩ := hd
  have hme : m ≠ [] := List.ne_nil_of_mem hx0
  have hne : (m.map fun x : ℤ => a + (x : ℚ) * T) ≠ [] := by simpa using hme
  obtain ⟨k, r, ⟨k1, k2, k3⟩, hr, hb, hn⟩ := C49_best_fit _ t ht hne
  obtain ⟨k', hk'n, hds⟩ := detrend_slope _ t ht hne
  -- the numbering is m up to its first element
  have uniq : ∀ k : List ℤ, Numbered t (m.map fun x : ℤ => a + (x : ℚ) * T) k → ∃ z : ℤ, m = k.map fun x => x + z := by
    rintro k ⟨k1, k2, k3⟩
    obtain ⟨m0, m', hm0⟩ := List.exists_cons_of_ne_nil hme
    refine ⟨m0, number_unique t ht _ k m k1 (by simp) m0 ?_ k3 ?_⟩
    · intro p hp q hq
      rw [hm0] at hq k2
      simp only [List.map_cons, List.head?_cons, Option.map_some] at k2
      rw [k2] at hp
      obtain rfl : 0 = p := by simpa using hp
      obtain rfl : m0 = q := by simpa using hq
      ring
    · have : ∀ l : List ℤ, l.IsChain (fun x y => |((y - x : ℤ) : ℚ) * (T - t)| < t / 2) →
          ((l.map fun x : ℤ => a + (x : ℚ) * T).zip l).IsChain fun a b => |(b.1 - a.1) - (b.2 - a.2) * t| < t / 2 := by
        intro l
        induction l with
        | nil => intro _; exact List.isChain_nil
        | cons x l ih =>
          cases l with
          | nil => intro _; exact List.isChain_singleton _
          | cons y l =>
            intro h
            rw [List.isChain_cons_cons] at h
            simp only [List.map_cons, List.zip_cons_cons, List.isChain_cons_cons]
            refine ⟨?_, ?_⟩
            · have := h.1
              push_cast at this
              rwa [show a + (y : ℚ) * T - (a + x * T) - ((y : ℚ) - x) * t = ((y : ℚ) - x) * (T - t) by ring]
            · have := ih h.2
              simpa using this
      exact this m hg
  obtain ⟨z, hz⟩ := uniq k' hk'n
  rw [hds, Except.ok.injEq]
  have hk'e : k' ≠ [] := by rintro rfl; exact hme (by simpa using hz)
  obtain ⟨z1, z2⟩ := zip_cast _ k' hk'n.1
  have hne' : (k'.map fun x : ℤ => (x : ℚ)).zip (m.map fun x : ℤ => a + (x : ℚ) * T) ≠ [] := by
    obtain ⟨b, k'', rfl⟩ := List.exists_cons_of_ne_nil hk'e
    obtain ⟨c, m', rfl⟩ := List.exists_cons_of_ne_nil hme
    simp
  -- the errors for the exact period are constant
  have hs := slope_shift _ hne' (a + z * T) T
  rw [z1, z2] at hs
  have hc : ((k'.map fun x : ℤ => (x : ℚ)).zip (m.map fun x : ℤ => a + (x : ℚ) * T)).map (fun p => p.2 - (a + z * T) - p.1 * T) =
      k'.map fun _ => (0 : ℚ) := by
    rw [hz, List.map_map]
    clear hz hs z1 z2 hk'n hds hne' hk'e uniq
    induction k' with
    | nil => rfl
    | cons b k' ih =>
      simp only [List.map_cons, List.zip_cons_cons, ih, List.cons.injEq, and_true, Function.comp]
      push_cast
      ring
  rw [hc] at hs
  rw [← hs]
  have hp := slope_pairs (k'.map fun x : ℤ => ((x : ℚ), (0 : ℚ))) (by simpa using hk'e)
  simp only [List.map_map, Function.comp_def, mul_zero, List.length_map] at hp
  have hsum0 : (k'.map fun _ => (0 : ℚ)).sum = 0 := by simp
  rw [hsum0] at hp
  rw [hp]
  simp only [mul_zero, sub_self, zero_div]
  by_cases hD : (k'.length : ℚ) * (k'.map fun x : ℤ => (x : ℚ) * x).sum - (k'.map fun x : ℤ => (x : ℚ)).sum ^ 2 = 0
  · -- the numbers are not all equal
    exfalso
    rw [if_pos hD] at hp
    -- slope over k' is none, so all numbers are 0
    have hnone : slope (k'.map fun x : ℤ => (x : ℚ)) (m.map fun x : ℤ => a + (x : ℚ) * T) = none := by
      rw [← hs]
      have : slope (k'.map fun x : ℤ => (x : ℚ)) (k'.map fun _ => (0 : ℚ)) = none := hp
      rw [this]
      rfl
    obtain ⟨k2', r2, hk2, hr2, -, hn2⟩ := C49_best_fit _ t ht hne
    rw [hds, hnone] at hr2
    have := hn2.1 (Except.ok.inj hr2).symm
    obtain ⟨z2, hz2⟩ := uniq k2' hk2
    rw [hz2] at hx0 hy0
    obtain ⟨p, hp1, hp2⟩ := List.mem_map.1 hx0
    obtain ⟨q, hq1, hq2⟩ := List.mem_map.1 hy0
    rw [this p hp1] at hp2
    rw [this q hq1] at hq2
    exact hxy (hp2.symm.trans hq2)
  · rw [if_neg hD]
    simp

theorem comonotone (l : List (ℚ × ℚ)) (h : l.Pairwise fun p q => p.1 ≤ q.1 ∧ p.2 < q.2) :
    0 ≤ l.length * (l.map fun p => p.1 * p.2).sum - (l.map Prod.fst).sum * (l.map Prod.snd).sum ∧
    (l.length * (l.map fun p => p.1 * p.2).sum - (l.map Prod.fst).sum * (l.map Prod.snd).sum = 0 →
      l.length * (l.map fun p => p.1 * p.1).sum - (l.map Prod.fst).sum ^ 2 = 0) := by
  induction l with
  | nil => simp
  | cons p l ih =>
    rw [List.pairwise_cons] at h
    obtain ⟨i1, i2⟩ := ih h.2
    have e1 := sum_parts l p.1 p.2
    have e2 := sq_parts l p.1
    have hs : 0 ≤ (l.map fun q => (q.1 - p.1) * (q.2 - p.2)).sum ∧
        ((l.map fun q => (q.1 - p.1) * (q.2 - p.2)).sum = 0 → ((l.map Prod.fst).map fun x => (x - p.1) * (x - p.1)).sum = 0) := by
      have hq := h.1
      clear e1 e2 i1 i2 ih h
      induction l with
      | nil => simp
      | cons q l ih =>
        obtain ⟨j1, j2⟩ := ih fun a ha => hq a (List.mem_cons_of_mem _ ha)
        obtain ⟨k1, k2⟩ := hq q List.mem_cons_self
        have k3 : 0 ≤ (q.1 - p.1) * (q.2 - p.2) := mul_nonneg (by linarith) (by linarith)
        simp only [List.map_cons, List.sum_cons]
        refine ⟨by linarith, fun h0 => ?_⟩
        have k4 : (q.1 - p.1) * (q.2 - p.2) = 0 := by linarith
        have k5 : q.1 - p.1 = 0 := (mul_eq_zero.1 k4).resolve_right (by linarith [k2])
        rw [k5, j2 (by linarith)]
        ring
    obtain ⟨s1, s2⟩ := hs
    simp only [List.map_cons, List.sum_cons, List.length_cons]
    push_cast
    have f1 : ((l.length : ℚ) + 1) * (p.1 * p.2 + (l.map fun p => p.1 * p.2).sum) - (p.1 + (l.map Prod.fst).sum) * (p.2 + (l.map Prod.snd).sum) =
        (l.length * (l.map fun p => p.1 * p.2).sum - (l.map Prod.fst).sum * (l.map Prod.snd).sum) +
          (l.map fun q => (q.1 - p.1) * (q.2 - p.2)).sum := by rw [e1]; ring
    have f2 : ((l.length : ℚ) + 1) * (p.1 * p.1 + (l.map fun p => p.1 * p.1).sum) - (p.1 + (l.map Prod.fst).sum) ^ 2 =
        (l.length * (l.map fun p => p.1 * p.1).sum - (l.map Prod.fst).sum ^ 2) + ((l.map Prod.fst).map fun x => (x - p.1) * (x - p.1)).sum := by
      rw [e2]; ring
    rw [f1, f2]
    refine ⟨by linarith, fun h0 => ?_⟩
    rw [i2 (by linarith), s2 (by linarith), add_zero]

/-- C49: the period of increasing edges is positive. -/
theorem C49_positive (edges : List ℚ) (t T : ℚ) (ht : 0 < t) (hs : edges.Pairwise (· < ·)) (h : detrendTies edges t = .ok (some T)) : 0 < T := by
  have hne : edges ≠ [] := by
    rintro rfl
    rw [show detrendTies [] t = .error .indexError from rfl] at h
    cases h
  obtain ⟨k, ⟨k1, k2, k3⟩, hd⟩ := detrend_slope edges t ht hne
  rw [hd, Except.ok.injEq] at h
  obtain ⟨z1, z2⟩ := zip_cast edges k k1
  have hp : ((k.map fun x : ℤ => (x : ℚ)).zip edges).Pairwise fun p q => p.1 ≤ q.1 ∧ p.2 < q.2 := by
    have : IsTrans (ℚ × ℚ) (fun p q => p.1 ≤ q.1 ∧ p.2 < q.2) := ⟨fun a b c h1 h2 => ⟨h1.1.trans h2.1, h1.2.trans h2.2⟩⟩
    apply List.IsChain.pairwise
    clear hd h z1 z2 k2
    induction edges generalizing k with
    | nil => simp
    | cons a edges ih =>
      cases k with
      | nil => simp at k1
      | cons x k =>
        cases edges with
        | nil =>
          have : k = [] := by simpa using k1
          rw [this]
          exact List.isChain_singleton _
        | cons b edges =>
          cases k with
          | nil => simp at k1
          | cons y k =>
            simp only [List.zip_cons_cons, List.isChain_cons_cons] at k3
            rw [List.pairwise_cons] at hs
            simp only [List.map_cons, List.zip_cons_cons, List.isChain_cons_cons]
            have hab : a < b := hs.1 b List.mem_cons_self
            refine ⟨⟨?_, hab⟩, ?_⟩
            · have g := abs_le.1 k3.1
              have : (-1 : ℚ) * t < ((y - x : ℤ) : ℚ) * t := by push_cast; linarith [g.1, g.2]
              have := lt_of_mul_lt_mul_right this ht.le
              have : -1 < y - x := by exact_mod_cast this
              exact_mod_cast (show x ≤ y by omega)
            · have := ih hs.2 (by simp) (y :: k) (by simpa using k1) (by simpa using k3.2)
              simpa using this
  obtain ⟨c1, c2⟩ := comonotone _ hp
  have hz : (k.map fun x : ℤ => (x : ℚ)).zip edges ≠ [] := by
    obtain ⟨b, e', rfl⟩ := List.exists_cons_of_ne_nil hne
    cases k with
    | nil => simp at k1
    | cons a k => simp
  have hsl := slope_pairs _ hz
  have hform := form_nonneg ((k.map fun x : ℤ => (x : ℚ)).zip edges)
    ((((k.map fun x : ℤ => (x : ℚ)).zip edges).map Prod.fst).sum) (-(((k.map fun x : ℤ => (x : ℚ)).zip edges).length : ℚ))
  have hl : (0 : ℚ) < ((k.map fun x : ℤ => (x : ℚ)).zip edges).length := by exact_mod_cast List.length_pos_iff.2 hz
  rw [z1, z2, h] at hsl
  rw [z1] at hform c2
  rw [z1, z2] at c1
  rw [z2] at c2
  split at hsl
  · cases hsl
  · rename_i hD
    have hT := Option.some.inj hsl
    rw [hT]
    have hD' : 0 ≤ (((k.map fun x : ℤ => (x : ℚ)).zip edges).length : ℚ) * (((k.map fun x : ℤ => (x : ℚ)).zip edges).map fun p => p.1 * p.1).sum -
        ((k.map fun x : ℤ => (x : ℚ)).sum) ^ 2 := by
      by_contra hc
      push Not at hc
      nlinarith [mul_neg_of_pos_of_neg hl hc]
    refine div_pos (lt_of_le_of_ne c1 fun h0 => hD (c2 h0.symm)) (lt_of_le_of_ne hD' (Ne.symm hD))

/-- C49: without edges there is an error. -/
theorem C49_empty (t : ℚ) : detrendTies [] t = .error .indexError := rfl

/-- The hypotheses of `C49_exact` are met: a pattern with gaps of one to three symbols, from a period 10% too short. -/
example : ([0, 1, 4, 6, 7] : List ℤ).IsChain fun x y => |((y - x : ℤ) : ℚ) * (1 - 9 / 10)| < (9 / 10) / 2 := by
  simp only [List.isChain_cons_cons, List.isChain_singleton, and_true]
  norm_num [abs_of_pos]

/-- With jitter. -/
example : detrendTies [0, 11 / 10, 39 / 10, 6, 7] (9 / 10) = .ok (some (123 / 124)) := by decide +kernel

end Verif.Props.CdrDetrend
