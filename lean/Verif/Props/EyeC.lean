import Verif.Model.EyeC
import Verif.Props.LinesC
import Verif.Props.EyeWindow
import Verif.Props.EyeMask
import Verif.Props.EyeImage

/-!
C12 for `hardware_tools/measurement/eyediagram/_eyediagram.pyx`: the compiled versions return the same as those of `_eyediagram_fb.py`, whatever is
in memory outside of the arrays, for symbols within the record (which C43 shows all sampled symbols to be).
-/

namespace Verif.Props.EyeC

open Verif Verif.Lines Verif.LinesC Verif.Eye Verif.EyeC Verif.Props.LinesC Verif.Props.EyeWindow Verif.Props.EyeMask Verif.Props.EyeImage

theorem gridT_getD (T δ : ℚ) (hT : 0 < T) (hδ : 0 < δ) (k : ℕ) (hk : k < 2 * (iWidth T δ).toNat + 1) :
    (gridT T δ).getD k 0 = 1 / 2 + ((k : ℚ) - iWidth T δ) * δ / T := by
  obtain ⟨-, -, hw⟩ := iWidth_ge T δ hT hδ
  obtain ⟨w, hwe⟩ := Int.eq_ofNat_of_zero_le (by omega : 0 ≤ iWidth T δ)
  rw [hwe] at hk hw
  have hk' : k < 2 * w + 1 := by simpa using hk
  have hn : (2 * (w : ℤ)).toNat = 2 * w := by omega
  simp only [gridT, Stats.linspace, hwe, hn]
  rw [List.getD_eq_getElem?_getD, List.getElem?_map, List.getElem?_range hk']
  simp only [Option.map_some, Option.getD_some]
  have hw0 : (w : ℚ) ≠ 0 := by exact_mod_cast (by omega : w ≠ 0)
  have e : ((1 : ℚ) / 2 + (w : ℤ) * δ / T - (1 / 2 - (w : ℤ) * δ / T)) / ((2 * w : ℕ) : ℚ) = δ / T := by
    push_cast
    rw [div_eq_iff (by positivity)]
    ring
  rw [e]
  push_cast
  ring

theorem windowC_eq (mem : ℤ → ℚ) (ys : List ℚ) (T δ : ℚ) (hT : 0 < T) (hδ : 0 < δ) (c : Center) (hc : Inside T δ ys.length c) :
    windowC mem ys T δ c = window ys T δ c := by
  rw [window_eq ys T δ hT hδ c hc]
  obtain ⟨hc1, hc2⟩ := hc
  obtain ⟨-, -, hw⟩ := iWidth_ge T δ hT hδ
  unfold windowC
  simp only
  rw [show (2 * iWidth T δ + 1).toNat = 2 * (iWidth T δ).toNat + 1 by omega]
  apply List.map_congr_left
  intro k hk
  have hk' := List.mem_range.1 hk
  rw [gridT_getD T δ hT hδ k hk', peek_in mem ys _ (by omega) (by omega),
    show (c.i - iWidth T δ + (k : ℤ)).toNat = c.i.toNat - (iWidth T δ).toNat + k by omega]

theorem advanceC_eq (junk : Pt) (w : List Pt) (l : List (List (List Pt))) (hl : ∀ p ∈ l, ∀ q ∈ p, q ≠ []) (k : ℕ) :
    advance w l k = .ok (advanceC junk w l k) := by
  induction l generalizing k with
  | nil => rfl
  | cons p l ih =>
    rw [advance, advanceC, C12_is_hitting junk w p (hl p (by simp))]
    simp only [bind, Except.bind]
    split_ifs
    · exact ih (fun q hq => hl q (List.mem_cons_of_mem _ hq)) (k + 1)
    · rfl

theorem maskStepC_eq (junk : Pt) (paths : List (List (List Pt))) (zero : List (List Pt)) (hp : ∀ p ∈ paths, ∀ q ∈ p, q ≠ [])
    (hz : ∀ q ∈ zero, q ≠ []) (iZero : ℕ) (s : MaskState) (iw : ℕ × List Pt) :
    maskStepC junk paths zero iZero s iw = maskStep paths zero iZero s iw := by
  unfold maskStepC maskStep
  rw [advanceC_eq junk iw.2 _ (fun p h => hp p (List.mem_of_mem_drop h)), C12_hits junk iw.2 zero hz, hitsNpC_eq]
  simp only [bind, Except.bind, pure, Except.pure]
  by_cases h : hitsC junk iw.2 zero = []
  · simp only [h, List.length_nil, lt_irrefl, gt_iff_lt, if_false, if_true]
  · simp only [h, if_false, gt_iff_lt, List.length_pos_iff.2 h, if_true]

/-- C12: both versions of `sample_mask` return the same offenders, hits and margin. -/
theorem C12_mask (mem : ℤ → ℚ) (junk : Pt) (y : List ℚ) (cs : List Center) (T δ yZero yUa : ℚ) (hT : 0 < T) (hδ : 0 < δ)
    (hc : ∀ c ∈ cs, Inside T δ y.length c) (paths : List (List (List Pt))) (hp : ∀ p ∈ paths, ∀ q ∈ p, q ≠ []) (ms : List ℚ) :
    sampleMaskC mem junk y cs δ T yZero yUa paths ms = sampleMask y cs δ T yZero yUa paths ms := by
  unfold sampleMaskC sampleMask
  have ew : cs.map (windowC mem (normalise y yZero yUa) T δ) = cs.map (window (normalise y yZero yUa) T δ) :=
    List.map_congr_left fun c h => windowC_eq mem _ T δ hT hδ c (by simpa [normalise] using hc c h)
  have hz : ∀ q ∈ paths.getD (ms.length / 2) [], q ≠ [] := by
    intro q hq
    rw [List.getD_eq_getElem?_getD] at hq
    cases h : paths[ms.length / 2]? with
    | none => rw [h] at hq; simp at hq
    | some p =>
      rw [h] at hq
      exact hp p (List.mem_of_getElem? h) q hq
  have es : maskStepC junk paths (paths.getD (ms.length / 2) []) (ms.length / 2) = maskStep paths (paths.getD (ms.length / 2) []) (ms.length / 2) :=
    funext fun s => funext fun iw => maskStepC_eq junk paths _ hp hz _ s iw
  simp only [ew, es]

theorem foldlM_congr_mem {α β : Type} (f g : β → α → Except PyErr β) (l : List α) (h : ∀ x ∈ l, ∀ b, f b x = g b x) (b : β) :
    l.foldlM f b = l.foldlM g b := by
  induction l generalizing b with
  | nil => rfl
  | cons x l ih =>
    rw [List.foldlM_cons, List.foldlM_cons, h x (by simp) b]
    congr 1
    funext b'
    exact ih (fun y hy => h y (List.mem_cons_of_mem _ hy)) b'

/-- C12: both versions of `y_slice` return the same times. -/
theorem C12_slice (mem : ℤ → ℚ) (junk : Pt) (w : Wf) (T δ yZero yUa level : ℚ) (hT : 0 < T) (hδ : 0 < δ)
    (hc : ∀ c ∈ w.centers, Inside T δ w.y.length c) : ySliceC mem junk w δ T yZero yUa level = ySlice w δ T yZero yUa level := by
  unfold ySliceC ySlice
  apply foldlM_congr_mem
  intro c h acc
  rw [windowC_eq mem _ T δ hT hδ c (by simpa [normalise] using hc c h), hitsNpC_eq,
    C12_hits junk _ [[(0, level), (1, level)]] (by simp)]
  simp only [bind, Except.bind, pure, Except.pure]
  split_ifs with hl
  · rfl
  · have : hitsC junk (window (normalise w.y yZero yUa) T δ c) [[(0, level), (1, level)]] = [] := by
      apply List.length_eq_zero_iff.1
      omega
    rw [this]
    simp

theorem pixelsC_eq (mem : ℤ → ℤ) (y : List ℚ) (T δ lo hi : ℚ) (hT : 0 < T) (hδ : 0 < δ) (res : ℕ) (c : Center) (hc : Inside T δ y.length c) :
    pixelsC mem y δ T lo hi res c = pixels y δ T lo hi res c := by
  unfold pixels
  rw [window_eq _ T δ hT hδ c (by simpa using hc), List.map_map]
  obtain ⟨hc1, hc2⟩ := hc
  obtain ⟨-, -, hw⟩ := iWidth_ge T δ hT hδ
  unfold pixelsC
  simp only
  rw [show (2 * iWidth T δ + 1).toNat = 2 * (iWidth T δ).toNat + 1 by omega]
  apply List.map_congr_left
  intro k hk
  have hk' := List.mem_range.1 hk
  have hg := gridT_getD T δ hT hδ k hk'
  have hlen : k < (gridT T δ).length := by
    simp only [gridT, Stats.linspace, List.length_map, List.length_range]
    omega
  rw [List.getD_eq_getElem?_getD, List.getElem?_eq_getElem hlen] at hg
  simp only [Option.getD_some] at hg
  simp only [Function.comp]
  rw [Prod.mk.injEq]
  constructor
  · rw [List.getD_eq_getElem?_getD, List.getElem?_map, List.getElem?_eq_getElem hlen]
    simp only [Option.map_some, Option.getD_some]
    rw [hg]
    congr 1
    ring
  · have hj : c.i.toNat - (iWidth T δ).toNat + k < y.length := by omega
    unfold peekInt
    rw [if_pos (by simp only [List.length_map]; omega),
      show (c.i - iWidth T δ + (k : ℤ)).toNat = c.i.toNat - (iWidth T δ).toNat + k by omega]
    simp only [List.getD_eq_getElem?_getD, List.getElem?_map, List.getElem?_eq_getElem hj, Option.map_some, Option.getD_some]

/-- C12: both versions of `stack` count the same, if the pixels are no farther than 2^26 from the origin (the compiled version computes with 32 bit
numbers). -/
theorem C12_stack (mem : ℤ → ℤ) (junk : ℤ × ℤ) (y : List ℚ) (cs : List Center) (T δ lo hi : ℚ) (hT : 0 < T) (hδ : 0 < δ) (res : ℕ) (pc : Bool)
    (g : Grid) (hc : ∀ c ∈ cs, Inside T δ y.length c)
    (hb : ∀ c ∈ cs, ∀ p ∈ pixels y δ T lo hi res c, |p.1| ≤ 2 ^ 26 ∧ |p.2| ≤ 2 ^ 26) :
    stackC mem junk y cs δ T lo hi res pc g = stack y cs δ T lo hi res pc g := by
  unfold stackC stack
  apply foldlM_congr_mem
  intro c h g
  simp only
  rw [pixelsC_eq mem y T δ lo hi hT hδ res c (hc c h), C12_draw_points]
  have hl : 2 ≤ (pixels y δ T lo hi res c).length := by
    unfold pixels
    rw [List.length_map]
    exact window_length _ T δ hT hδ c (by simpa using hc c h)
  rw [C12_draw junk _ g hl (hb c h)]

/-- A record of two symbols of four samples each, sampled at one symbol. -/
def exY : List ℚ := [0, 0, 0, 0, 1, 1, 1, 1, 0, 0, 0, 0, 1, 1, 1, 1]

/-- The hypotheses of the C12 theorems are met. -/
example : (∀ c ∈ ([⟨7, -1 / 3⟩, ⟨8, 0⟩] : List Center), Inside 4 1 exY.length c) ∧
    (∀ c ∈ ([⟨7, -1 / 3⟩, ⟨8, 0⟩] : List Center), ∀ p ∈ pixels exY 1 4 (-1 / 2) (3 / 2) 100 c, |p.1| ≤ 2 ^ 26 ∧ |p.2| ≤ 2 ^ 26) ∧
    (∀ p ∈ ([[[(0, 1 / 2), (1, 1 / 2)]], []] : List (List (List Pt))), ∀ q ∈ p, q ≠ []) ∧
    ySlice ⟨exY, [⟨8, 0⟩]⟩ 1 4 0 1 (1 / 2) = .ok [3 / 8] := by
  refine ⟨by unfold Inside; decide +kernel, by decide +kernel, by decide, by decide +kernel⟩

end Verif.Props.EyeC
