import Verif.Model.Image
import Mathlib.Tactic.Linarith
import Mathlib.Tactic.FieldSimp
import Mathlib.Tactic.Positivity
import Mathlib.Tactic.LinearCombination

/-!
C19: alpha compositing.
-/

namespace Verif.Props.Image

open Verif Verif.Image

/-- A float RGBA image with `h` rows and `w` columns with the finite values `f`. -/
def img (h w : ℕ) (f : ℕ → ℕ → ℕ → ℚ) : Img := ⟨[h, w, 4], fun i j k => some (f i j k)⟩

/-- All values are in [0, 1]. -/
def Valid (h w : ℕ) (f : ℕ → ℕ → ℕ → ℚ) : Prop := ∀ i j k, i < h → j < w → k < 4 → 0 ≤ f i j k ∧ f i j k ≤ 1

/-- Two images show the same: equal shape, equal alpha, equal colours wherever they are not fully transparent. -/
def SameLook (h w : ℕ) (m n : Img) : Prop :=
  m.shape = n.shape ∧ ∀ i j, i < h → j < w → m.px i j 3 = n.px i j 3 ∧
    (m.px i j 3 ≠ some 0 → ∀ k < 3, m.px i j k = n.px i j k)

/-- The alpha of two finite alphas. -/
def alpha (aa ab : ℚ) : ℚ := aa + ab * (1 - aa)

theorem layer_ok (junk : ℕ → ℕ → ℕ → Option ℚ) {h w : ℕ} {b a : Img} (hb : b.shape = [h, w, 4]) (ha : a.shape = [h, w, 4]) :
    layer junk b a = .ok
        { shape := [h, w, 4]
          px := fun i j k =>
            if k < 3 then colour (junk i j k) (a.px i j k) (a.px i j 3) (b.px i j k) (b.px i j 3)
            else alphaOut (a.px i j 3) (b.px i j 3) } := by
  unfold layer
  rw [hb, ha]
  simp

theorem alphaOut_some (a b : ℚ) : alphaOut (some a) (some b) = some (alpha a b) := rfl

theorem colour_some (junk : Option ℚ) (ca aa cb ab : ℚ) : colour junk (some ca) (some aa) (some cb) (some ab) =
    if alpha aa ab ≠ 0 then some ((ca * aa + cb * ab * (1 - aa)) / alpha aa ab) else junk := by
  unfold colour
  rw [alphaOut_some]
  simp only [ne_eq, Option.some.injEq]
  rfl

theorem alpha_bounds {aa ab : ℚ} (ha : 0 ≤ aa ∧ aa ≤ 1) (hb : 0 ≤ ab ∧ ab ≤ 1) :
    aa ≤ alpha aa ab ∧ ab ≤ alpha aa ab ∧ alpha aa ab ≤ 1 ∧ 0 ≤ alpha aa ab := by
  unfold alpha
  have h1 := mul_nonneg hb.1 (sub_nonneg.2 ha.2)
  have h2 := mul_nonneg ha.1 (sub_nonneg.2 hb.2)
  refine ⟨by linarith, by nlinarith, by nlinarith, by linarith [ha.1]⟩

/-- **C19.** Layering two images of the same size gives an image of that size with all values in [0, 1] (wherever the
result is visible), alpha at least that of both layers, colours between those of the layers. -/
theorem C19_layer_valid (junk : ℕ → ℕ → ℕ → Option ℚ) (h w : ℕ) (b a : ℕ → ℕ → ℕ → ℚ) (hb : Valid h w b) (ha : Valid h w a) :
    ∃ r, layer junk (img h w b) (img h w a) = .ok r ∧ r.shape = [h, w, 4] ∧ ∀ i j, i < h → j < w →
      ∃ al, r.px i j 3 = some al ∧ a i j 3 ≤ al ∧ b i j 3 ≤ al ∧ al ≤ 1 ∧
      (al ≠ 0 → ∀ k < 3, ∃ v, r.px i j k = some v ∧ min (a i j k) (b i j k) ≤ v ∧ v ≤ max (a i j k) (b i j k)) := by
  refine ⟨_, layer_ok junk rfl rfl, rfl, ?_⟩
  intro i j hi hj
  have hA := ha i j 3 hi hj (by norm_num)
  have hB := hb i j 3 hi hj (by norm_num)
  obtain ⟨h1, h2, h3, h4⟩ := alpha_bounds hA hB
  have e3 : ¬ (3 < 3) := lt_irrefl 3
  simp only [e3, if_false, img]
  refine ⟨_, alphaOut_some _ _, h1, h2, h3, ?_⟩
  intro hne k hk
  simp only [hk, if_true]
  rw [colour_some, if_pos hne]
  refine ⟨_, rfl, ?_⟩
  have hpos : 0 < alpha (a i j 3) (b i j 3) := lt_of_le_of_ne h4 (Ne.symm hne)
  have hw : 0 ≤ b i j 3 * (1 - a i j 3) := mul_nonneg hB.1 (sub_nonneg.2 hA.2)
  rw [le_div_iff₀ hpos, div_le_iff₀ hpos]
  unfold alpha
  have m1 := min_le_left (a i j k) (b i j k)
  have m2 := min_le_right (a i j k) (b i j k)
  have m3 := le_max_left (a i j k) (b i j k)
  have m4 := le_max_right (a i j k) (b i j k)
  constructor
  · nlinarith [mul_nonneg hA.1 (sub_nonneg.2 m1), mul_nonneg hw (sub_nonneg.2 m2)]
  · nlinarith [mul_nonneg hA.1 (sub_nonneg.2 m3), mul_nonneg hw (sub_nonneg.2 m4)]

/-- **C19.** An opaque pixel hides the one below. -/
theorem C19_opaque (junk : ℕ → ℕ → ℕ → Option ℚ) (h w : ℕ) (b a : ℕ → ℕ → ℕ → ℚ) :
    ∃ r, layer junk (img h w b) (img h w a) = .ok r ∧ ∀ i j, a i j 3 = 1 → ∀ k < 4, r.px i j k = some (a i j k) := by
  refine ⟨_, layer_ok junk rfl rfl, ?_⟩
  intro i j h1 k hk
  simp only [img]
  split_ifs with hk3
  · rw [colour_some]
    unfold alpha
    rw [h1]; simp
  · have : k = 3 := by omega
    subst this
    rw [alphaOut_some]
    unfold alpha
    rw [h1]; simp

/-- **C19.** A fully transparent pixel leaves the one below as it is (if that is visible). -/
theorem C19_transparent (junk : ℕ → ℕ → ℕ → Option ℚ) (h w : ℕ) (b a : ℕ → ℕ → ℕ → ℚ) :
    ∃ r, layer junk (img h w b) (img h w a) = .ok r ∧ ∀ i j, a i j 3 = 0 → r.px i j 3 = some (b i j 3) ∧
      (b i j 3 ≠ 0 → ∀ k < 3, r.px i j k = some (b i j k)) := by
  refine ⟨_, layer_ok junk rfl rfl, ?_⟩
  intro i j h1
  have e3 : ¬ (3 < 3) := lt_irrefl 3
  simp only [e3, if_false, img]
  constructor
  · rw [alphaOut_some]; unfold alpha; rw [h1]; simp
  · intro hne k hk
    simp only [hk, if_true]
    rw [colour_some]
    unfold alpha
    rw [h1]
    simp [hne]

/-- **C19.** The colours are weighted by the alphas: `out * alpha_out = above * alpha_a + below * alpha_b * (1 - alpha_a)`. -/
theorem C19_weighted (junk : ℕ → ℕ → ℕ → Option ℚ) (h w : ℕ) (b a : ℕ → ℕ → ℕ → ℚ) :
    ∃ r, layer junk (img h w b) (img h w a) = .ok r ∧ ∀ i j, ∃ al, r.px i j 3 = some al ∧ al = a i j 3 + b i j 3 * (1 - a i j 3) ∧
      (al ≠ 0 → ∀ k < 3, ∃ v, r.px i j k = some v ∧ v * al = a i j k * a i j 3 + b i j k * (b i j 3 * (1 - a i j 3))) := by
  refine ⟨_, layer_ok junk rfl rfl, ?_⟩
  intro i j
  have e3 : ¬ (3 < 3) := lt_irrefl 3
  simp only [e3, if_false, img]
  refine ⟨_, alphaOut_some _ _, rfl, ?_⟩
  intro hne k hk
  simp only [hk, if_true]
  rw [colour_some, if_pos hne]
  refine ⟨_, rfl, ?_⟩
  rw [div_mul_cancel₀ _ hne]
  ring

/-- The value of one channel, with a finite uninitialised value. -/
def tint (junk ca aa cb ab : ℚ) : ℚ := if alpha aa ab ≠ 0 then (ca * aa + cb * ab * (1 - aa)) / alpha aa ab else junk

theorem colour_tint (junk ca aa cb ab : ℚ) : colour (some junk) (some ca) (some aa) (some cb) (some ab) = some (tint junk ca aa cb ab) := by
  rw [colour_some]
  unfold tint
  split_ifs <;> rfl

/-- Layering finite images with finite uninitialised values gives a finite image. -/
theorem layer_img (junk : ℕ → ℕ → ℕ → ℚ) (h w : ℕ) (b a : ℕ → ℕ → ℕ → ℚ) :
    layer (fun i j k => some (junk i j k)) (img h w b) (img h w a) = .ok (img h w fun i j k =>
      if k < 3 then tint (junk i j k) (a i j k) (a i j 3) (b i j k) (b i j 3) else alpha (a i j 3) (b i j 3)) := by
  rw [layer_ok _ (rfl : (img h w b).shape = [h, w, 4]) (rfl : (img h w a).shape = [h, w, 4])]
  unfold img
  congr 2
  funext i j k
  simp only
  split_ifs
  · exact colour_tint _ _ _ _ _
  · rfl

theorem tint_mul (ju ca aa cb ab : ℚ) (h1 : 0 ≤ aa ∧ aa ≤ 1) (h2 : 0 ≤ ab ∧ ab ≤ 1) :
    tint ju ca aa cb ab * alpha aa ab = ca * aa + cb * ab * (1 - aa) := by
  unfold tint
  by_cases h0 : alpha aa ab ≠ 0
  · rw [if_pos h0, div_mul_cancel₀ _ h0]
  · rw [if_neg h0]
    push Not at h0
    obtain ⟨b1, b2, _, _⟩ := alpha_bounds h1 h2
    have z1 : aa = 0 := by linarith [h1.1]
    have z2 : ab = 0 := by linarith [h2.1]
    rw [h0, z1, z2]; ring

/-- **C19, in part.** Layering is associative as far as one can see, if the uninitialised values of the intermediate images are finite.
Missing: uninitialised values that are nan or inf, see `C19_associative_fails`. -/
theorem C19_associative_partial (j1 j3 : ℕ → ℕ → ℕ → ℚ) (j2 j4 : ℕ → ℕ → ℕ → Option ℚ) (h w : ℕ) (a b c : ℕ → ℕ → ℕ → ℚ)
    (ha : Valid h w a) (hb : Valid h w b) (hc : Valid h w c) :
    ∃ ab abc bc abc', layer (fun i j k => some (j1 i j k)) (img h w a) (img h w b) = .ok ab ∧ layer j2 ab (img h w c) = .ok abc ∧
      layer (fun i j k => some (j3 i j k)) (img h w b) (img h w c) = .ok bc ∧ layer j4 (img h w a) bc = .ok abc' ∧ SameLook h w abc abc' := by
  refine ⟨_, _, _, _, layer_img j1 h w a b, layer_ok j2 rfl rfl, layer_img j3 h w b c, layer_ok j4 rfl rfl, rfl, ?_⟩
  intro i j hi hj
  have e3 : ¬ (3 < 3) := lt_irrefl 3
  have hA := ha i j 3 hi hj (by norm_num)
  have hB := hb i j 3 hi hj (by norm_num)
  have hC := hc i j 3 hi hj (by norm_num)
  simp only [e3, if_false, img, alphaOut_some]
  have assoc : alpha (c i j 3) (alpha (b i j 3) (a i j 3)) = alpha (alpha (c i j 3) (b i j 3)) (a i j 3) := by unfold alpha; ring
  refine ⟨by rw [assoc], ?_⟩
  intro hne k hk
  have hne' : alpha (c i j 3) (alpha (b i j 3) (a i j 3)) ≠ 0 := fun h => hne (by rw [h])
  simp only [hk, if_true]
  rw [colour_some, colour_some, if_pos hne', if_pos (by rwa [← assoc])]
  generalize a i j 3 = x at *
  generalize b i j 3 = y at *
  generalize c i j 3 = z at *
  congr 1
  rw [← assoc, div_left_inj' hne']
  have p3 := tint_mul (j1 i j k) (b i j k) y (a i j k) x hB hA
  have p4 := tint_mul (j3 i j k) (c i j k) z (b i j k) y hC hB
  rw [p3, p4]
  unfold alpha
  ring

/-- **C19 fails**: two transparent images and a red one on top.  If the uninitialised memory holds nan, layering from the bottom gives nan instead
of red; the same images layered from the top are red. -/
theorem C19_associative_fails : ∃ (a b c : ℕ → ℕ → ℕ → ℚ) (ab abc bc abc' : Img), Valid 1 1 a ∧ Valid 1 1 b ∧ Valid 1 1 c ∧
    layer (fun _ _ _ => none) (img 1 1 a) (img 1 1 b) = .ok ab ∧ layer (fun _ _ _ => none) ab (img 1 1 c) = .ok abc ∧
    layer (fun _ _ _ => none) (img 1 1 b) (img 1 1 c) = .ok bc ∧ layer (fun _ _ _ => none) (img 1 1 a) bc = .ok abc' ∧
    abc.px 0 0 0 = none ∧ abc.px 0 0 3 = some 1 ∧ abc'.px 0 0 0 = some 1 ∧ abc'.px 0 0 3 = some 1 := by
  refine ⟨fun _ _ _ => 0, fun _ _ _ => 0, fun _ _ k => if k = 0 ∨ k = 3 then 1 else 0, _, _, _, _, ?_, ?_, ?_, layer_ok _ rfl rfl, layer_ok _ rfl rfl,
    layer_ok _ rfl rfl, layer_ok _ rfl rfl, ?_, ?_, ?_, ?_⟩
  · intro i j k _ _ _; norm_num
  · intro i j k _ _ _; norm_num
  · intro i j k _ _ _; simp only; split_ifs <;> norm_num
  all_goals decide +kernel

/-- **C19.** Images of different shape, or not RGBA, are refused with ValueError. -/
theorem C19_rejects (junk : ℕ → ℕ → ℕ → Option ℚ) (b a : Img) :
    (b.shape ≠ a.shape → layer junk b a = .error .valueError) ∧
    (∀ h w c, b.shape = [h, w, c] → a.shape = [h, w, c] → c ≠ 4 → layer junk b a = .error .valueError) := by
  constructor
  · intro hne; unfold layer; rw [if_pos hne]
  · intro h w c hb ha hc
    unfold layer
    rw [hb, ha]
    simp [hc]

/-- Half transparent red over opaque blue. -/
example : Valid 1 1 (fun _ _ k => if k = 2 ∨ k = 3 then 1 else 0) ∧
    Valid 1 1 (fun _ _ k => if k = 0 then 1 else if k = 3 then 1 / 2 else 0) := by
  constructor <;> intro i j k _ _ _ <;> simp only <;> split_ifs <;> norm_num

end Verif.Props.Image
