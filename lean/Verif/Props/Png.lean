import Verif.Model.Png
import Verif.Props.Image
import Verif.Props.FloatStats
import Verif.Props.Draw

/-!
C87: the image files show the images.
-/

namespace Verif.Props.Png

open Verif Verif.Float Verif.Image Verif.Draw Verif.Png Verif.Props.Float Verif.Props.FloatStats

/-! ### One value -/

theorem nearest_int {n : ℤ} (h : nearest (n : ℚ) = n) {x : ℚ} : ((n : ℚ) ≤ x → (n : ℚ) ≤ nearest x) ∧ (x ≤ n → nearest x ≤ n) :=
  ⟨fun hx => h ▸ nearest_mono hx, fun hx => h ▸ nearest_mono hx⟩

theorem small_int : ∀ n : ℕ, n < 256 → nearest ((n : ℤ) : ℚ) = (n : ℤ) := by decide +kernel

/-- The byte of a value between zero and one. -/
theorem byteOf_eq {x : ℚ} (h0 : 0 ≤ x) (h1 : x ≤ 1) : byteOf double (some x) = some ⌊nearest (255 * x)⌋.toNat ∧ 0 ≤ nearest (255 * x) ∧
    nearest (255 * x) ≤ 255 := by
  have a : 0 ≤ nearest (255 * x) := nearest_nonneg (by linarith)
  have b := (nearest_int (n := 255) (small_int 255 (by norm_num)) (x := 255 * x)).2 (by push_cast; linarith)
  push_cast at b
  refine ⟨?_, a, b⟩
  show (if -1 < nearest (255 * x) ∧ nearest (255 * x) < 256 then _ else _) = _
  rw [if_pos ⟨by linarith, by linarith⟩]
  rfl

/-- **C87.** A value between zero and one is written as a byte that differs from 255 times the value by less than one. -/
theorem C87_byte {x : ℚ} (h0 : 0 ≤ x) (h1 : x ≤ 1) : ∃ b : ℕ, byteOf double (some x) = some b ∧ b ≤ 255 ∧ |(b : ℚ) - 255 * x| < 1 := by
  obtain ⟨e, a, b⟩ := byteOf_eq h0 h1
  refine ⟨_, e, ?_, ?_⟩
  · have : ⌊nearest (255 * x)⌋ ≤ 255 := by
      have := Int.floor_le (nearest (255 * x))
      have h : ((⌊nearest (255 * x)⌋ : ℤ) : ℚ) ≤ (255 : ℤ) := by push_cast; linarith
      exact_mod_cast h
    omega
  · have hz : 0 ≤ ⌊nearest (255 * x)⌋ := Int.floor_nonneg.2 a
    have hc : ((⌊nearest (255 * x)⌋.toNat : ℕ) : ℚ) = (⌊nearest (255 * x)⌋ : ℤ) := by
      rw [← Int.cast_natCast, Int.toNat_of_nonneg hz]
    rw [hc, abs_lt]
    have hf := Int.floor_le (nearest (255 * x))
    have hx0 : 0 ≤ ⌊255 * x⌋ := Int.floor_nonneg.2 (by linarith)
    have hx1 : ⌊255 * x⌋ < 256 := by
      rw [Int.floor_lt]; push_cast; linarith
    have hk := small_int ⌊255 * x⌋.toNat (by omega)
    rw [Int.toNat_of_nonneg hx0] at hk
    have hl := (nearest_int hk (x := 255 * x)).1 (Int.floor_le _)
    have hl' : ⌊255 * x⌋ ≤ ⌊nearest (255 * x)⌋ := Int.le_floor.2 hl
    have hl'' : ((⌊255 * x⌋ : ℤ) : ℚ) ≤ (⌊nearest (255 * x)⌋ : ℤ) := by exact_mod_cast hl'
    have hlt := Int.lt_floor_add_one (255 * x)
    have hn := nearest_near (255 * x)
    rw [abs_of_nonneg (by linarith : (0:ℚ) ≤ 255 * x)] at hn
    have hn2 := (abs_le.1 hn).2
    have : (1:ℚ) / 2 ^ 53 * (255 * x) < 1 := by
      have : (1:ℚ) / 2 ^ 53 * (255 * x) ≤ 1 / 2 ^ 53 * 255 := mul_le_mul_of_nonneg_left (by linarith) (by positivity)
      refine this.trans_lt (by norm_num)
    constructor <;> linarith

/-- **C87.** Brighter values are not written as darker bytes; zero and one are the darkest and the brightest byte. -/
theorem C87_order {x y : ℚ} (h0 : 0 ≤ x) (h : x ≤ y) (h1 : y ≤ 1) :
    (∃ a b : ℕ, byteOf double (some x) = some a ∧ byteOf double (some y) = some b ∧ a ≤ b) ∧
      byteOf double (some 0) = some 0 ∧ byteOf double (some 1) = some 255 := by
  refine ⟨⟨_, _, (byteOf_eq h0 (h.trans h1)).1, (byteOf_eq (h0.trans h) h1).1, ?_⟩, by decide +kernel, by decide +kernel⟩
  exact Int.toNat_le_toNat (Int.floor_le_floor (nearest_mono (by linarith)))

/-- **C87.** An image that was read from a file (bytes divided by 255) is written as the same bytes. -/
theorem C87_again : ∀ k : ℕ, k < 256 → byteOf double (some (double.fl ((k : ℚ) / 255))) = some k := by decide +kernel

/-- Values outside of zero to one may be written as anything: 1 + 1/255 already does not fit. -/
theorem C87_range_fails : byteOf double (some (256 / 255)) = none := by decide +kernel

/-! ### Layers -/

/-- An alpha and what is left of one do not give more than one: true for exact arithmetic and for doubles. -/
def Fills (F : Floats) : Prop := ∀ a, 0 ≤ a → a ≤ 1 → F.fl (a + F.fl (1 - a)) ≤ 1

theorem doubles_fill : Fills doubles := by
  intro a h0 h1
  show nearest (a + nearest (1 - a)) ≤ 1
  have hn := nearest_near (1 - a)
  rw [abs_of_nonneg (by linarith : (0:ℚ) ≤ 1 - a)] at hn
  have hn2 := (abs_le.1 hn).2
  have h2 : (1:ℚ) / 2 ^ 53 * (1 - a) ≤ 1 / 2 ^ 53 * 1 := mul_le_mul_of_nonneg_left (by linarith) (by positivity)
  have h3 := nearest_mono (x := a + nearest (1 - a)) (y := 1 + 1 / 2 ^ 53) (by linarith)
  have h4 : nearest (1 + 1 / 2 ^ 53) = 1 := by decide +kernel
  rwa [h4] at h3

/-- One pixel that can be shown: floats, the alpha between zero and one, the colours as well unless the pixel is transparent. -/
def Pixel (F : Floats) (p : ℕ → Option ℚ) : Prop :=
  ∃ a, p 3 = some a ∧ F.fl a = a ∧ 0 ≤ a ∧ a ≤ 1 ∧ ∀ k < 3, ∃ v, p k = some v ∧ F.fl v = v ∧ (a ≠ 0 → 0 ≤ v ∧ v ≤ 1)

/-- An image of a resolution that can be shown. -/
def Showable (F : Floats) (res : ℕ) (m : Img) : Prop := m.shape = [res, res, 4] ∧ ∀ i j, Pixel F (m.px i j)

theorem fl_nonneg (R : Rounding) {x : ℚ} (h : 0 ≤ x) : 0 ≤ R.fl x := by
  rcases h.lt_or_eq with h | h
  · exact ((fl_pos R).2 h).le
  · rw [← h, fl_zero]

theorem alphaF_bounds (F : Floats) (hF : Fills F) {aa ab : ℚ} (ha0 : 0 ≤ aa) (ha1 : aa ≤ 1) (hb0 : 0 ≤ ab) (hb1 : ab ≤ 1) :
    0 ≤ F.fl (ab * F.fl (1 - aa)) ∧ 0 ≤ F.fl (aa + F.fl (ab * F.fl (1 - aa))) ∧ F.fl (aa + F.fl (ab * F.fl (1 - aa))) ≤ 1 := by
  have hs : 0 ≤ F.fl (1 - aa) := fl_nonneg _ (by linarith)
  have hq : 0 ≤ F.fl (ab * F.fl (1 - aa)) := fl_nonneg _ (mul_nonneg hb0 hs)
  refine ⟨hq, fl_nonneg _ (by linarith), (F.mono _ _ ?_).trans (hF aa ha0 ha1)⟩
  have h1 : ab * F.fl (1 - aa) ≤ F.fl (1 - aa) := by nlinarith
  have h2 := F.mono _ _ h1
  rw [F.idem] at h2
  linarith

theorem layerF_ok (R : Rounding) (junk : ℕ → ℕ → ℕ → Option ℚ) {res : ℕ} {b a : Img} (hb : b.shape = [res, res, 4]) (ha : a.shape = [res, res, 4]) :
    layerF R junk b a = .ok
        { shape := [res, res, 4]
          px := fun i j k =>
            if k < 3 then colourF R (junk i j k) (a.px i j k) (a.px i j 3) (b.px i j k) (b.px i j 3)
            else alphaOutF R (a.px i j 3) (b.px i j 3) } := by
  unfold layerF
  rw [hb, ha]
  simp

/-- **C87 (shapes).** Images of different shapes and images without four channels are refused with ValueError, images without channels with IndexError;
other images are laid over each other. -/
theorem C87_shapes (R : Rounding) (junk : ℕ → ℕ → ℕ → Option ℚ) (b a : Img) :
    (layerF R junk b a = .error .valueError ↔ b.shape ≠ a.shape ∨ ∃ h w c l, b.shape = h :: w :: c :: l ∧ c ≠ 4) ∧
    (layerF R junk b a = .error .indexError ↔ b.shape = a.shape ∧ b.shape.length < 3) ∧
    ((∃ r, layerF R junk b a = .ok r ∧ r.shape = b.shape) ↔ b.shape = a.shape ∧ ∃ h w l, b.shape = h :: w :: 4 :: l) := by
  unfold layerF
  by_cases hs : b.shape = a.shape
  · rw [if_neg (not_not.2 hs)]
    rcases hb : b.shape with _ | ⟨h, _ | ⟨w, _ | ⟨c, l⟩⟩⟩
    · simp [← hs, hb]
    · simp [← hs, hb]
    · simp [← hs, hb]
    · by_cases hc : c = 4
      · simp [← hs, hb, hc]
      · simp [← hs, hb, hc]
  · rw [if_pos hs]
    simp [hs]

theorem colourF_some (R : Rounding) (junk : Option ℚ) (ca aa cb ab : ℚ) : colourF R junk (some ca) (some aa) (some cb) (some ab) =
    if R.fl (aa + R.fl (ab * R.fl (1 - aa))) ≠ 0 then
      some (R.fl (R.fl (R.fl (ca * aa) + R.fl (R.fl (cb * ab) * R.fl (1 - aa))) / R.fl (aa + R.fl (ab * R.fl (1 - aa)))))
    else junk := by
  unfold colourF alphaOutF mixF
  simp only [ne_eq, Option.map₂_some_some, Option.some.injEq]

/-- A product with an alpha, in floats. -/
theorem times_alpha (F : Floats) {v a : ℚ} (ha : F.fl a = a) (h0 : 0 ≤ a) (hv : a ≠ 0 → 0 ≤ v ∧ v ≤ 1) : 0 ≤ F.fl (v * a) ∧ F.fl (v * a) ≤ a := by
  by_cases h : a = 0
  · subst h; rw [mul_zero, fl_zero]; exact ⟨le_rfl, le_rfl⟩
  · obtain ⟨v0, v1⟩ := hv h
    refine ⟨fl_nonneg _ (mul_nonneg v0 h0), ?_⟩
    have h2 := F.mono (v * a) a (by nlinarith)
    rwa [ha] at h2

theorem pixel_layer (F : Floats) (hF : Fills F) {b a : ℕ → Option ℚ} {junk : ℕ → Option ℚ} (hb : Pixel F b) (ha : Pixel F a)
    (hj : ∀ k, ∃ v, junk k = some v ∧ F.fl v = v) :
    Pixel F fun k => if k < 3 then colourF F.toRounding (junk k) (a k) (a 3) (b k) (b 3) else alphaOutF F.toRounding (a 3) (b 3) := by
  obtain ⟨aa, ea, fa, a0, a1, ha⟩ := ha
  obtain ⟨ab, eb, fb, b0, b1, hb⟩ := hb
  obtain ⟨hq, al0, al1⟩ := alphaF_bounds F hF a0 a1 b0 b1
  refine ⟨F.fl (aa + F.fl (ab * F.fl (1 - aa))), ?_, F.idem _, al0, al1, ?_⟩
  · show alphaOutF F.toRounding (a 3) (b 3) = _
    rw [ea, eb]; rfl
  · intro k hk
    obtain ⟨ca, eca, fca, hca⟩ := ha k hk
    obtain ⟨cb, ecb, fcb, hcb⟩ := hb k hk
    simp only [hk, if_true]
    rw [ea, eb, eca, ecb, colourF_some]
    by_cases h : F.fl (aa + F.fl (ab * F.fl (1 - aa))) = 0
    · obtain ⟨v, ev, fv⟩ := hj k
      exact ⟨v, by rw [if_neg (not_not.2 h)]; exact ev, fv, fun h' => (h' h).elim⟩
    · refine ⟨_, if_pos h, F.idem _, fun _ => ?_⟩
      obtain ⟨x0, x1⟩ := times_alpha F fa a0 hca
      obtain ⟨y0, y1⟩ := times_alpha F fb b0 hcb
      have hs : 0 ≤ F.fl (1 - aa) := fl_nonneg _ (by linarith)
      have z0 : 0 ≤ F.fl (F.fl (cb * ab) * F.fl (1 - aa)) := fl_nonneg _ (mul_nonneg y0 hs)
      have z1 : F.fl (F.fl (cb * ab) * F.fl (1 - aa)) ≤ F.fl (ab * F.fl (1 - aa)) := F.mono _ _ (mul_le_mul_of_nonneg_right y1 hs)
      have n0 : 0 ≤ F.fl (F.fl (ca * aa) + F.fl (F.fl (cb * ab) * F.fl (1 - aa))) := fl_nonneg _ (by linarith)
      have n1 := F.mono (F.fl (ca * aa) + F.fl (F.fl (cb * ab) * F.fl (1 - aa))) (aa + F.fl (ab * F.fl (1 - aa))) (by linarith)
      have al : 0 < F.fl (aa + F.fl (ab * F.fl (1 - aa))) := lt_of_le_of_ne al0 (Ne.symm h)
      refine ⟨fl_nonneg _ (div_nonneg n0 al0), ?_⟩
      have := F.mono _ _ ((div_le_one al).2 n1)
      rwa [F.one] at this

/-- **C87.** Layering two images that can be shown gives an image that can be shown, in spite of the rounding: no value leaves the range from zero to
one.  `junk`, the uninitialised memory for transparent pixels, is taken to contain finite floats. -/
theorem C87_layer (F : Floats) (hF : Fills F) (res : ℕ) (b a : Img) (junk : ℕ → ℕ → ℕ → Option ℚ) (hb : Showable F res b) (ha : Showable F res a)
    (hj : ∀ i j k, ∃ v, junk i j k = some v ∧ F.fl v = v) : ∃ r, layerF F.toRounding junk b a = .ok r ∧ Showable F res r :=
  ⟨_, layerF_ok _ _ hb.1 ha.1, rfl, fun i j => pixel_layer F hF (hb.2 i j) (ha.2 i j) (hj i j)⟩

theorem alphaOutF_some (R : Rounding) (aa ab : ℚ) : alphaOutF R (some aa) (some ab) = some (R.fl (aa + R.fl (ab * R.fl (1 - aa)))) := rfl

/-- **C87.** Where the layer above is opaque the result is exactly the layer above. -/
theorem C87_opaque (F : Floats) {res : ℕ} {b a r : Img} {junk : ℕ → ℕ → ℕ → Option ℚ} (hb : Showable F res b) (ha : Showable F res a)
    (h : layerF F.toRounding junk b a = .ok r) {i j : ℕ} (ho : a.px i j 3 = some 1) : ∀ k < 4, r.px i j k = a.px i j k := by
  rw [layerF_ok _ _ hb.1 ha.1] at h
  cases h
  obtain ⟨aa, ea, _, _, _, ha⟩ := ha.2 i j
  obtain ⟨ab, eb, _, _, _, hb⟩ := hb.2 i j
  intro k hk
  simp only
  rw [ho, eb]
  have e1 : F.fl (1 + F.fl (ab * F.fl (1 - 1))) = 1 := by rw [sub_self, fl_zero, mul_zero, fl_zero, add_zero, F.one]
  by_cases hk3 : k < 3
  · rw [if_pos hk3]
    obtain ⟨ca, eca, fca, _⟩ := ha k hk3
    obtain ⟨cb, ecb, _, _⟩ := hb k hk3
    rw [eca, ecb, colourF_some, e1, if_pos one_ne_zero, sub_self, fl_zero, mul_zero, fl_zero, add_zero, mul_one, div_one, fca, fca, fca]
  · obtain rfl : k = 3 := by omega
    rw [if_neg hk3, alphaOutF_some, e1, ho]

/-- **C87.** Where the layer above is transparent and the layer below opaque the result is exactly the layer below. -/
theorem C87_transparent (F : Floats) {res : ℕ} {b a r : Img} {junk : ℕ → ℕ → ℕ → Option ℚ} (hb : Showable F res b) (ha : Showable F res a)
    (h : layerF F.toRounding junk b a = .ok r) {i j : ℕ} (ht : a.px i j 3 = some 0) (ho : b.px i j 3 = some 1) : ∀ k < 4, r.px i j k = b.px i j k := by
  rw [layerF_ok _ _ hb.1 ha.1] at h
  cases h
  obtain ⟨aa, ea, _, _, _, ha⟩ := ha.2 i j
  obtain ⟨ab, eb, _, _, _, hb⟩ := hb.2 i j
  intro k hk
  simp only
  rw [ho, ht]
  have e1 : F.fl (0 + F.fl (1 * F.fl (1 - 0))) = 1 := by rw [sub_zero, F.one, mul_one, F.one, zero_add, F.one]
  by_cases hk3 : k < 3
  · rw [if_pos hk3]
    obtain ⟨ca, eca, _, _⟩ := ha k hk3
    obtain ⟨cb, ecb, fcb, _⟩ := hb k hk3
    rw [eca, ecb, colourF_some, e1, if_pos one_ne_zero, sub_zero, F.one, mul_zero, fl_zero, mul_one, mul_one, fcb, fcb, zero_add, fcb, div_one, fcb]
  · obtain rfl : k = 3 := by omega
    rw [if_neg hk3, alphaOutF_some, e1, ho]

/-! ### The error of a layer -/

/-- `x` is `y` up to `k` roundings. -/
def Near (u k x y : ℚ) : Prop := ∃ ρ, |ρ - 1| ≤ k * u ∧ x = y * ρ

theorem near_fl (R : Rounding) {k x y : ℚ} (hk : 0 ≤ k) (h : Near R.u k x y) : Near R.u (k + 1 + k / 100) (R.fl x) y := by
  obtain ⟨ρ, hρ, e⟩ := h
  obtain ⟨δ, hδ, e'⟩ := rel R x
  exact ⟨ρ * (1 + δ), step R.u_nonneg R.u_small hk hρ hδ, by rw [e', e, mul_assoc]⟩

theorem near_refl (u y : ℚ) : Near u 0 y y := ⟨1, by simp, by ring⟩

theorem near_mono {u k k' x y : ℚ} (hu : 0 ≤ u) (hk : k ≤ k') (h : Near u k x y) : Near u k' x y := by
  obtain ⟨ρ, hρ, e⟩ := h
  exact ⟨ρ, hρ.trans (mul_le_mul_of_nonneg_right hk hu), e⟩

theorem near_mul {u k k' x y x' y' : ℚ} (hu : 0 ≤ u) (hs : u ≤ 1 / 100) (hk : 0 ≤ k) (hk' : 0 ≤ k') (h : Near u k x y) (h' : Near u k' x' y') :
    Near u (k + k' + k * k' / 100) (x * x') (y * y') := by
  obtain ⟨ρ, hρ, e⟩ := h
  obtain ⟨σ, hσ, e'⟩ := h'
  refine ⟨ρ * σ, ?_, by rw [e, e']; ring⟩
  have h1 : ρ * σ - 1 = (ρ - 1) * (σ - 1) + ((ρ - 1) + (σ - 1)) := by ring
  rw [h1]
  have h2 := abs_add_le ((ρ - 1) * (σ - 1)) ((ρ - 1) + (σ - 1))
  have h3 := abs_add_le (ρ - 1) (σ - 1)
  have h4 : |(ρ - 1) * (σ - 1)| ≤ (k * u) * (k' * u) := by
    rw [abs_mul]; exact mul_le_mul hρ hσ (abs_nonneg _) (by positivity)
  have h5 : (k * u) * (k' * u) ≤ k * k' / 100 * u := by
    have : k * k' * u * u ≤ k * k' * u * (1 / 100) := mul_le_mul_of_nonneg_left hs (by positivity)
    linarith
  linarith

theorem near_iff {u k x y : ℚ} (hy : 0 ≤ y) (hk : 0 ≤ k * u) : Near u k x y ↔ |x - y| ≤ k * u * y := by
  constructor
  · rintro ⟨ρ, hρ, rfl⟩
    have : y * ρ - y = (ρ - 1) * y := by ring
    rw [this, abs_mul, abs_of_nonneg hy]
    exact mul_le_mul_of_nonneg_right hρ hy
  · intro h
    rcases hy.lt_or_eq with hy | hy
    · refine ⟨x / y, ?_, by field_simp⟩
      have : x / y - 1 = (x - y) / y := by field_simp
      rw [this, abs_div, abs_of_pos hy, div_le_iff₀ hy]
      exact h
    · subst hy
      refine ⟨1, by simpa using hk, ?_⟩
      have : |x - 0| ≤ 0 := by linarith
      have := abs_nonpos_iff.1 this
      linarith

theorem near_add {u k x y x' y' : ℚ} (hy : 0 ≤ y) (hy' : 0 ≤ y') (hk : 0 ≤ k * u) (h : Near u k x y) (h' : Near u k x' y') :
    Near u k (x + x') (y + y') := by
  rw [near_iff hy hk] at h
  rw [near_iff hy' hk] at h'
  rw [near_iff (by linarith) hk]
  have : x + x' - (y + y') = (x - y) + (x' - y') := by ring
  rw [this]
  have := abs_add_le (x - y) (x' - y')
  linarith

theorem near_div {u k k' x y x' y' : ℚ} (hu : 0 ≤ u) (hs : u ≤ 1 / 100) (hk : 0 ≤ k) (hk' : 0 ≤ k') (hk1 : k' ≤ 10) (h : Near u k x y)
    (h' : Near u k' x' y') : Near u ((k + k') * (10 / 9)) (x / x') (y / y') := by
  obtain ⟨ρ, hρ, e⟩ := h
  obtain ⟨σ, hσ, e'⟩ := h'
  have hsm : k' * u ≤ 1 / 10 := by nlinarith
  have hb := abs_le.1 (hσ.trans hsm)
  have hp : 0 < σ := by linarith
  refine ⟨ρ / σ, ?_, by rw [e, e', mul_div_mul_comm]⟩
  have h1 : ρ / σ - 1 = ((ρ - 1) - (σ - 1)) / σ := by field_simp; ring
  rw [h1, abs_div, abs_of_pos hp, div_le_iff₀ hp]
  have h2 := abs_sub (ρ - 1) (σ - 1)
  have h3 : 0 ≤ (k + k') * u := by positivity
  nlinarith

/-- **C87.** The rounding changes a layered pixel by less than 4 roundings in its alpha and 10 in its colours: the difference to the exact compositing
(`Image.layer`, C19) is far below one byte. -/
theorem C87_near (R : Rounding) (junk junk' : Option ℚ) {ca aa cb ab : ℚ} (a0 : 0 ≤ aa) (a1 : aa ≤ 1) (b0 : 0 ≤ ab) (ca0 : 0 ≤ ca)
    (cb0 : 0 ≤ cb) (h : aa + ab * (1 - aa) ≠ 0) :
    (∃ x y, alphaOutF R (some aa) (some ab) = some x ∧ alphaOut (some aa) (some ab) = some y ∧ |x - y| ≤ 4 * R.u * y) ∧
    ∃ x y, colourF R junk (some ca) (some aa) (some cb) (some ab) = some x ∧ colour junk' (some ca) (some aa) (some cb) (some ab) = some y ∧
      |x - y| ≤ 10 * R.u * y := by
  have hu := R.u_nonneg
  have hs := R.u_small
  have s := near_fl R le_rfl (near_refl R.u (1 - aa))
  norm_num at s
  have q := near_fl R (by norm_num) (near_mul hu hs le_rfl (by norm_num) (near_refl R.u ab) s)
  have q' := near_mono (k' := 21 / 10) hu (by norm_num) q
  have al := near_fl R (by norm_num) (near_add a0 (mul_nonneg b0 (by linarith : (0:ℚ) ≤ 1 - aa)) (by positivity)
    (near_mono hu (by norm_num) (near_refl R.u aa)) q')
  have n1 := near_mono (k' := 31 / 10) hu (by norm_num) (near_fl R le_rfl (near_refl R.u (ca * aa)))
  have n2 := near_fl R le_rfl (near_refl R.u (cb * ab))
  have n3 := near_mono (k' := 31 / 10) hu (by norm_num) (near_fl R (by norm_num) (near_mul hu hs (by norm_num) (by norm_num) n2 s))
  have num := near_fl R (by norm_num) (near_add (mul_nonneg ca0 a0) (mul_nonneg (mul_nonneg cb0 b0) (by linarith : (0:ℚ) ≤ 1 - aa)) (by positivity) n1 n3)
  have quo := near_fl R (by norm_num) (near_div hu hs (by norm_num) (by norm_num) (by norm_num) num al)
  have hal0 : 0 ≤ aa + ab * (1 - aa) := add_nonneg a0 (mul_nonneg b0 (by linarith))
  have hnum0 : 0 ≤ ca * aa + cb * ab * (1 - aa) :=
    add_nonneg (mul_nonneg ca0 a0) (mul_nonneg (mul_nonneg cb0 b0) (by linarith : (0:ℚ) ≤ 1 - aa))
  have e0 : R.fl (aa + R.fl (ab * R.fl (1 - aa))) ≠ 0 := by
    obtain ⟨ρ, hρ, e⟩ := al
    rw [e]
    have := abs_le.1 hρ
    have : (0:ℚ) < ρ := by nlinarith
    exact mul_ne_zero h this.ne'
  refine ⟨⟨_, _, rfl, rfl, (near_iff hal0 (by positivity)).1 (near_mono hu (by norm_num) al)⟩, ?_⟩
  refine ⟨_, _, (colourF_some _ _ _ _ _ _).trans (if_pos e0), (Image.colour_some _ _ _ _ _).trans (if_pos h), ?_⟩
  exact (near_iff (div_nonneg hnum0 hal0) (by positivity)).1 (near_mono hu (by norm_num) quo)

/-! ### The files -/

/-- The picture shows the image: every alpha and every colour of a pixel that is not transparent, to less than one step of the 255. -/
def Shows (m : Img) (p : Picture) : Prop :=
  p.shape = m.shape ∧ ∀ i j a, m.px i j 3 = some a → ∀ k < 4, (k = 3 ∨ a ≠ 0) →
    ∃ v b, m.px i j k = some v ∧ p.px i j k = some b ∧ b ≤ 255 ∧ |(b : ℚ) - 255 * v| < 1

theorem shows_picture {res : ℕ} {m : Img} (h : Showable doubles res m) : Shows m (picture double m) := by
  refine ⟨rfl, ?_⟩
  intro i j a ha k hk hv
  obtain ⟨al, ea, _, a0, a1, hc⟩ := h.2 i j
  rw [ha] at ea
  cases ea
  have key : ∃ v, m.px i j k = some v ∧ 0 ≤ v ∧ v ≤ 1 := by
    by_cases h3 : k = 3
    · subst h3; exact ⟨a, ha, a0, a1⟩
    · obtain ⟨v, ev, _, hv'⟩ := hc k (by omega)
      obtain ⟨v0, v1⟩ := hv' (hv.resolve_left h3)
      exact ⟨v, ev, v0, v1⟩
  obtain ⟨v, ev, v0, v1⟩ := key
  obtain ⟨b, eb, b1, hb⟩ := C87_byte v0 v1
  refine ⟨v, b, ev, ?_, b1, hb⟩
  show byteOf double (m.px i j k) = _
  rw [ev, eb]

/-- The uninitialised memory of all calls contains finite floats. -/
def Clean (junk : ℕ → ℕ → ℕ → ℕ → Option ℚ) : Prop := ∀ n i j k, ∃ v, junk n i j k = some v ∧ nearest v = v

/-- All five images of a resolution can be shown. -/
def AllShowable (res : ℕ) (m : Images) : Prop :=
  Showable doubles res m.clean ∧ Showable doubles res m.grid ∧ Showable doubles res m.mask ∧ Showable doubles res m.hits ∧
    Showable doubles res m.margin

/-- **C87.** `save_images` with `stack` writes seven files, the five images and two stacks; without it the first five.  Every file shows its image. -/
theorem C87_save {res : ℕ} {m : Images} (junk : ℕ → ℕ → ℕ → ℕ → Option ℚ) (base : String) (hm : AllShowable res m) (hj : Clean junk) :
    ∃ (hits margin : Img) (p1 p2 p3 p4 p5 p6 p7 : Picture), stackHits double junk m = .ok hits ∧ stackMargin double junk m = .ok margin ∧
      saveImages double junk (some m) base true =
        ([(base ++ ".clean.png", p1), (base ++ ".grid.png", p2), (base ++ ".mask.png", p3), (base ++ ".hits.png", p4),
          (base ++ ".mask_margin.png", p5), (base ++ ".png", p6), (base ++ ".margin.png", p7)], .ok ()) ∧
      saveImages double junk (some m) base false =
        ([(base ++ ".clean.png", p1), (base ++ ".grid.png", p2), (base ++ ".mask.png", p3), (base ++ ".hits.png", p4),
          (base ++ ".mask_margin.png", p5)], .ok ()) ∧
      Shows m.clean p1 ∧ Shows m.grid p2 ∧ Shows m.mask p3 ∧ Shows m.hits p4 ∧ Shows m.margin p5 ∧ Shows hits p6 ∧ Shows margin p7 := by
  obtain ⟨hc, hg, hma, hh, hmm⟩ := hm
  obtain ⟨r0, e0, s0⟩ := C87_layer doubles doubles_fill res m.grid m.clean (junk 0) hg hc (hj 0)
  obtain ⟨r1, e1, s1⟩ := C87_layer doubles doubles_fill res r0 m.mask (junk 1) s0 hma (hj 1)
  obtain ⟨r2, e2, s2⟩ := C87_layer doubles doubles_fill res r1 m.hits (junk 2) s1 hh (hj 2)
  obtain ⟨r3, e3, s3⟩ := C87_layer doubles doubles_fill res m.grid m.clean (junk 3) hg hc (hj 3)
  obtain ⟨r4, e4, s4⟩ := C87_layer doubles doubles_fill res r3 m.margin (junk 4) s3 hmm (hj 4)
  have eh : stackHits double junk m = .ok r2 := by
    unfold stackHits
    simp only [show layerF double (junk 0) m.grid m.clean = .ok r0 from e0, bind, Except.bind,
      show layerF double (junk 1) r0 m.mask = .ok r1 from e1, show layerF double (junk 2) r1 m.hits = .ok r2 from e2]
  have em : stackMargin double junk m = .ok r4 := by
    unfold stackMargin
    simp only [show layerF double (junk 3) m.grid m.clean = .ok r3 from e3, bind, Except.bind,
      show layerF double (junk 4) r3 m.margin = .ok r4 from e4]
  refine ⟨r2, r4, picture double m.clean, picture double m.grid, picture double m.mask, picture double m.hits, picture double m.margin,
    picture double r2, picture double r4, eh, em, ?_, rfl, shows_picture hc, shows_picture hg, shows_picture hma, shows_picture hh, shows_picture hmm,
    shows_picture s2, shows_picture s4⟩
  unfold saveImages
  simp only [eh, em, if_true]
  rfl

/-- **C87.** What is on top in the stack: an opaque hit is shown exactly, and where there are neither mask nor hits an opaque cell of the heat map is. -/
theorem C87_stack {res : ℕ} {m : Images} (junk : ℕ → ℕ → ℕ → ℕ → Option ℚ) (hm : AllShowable res m) (hj : Clean junk) {hits margin : Img}
    (h : stackHits double junk m = .ok hits) (h' : stackMargin double junk m = .ok margin) (i j : ℕ) :
    (m.hits.px i j 3 = some 1 → ∀ k < 4, hits.px i j k = m.hits.px i j k) ∧
    (m.mask.px i j 3 = some 0 → m.hits.px i j 3 = some 0 → m.clean.px i j 3 = some 1 → ∀ k < 4, hits.px i j k = m.clean.px i j k) ∧
    (m.mask.px i j 3 = some 0 → m.hits.px i j 3 = some 0 → m.clean.px i j 3 = some 0 → m.grid.px i j 3 = some 1 →
      ∀ k < 4, hits.px i j k = m.grid.px i j k) ∧
    (m.margin.px i j 3 = some 0 → m.clean.px i j 3 = some 1 → ∀ k < 4, margin.px i j k = m.clean.px i j k) ∧
    (m.margin.px i j 3 = some 0 → m.clean.px i j 3 = some 0 → m.grid.px i j 3 = some 1 → ∀ k < 4, margin.px i j k = m.grid.px i j k) := by
  obtain ⟨hc, hg, hma, hh, hmm⟩ := hm
  obtain ⟨r0, e0, s0⟩ := C87_layer doubles doubles_fill res m.grid m.clean (junk 0) hg hc (hj 0)
  obtain ⟨r1, e1, s1⟩ := C87_layer doubles doubles_fill res r0 m.mask (junk 1) s0 hma (hj 1)
  obtain ⟨r2, e2, s2⟩ := C87_layer doubles doubles_fill res r1 m.hits (junk 2) s1 hh (hj 2)
  obtain ⟨r3, e3, s3⟩ := C87_layer doubles doubles_fill res m.grid m.clean (junk 3) hg hc (hj 3)
  obtain ⟨r4, e4, s4⟩ := C87_layer doubles doubles_fill res r3 m.margin (junk 4) s3 hmm (hj 4)
  have eh : stackHits double junk m = .ok r2 := by
    unfold stackHits
    simp only [show layerF double (junk 0) m.grid m.clean = .ok r0 from e0, bind, Except.bind,
      show layerF double (junk 1) r0 m.mask = .ok r1 from e1, show layerF double (junk 2) r1 m.hits = .ok r2 from e2]
  have em : stackMargin double junk m = .ok r4 := by
    unfold stackMargin
    simp only [show layerF double (junk 3) m.grid m.clean = .ok r3 from e3, bind, Except.bind,
      show layerF double (junk 4) r3 m.margin = .ok r4 from e4]
  rw [eh] at h; cases h
  rw [em] at h'; cases h'
  -- an opaque pixel stays through transparent layers
  have thru : ∀ {b a r : Img} {ju : ℕ → ℕ → ℕ → Option ℚ} (g : Img), Showable doubles res b → Showable doubles res a →
      layerF doubles.toRounding ju b a = .ok r → a.px i j 3 = some 0 → g.px i j 3 = some 1 → (∀ k < 4, b.px i j k = g.px i j k) →
      ∀ k < 4, r.px i j k = g.px i j k := by
    intro b a r ju g sb sa e ht ho hk k hk4
    rw [C87_transparent doubles sb sa e ht (by rw [hk 3 (by norm_num), ho]) k hk4, hk k hk4]
  refine ⟨fun ho => C87_opaque doubles s1 hh e2 ho, ?_, ?_, ?_, ?_⟩
  · intro h1 h2 ho
    exact thru m.clean s1 hh e2 h2 ho (thru m.clean s0 hma e1 h1 ho (C87_opaque doubles hg hc e0 ho))
  · intro h1 h2 h3 ho
    exact thru m.grid s1 hh e2 h2 ho (thru m.grid s0 hma e1 h1 ho (C87_transparent doubles hg hc e0 h3 ho))
  · intro h1 ho
    exact thru m.clean s3 hmm e4 h1 ho (C87_opaque doubles hg hc e3 ho)
  · intro h1 h3 ho
    exact thru m.grid s3 hmm e4 h1 ho (C87_transparent doubles hg hc e3 h3 ho)

/-- **C87.** Without images nothing is written, and `save_images` raises TypeError; the image properties are None. -/
theorem C87_none (R : Rounding) (junk : ℕ → ℕ → ℕ → ℕ → Option ℚ) (base : String) (stack : Bool) :
    saveImages R junk none base stack = ([], .error .typeError) ∧ imageProperty R none = none := ⟨rfl, rfl⟩

/-- **C87.** The image properties (base64 in the dictionary and the JSON file) show the same bytes as the files. -/
theorem C87_property (R : Rounding) (junk : ℕ → ℕ → ℕ → ℕ → Option ℚ) (m : Images) (base : String) :
    ∃ p1 p2 p3 p4 p5, imageProperty R (some m.clean) = some p1 ∧ imageProperty R (some m.grid) = some p2 ∧ imageProperty R (some m.mask) = some p3 ∧
      imageProperty R (some m.hits) = some p4 ∧ imageProperty R (some m.margin) = some p5 ∧
      saveImages R junk (some m) base false = ([(base ++ ".clean.png", p1), (base ++ ".grid.png", p2), (base ++ ".mask.png", p3),
        (base ++ ".hits.png", p4), (base ++ ".mask_margin.png", p5)], .ok ()) :=
  ⟨_, _, _, _, _, rfl, rfl, rfl, rfl, rfl, rfl⟩

/-- **C87, what is missing.** If the uninitialised memory contains a nan, a pixel that is transparent in the grid and in the heat map is not shown below
the mask: its colours are nan, and the bytes are undefined. -/
theorem C87_junk_fails : ∃ (m : Images) (junk : ℕ → ℕ → ℕ → ℕ → Option ℚ) (hits : Img), AllShowable 1 m ∧ stackHits double junk m = .ok hits ∧
    m.mask.px 0 0 3 = some (1 / 2) ∧ hits.px 0 0 3 = some (1 / 2) ∧ byteOf double (hits.px 0 0 0) = none := by
  let blank : Img := square 1 fun _ _ _ => 0
  let mask : Img := square 1 fun _ _ k => if k = 0 ∨ k = 2 then 1 else if k = 3 then 1 / 2 else 0
  have z : nearest 0 = 0 := by decide +kernel
  have o : nearest 1 = 1 := by decide +kernel
  have ha : nearest (1 / 2) = 1 / 2 := by decide +kernel
  have hb : Showable doubles 1 blank :=
    ⟨rfl, fun i j => ⟨0, rfl, z, le_rfl, zero_le_one, fun k _ => ⟨0, rfl, z, fun h => (h rfl).elim⟩⟩⟩
  have hm : Showable doubles 1 mask := by
    refine ⟨rfl, fun i j => ⟨1 / 2, rfl, ha, by norm_num, by norm_num, fun k hk => ⟨_, rfl, ?_, fun _ => ?_⟩⟩⟩
    · by_cases h : k = 0 ∨ k = 2
      · simp only [h, if_true]; exact o
      · simp only [h, if_false, hk.ne]; exact z
    · by_cases h : k = 0 ∨ k = 2
      · simp only [h, if_true]; norm_num
      · simp only [h, if_false, hk.ne]; norm_num
  refine ⟨⟨blank, blank, mask, blank, blank⟩, fun _ _ _ _ => none, _, ⟨hb, hb, hm, hb, hb⟩, rfl, rfl, by decide +kernel, by decide +kernel⟩

/-! ### A case -/

/-- A picture of one pixel: yellow grid, half transparent mask, an opaque cell of the heat map. -/
example : ∃ m : Images, AllShowable 1 m ∧ Clean (fun _ _ _ _ => some 0) ∧ m.mask.px 0 0 3 = some (1 / 2) ∧ m.clean.px 0 0 3 = some 1 := by
  let blank : Img := square 1 fun _ _ _ => 0
  let cell : Img := square 1 fun _ _ k => if k = 0 then 1 / 4 else 1
  let mask : Img := square 1 fun _ _ k => if k = 0 ∨ k = 2 then 1 else if k = 3 then 1 / 2 else 0
  have z : nearest 0 = 0 := by decide +kernel
  have o : nearest 1 = 1 := by decide +kernel
  have ha : nearest (1 / 2) = 1 / 2 := by decide +kernel
  have hq : nearest (1 / 4) = 1 / 4 := by decide +kernel
  have hb : Showable doubles 1 blank :=
    ⟨rfl, fun i j => ⟨0, rfl, z, le_rfl, zero_le_one, fun k _ => ⟨0, rfl, z, fun h => (h rfl).elim⟩⟩⟩
  have hcl : Showable doubles 1 cell := by
    refine ⟨rfl, fun i j => ⟨1, rfl, o, by norm_num, by norm_num, fun k hk => ⟨_, rfl, ?_, fun _ => ?_⟩⟩⟩
    · by_cases h : k = 0
      · simp only [h, if_true]; exact hq
      · simp only [h, if_false]; exact o
    · by_cases h : k = 0
      · simp only [h, if_true]; norm_num
      · simp only [h, if_false]; norm_num
  have hm : Showable doubles 1 mask := by
    refine ⟨rfl, fun i j => ⟨1 / 2, rfl, ha, by norm_num, by norm_num, fun k hk => ⟨_, rfl, ?_, fun _ => ?_⟩⟩⟩
    · by_cases h : k = 0 ∨ k = 2
      · simp only [h, if_true]; exact o
      · simp only [h, if_false, hk.ne]; exact z
    · by_cases h : k = 0 ∨ k = 2
      · simp only [h, if_true]; norm_num
      · simp only [h, if_false, hk.ne]; norm_num
  exact ⟨⟨cell, blank, mask, blank, mask⟩, ⟨hcl, hb, hm, hb, hm⟩, fun _ _ _ _ => ⟨0, rfl, z⟩, rfl, rfl⟩

/-- A layer of finite values with the alpha not zero: the hypotheses of `C87_near`. -/
example : (1 / 3 : ℚ) + 1 / 2 * (1 - 1 / 3) ≠ 0 := by norm_num

end Verif.Props.Png
