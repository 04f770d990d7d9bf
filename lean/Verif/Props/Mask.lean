import Mathlib.Analysis.Convex.Hull
import Mathlib.Tactic.Linarith
import Mathlib.Tactic.Ring
import Mathlib.Tactic.FieldSimp
import Mathlib.Tactic.Positivity
import Mathlib.Tactic.NormNum
import Verif.Model.Mask

/-!
C39, C40: unit conversion and size adjustment of masks.
-/

namespace Verif.Props.Mask

open Verif Verif.Lines Verif.Mask

/-! ### C39: specification -/

/-- A parameter in UI or UA. -/
def norm (q : Qty) (unit : ℚ) : ℚ := if q.real then q.v / unit else q.v

/-- The documented limits: U shapes up to two amplitudes and down to minus one. -/
def limits (upper lower : ℚ) : List (List Pt) := [[(0, 2), (0, upper), (1, upper), (1, 2)], [(0, -1), (0, lower), (1, lower), (1, -1)]]

/-- The documented hexagon. -/
def hexShape (x1 x2 top bottom : ℚ) : List Pt :=
  [(x1, 1 / 2), (x2, top), (1 - x2, top), (1 - x1, 1 / 2), (1 - x2, bottom), (x2, bottom), (x1, 1 / 2)]

/-- The documented decagon. -/
def decShape (x1 x2 x3 top1 top2 bottom1 bottom2 : ℚ) : List Pt :=
  [(x1, 1 / 2), (x2, top2), (x3, top1), (1 - x3, top1), (1 - x2, top2), (1 - x1, 1 / 2), (1 - x2, bottom2), (1 - x3, bottom1),
    (x3, bottom1), (x2, bottom2), (x1, 1 / 2)]

/-- The drawing in the documentation of `MaskHexagon`. -/
def hexDoc (m : Hexagon) (ua ui : ℚ) : List (List Pt) :=
  if m.zeroRef then
    hexShape (norm m.x1 ui) (norm m.x2 ui) (1 - norm m.y1 ua) (norm m.y1 ua) :: limits (1 + norm m.yu ua) (-norm m.yl ua)
  else
    hexShape (norm m.x1 ui) (norm m.x2 ui) (1 / 2 + norm m.y1 ua) (1 / 2 - norm m.y1 ua) ::
      limits (1 / 2 + norm m.yu ua) (1 / 2 - norm m.yl ua)

/-- The drawing in the documentation of `MaskDecagon`. -/
def decDoc (m : Decagon) (ua ui : ℚ) : List (List Pt) :=
  if m.zeroRef then
    decShape (norm m.x1 ui) (norm m.x2 ui) (norm m.x3 ui) (1 - norm m.y1 ua) (1 - norm m.y2 ua) (norm m.y1 ua) (norm m.y2 ua) ::
      limits (1 + norm m.yu ua) (-norm m.yl ua)
  else
    decShape (norm m.x1 ui) (norm m.x2 ui) (norm m.x3 ui) (1 / 2 + norm m.y1 ua) (1 / 2 + norm m.y2 ua) (1 / 2 - norm m.y1 ua)
      (1 / 2 - norm m.y2 ua) :: limits (1 / 2 + norm m.yu ua) (1 / 2 - norm m.yl ua)

/-- A call on a mask. -/
inductive Op where
  | convert (ua ui : ℚ)
  | adjust (factor : ℚ)

/-- Is it a conversion? -/
def Op.converts : Op → Bool
  | .convert _ _ => true
  | .adjust _ => false

/-- Calls one after the other, each on the result of the one before. -/
def runHex : Hexagon → List Op → Except PyErr Hexagon
  | m, [] => .ok m
  | m, .convert ua ui :: ops => do runHex (← m.convert ua ui) ops
  | m, .adjust f :: ops => do runHex (← m.adjust f) ops

/-- Calls one after the other, each on the result of the one before. -/
def runDec : Decagon → List Op → Except PyErr Decagon
  | m, [] => .ok m
  | m, .convert ua ui :: ops => do runDec (← m.convert ua ui) ops
  | m, .adjust f :: ops => do runDec (← m.adjust f) ops

/-! ### C39: proofs -/

theorem unit_ok (q : Qty) (u : ℚ) (hu : u ≠ 0) : ∃ q', convertUnit q u = .ok q' ∧ q'.v = norm q u ∧ q'.real = false := by
  unfold convertUnit norm
  rcases hq : q.real with _ | _
  · exact ⟨q, by simp, by simp, hq⟩
  · exact ⟨plain (q.v / u), by simp [hu], by simp [plain], rfl⟩

/-- C39: with units that are not zero, a conversion gives the documented shape. -/
theorem C39_convert_hexagon (m : Hexagon) (ua ui : ℚ) (ha : ua ≠ 0) (hi : ui ≠ 0) :
    ∃ m', m.convert ua ui = .ok m' ∧ m'.paths = .ok (hexDoc m ua ui) := by
  obtain ⟨x1, e1, n1, -⟩ := unit_ok m.x1 ui hi
  obtain ⟨x2, e2, n2, -⟩ := unit_ok m.x2 ui hi
  obtain ⟨y1, e3, n3, -⟩ := unit_ok m.y1 ua ha
  obtain ⟨yl, e4, n4, -⟩ := unit_ok m.yl ua ha
  obtain ⟨yu, e5, n5, -⟩ := unit_ok m.yu ua ha
  unfold Hexagon.convert
  simp only [e1, e2, e3, e4, e5, bind, Except.bind, pure, Except.pure]
  unfold hexDoc
  rcases m.zeroRef with _ | _
  · refine ⟨_, rfl, ?_⟩
    simp only [Hexagon.paths, Hexagon.new, Hexagon.center, pathUpper, pathLower, hexShape, limits, plain, n1, n2, n3, n4, n5, if_true,
      Bool.false_eq_true, if_false]
    rw [show (1 : ℚ) - (1 / 2 - norm m.y1 ua) = 1 / 2 + norm m.y1 ua by ring,
      show (1 : ℚ) + (norm m.yu ua - 1 / 2) = 1 / 2 + norm m.yu ua by ring,
      show -(norm m.yl ua - 1 / 2) = 1 / 2 - norm m.yl ua by ring]
  · refine ⟨_, rfl, ?_⟩
    simp only [Hexagon.paths, Hexagon.new, Hexagon.center, pathUpper, pathLower, hexShape, limits, n1, n2, n3, n4, n5, if_true]

/-- C39: the same for the decagon. -/
theorem C39_convert_decagon (m : Decagon) (ua ui : ℚ) (ha : ua ≠ 0) (hi : ui ≠ 0) :
    ∃ m', m.convert ua ui = .ok m' ∧ m'.paths = .ok (decDoc m ua ui) := by
  obtain ⟨x1, e1, n1, -⟩ := unit_ok m.x1 ui hi
  obtain ⟨x2, e2, n2, -⟩ := unit_ok m.x2 ui hi
  obtain ⟨x3, e6, n6, -⟩ := unit_ok m.x3 ui hi
  obtain ⟨y1, e3, n3, -⟩ := unit_ok m.y1 ua ha
  obtain ⟨y2, e7, n7, -⟩ := unit_ok m.y2 ua ha
  obtain ⟨yl, e4, n4, -⟩ := unit_ok m.yl ua ha
  obtain ⟨yu, e5, n5, -⟩ := unit_ok m.yu ua ha
  unfold Decagon.convert
  simp only [e1, e2, e3, e4, e5, e6, e7, bind, Except.bind, pure, Except.pure]
  unfold decDoc
  rcases m.zeroRef with _ | _
  · refine ⟨_, rfl, ?_⟩
    simp only [Decagon.paths, Decagon.new, Decagon.center, pathUpper, pathLower, decShape, limits, plain, n1, n2, n3, n4, n5, n6, n7,
      if_true, Bool.false_eq_true, if_false]
    rw [show (1 : ℚ) - (1 / 2 - norm m.y1 ua) = 1 / 2 + norm m.y1 ua by ring,
      show (1 : ℚ) - (1 / 2 - norm m.y2 ua) = 1 / 2 + norm m.y2 ua by ring,
      show (1 : ℚ) + (norm m.yu ua - 1 / 2) = 1 / 2 + norm m.yu ua by ring,
      show -(norm m.yl ua - 1 / 2) = 1 / 2 - norm m.yl ua by ring]
  · refine ⟨_, rfl, ?_⟩
    simp only [Decagon.paths, Decagon.new, Decagon.center, pathUpper, pathLower, decShape, limits, n1, n2, n3, n4, n5, n6, n7, if_true]

theorem hex_convert_flag (m m' : Hexagon) (ua ui : ℚ) (h : m.convert ua ui = .ok m') : m'.converted = true := by
  unfold Hexagon.convert at h
  simp only [bind, Except.bind, pure, Except.pure] at h
  repeat' split at h
  all_goals first | (cases h; rfl) | cases h

theorem hex_adjust_flag (m m' : Hexagon) (f : ℚ) (h : m.adjust f = .ok m') : m'.converted = m.converted := by
  unfold Hexagon.adjust at h
  simp only at h
  repeat' split at h
  all_goals first | (cases h; rfl) | cases h

theorem dec_convert_flag (m m' : Decagon) (ua ui : ℚ) (h : m.convert ua ui = .ok m') : m'.converted = true := by
  unfold Decagon.convert at h
  simp only [bind, Except.bind, pure, Except.pure] at h
  repeat' split at h
  all_goals first | (cases h; rfl) | cases h

theorem dec_adjust_flag (m m' : Decagon) (f : ℚ) (h : m.adjust f = .ok m') : m'.converted = m.converted := by
  unfold Decagon.adjust at h
  simp only at h
  repeat' split at h
  all_goals first | (cases h; rfl) | cases h

theorem runHex_flag (ops : List Op) : ∀ m m' : Hexagon, runHex m ops = .ok m' →
    m'.converted = (m.converted || ops.any Op.converts) := by
  induction ops with
  | nil => intro m m' h; simp only [runHex, Except.ok.injEq] at h; subst h; simp
  | cons op ops ih =>
    intro m m' h
    cases op with
    | convert ua ui =>
      simp only [runHex, bind, Except.bind] at h
      split at h
      · cases h
      · rename_i m1 e
        rw [ih m1 m' h, hex_convert_flag m m1 ua ui e]
        simp [Op.converts]
    | adjust f =>
      simp only [runHex, bind, Except.bind] at h
      split at h
      · cases h
      · rename_i m1 e
        rw [ih m1 m' h, hex_adjust_flag m m1 f e]
        simp [Op.converts]

theorem runDec_flag (ops : List Op) : ∀ m m' : Decagon, runDec m ops = .ok m' →
    m'.converted = (m.converted || ops.any Op.converts) := by
  induction ops with
  | nil => intro m m' h; simp only [runDec, Except.ok.injEq] at h; subst h; simp
  | cons op ops ih =>
    intro m m' h
    cases op with
    | convert ua ui =>
      simp only [runDec, bind, Except.bind] at h
      split at h
      · cases h
      · rename_i m1 e
        rw [ih m1 m' h, dec_convert_flag m m1 ua ui e]
        simp [Op.converts]
    | adjust f =>
      simp only [runDec, bind, Except.bind] at h
      split at h
      · cases h
      · rename_i m1 e
        rw [ih m1 m' h, dec_adjust_flag m m1 f e]
        simp [Op.converts]

/-- C39: after any sequence of calls on a new hexagon mask, the paths can be had exactly when one of the calls was a conversion,
and are a ValueError otherwise. -/
theorem C39_history_hexagon (x1 x2 y1 yl yu : Qty) (zr : Bool) (ops : List Op) (m : Hexagon)
    (h : runHex (Hexagon.new x1 x2 y1 yl yu zr) ops = .ok m) :
    ((∃ ua ui, Op.convert ua ui ∈ ops) → ∃ p, m.paths = .ok p) ∧
    ((¬ ∃ ua ui, Op.convert ua ui ∈ ops) → m.paths = .error .valueError) := by
  have hf := runHex_flag _ _ _ h
  have he : ops.any Op.converts = true ↔ ∃ ua ui, Op.convert ua ui ∈ ops := by
    rw [List.any_eq_true]
    constructor
    · rintro ⟨o, ho, hc⟩
      cases o with
      | convert ua ui => exact ⟨ua, ui, ho⟩
      | adjust f => cases hc
    · rintro ⟨ua, ui, ho⟩
      exact ⟨_, ho, rfl⟩
  simp only [Hexagon.new, Bool.false_or] at hf
  unfold Hexagon.paths
  refine ⟨fun hc => ?_, fun hc => ?_⟩
  · rw [hf, if_pos (he.2 hc)]
    exact ⟨_, rfl⟩
  · rw [hf, if_neg (fun h => hc (he.1 h))]

/-- C39: the same for the decagon. -/
theorem C39_history_decagon (x1 x2 x3 y1 y2 yl yu : Qty) (zr : Bool) (ops : List Op) (m : Decagon)
    (h : runDec (Decagon.new x1 x2 x3 y1 y2 yl yu zr) ops = .ok m) :
    ((∃ ua ui, Op.convert ua ui ∈ ops) → ∃ p, m.paths = .ok p) ∧
    ((¬ ∃ ua ui, Op.convert ua ui ∈ ops) → m.paths = .error .valueError) := by
  have hf := runDec_flag _ _ _ h
  have he : ops.any Op.converts = true ↔ ∃ ua ui, Op.convert ua ui ∈ ops := by
    rw [List.any_eq_true]
    constructor
    · rintro ⟨o, ho, hc⟩
      cases o with
      | convert ua ui => exact ⟨ua, ui, ho⟩
      | adjust f => cases hc
    · rintro ⟨ua, ui, ho⟩
      exact ⟨_, ho, rfl⟩
  simp only [Decagon.new, Bool.false_or] at hf
  unfold Decagon.paths
  refine ⟨fun hc => ?_, fun hc => ?_⟩
  · rw [hf, if_pos (he.2 hc)]
    exact ⟨_, rfl⟩
  · rw [hf, if_neg (fun h => hc (he.1 h))]

theorem norm_plain (q : Qty) (hq : q.real = false) (u : ℚ) : convertUnit q u = .ok q := by
  unfold convertUnit; simp [hq]

/-- C39 (partial: with `zero_ref = False` see `C39_twice_fails`).  Converting a converted mask changes nothing. -/
theorem C39_twice_hexagon_partial (m m' : Hexagon) (ua ui ua' ui' : ℚ) (ha : ua ≠ 0) (hi : ui ≠ 0) (hz : m.zeroRef = true)
    (h : m.convert ua ui = .ok m') : m'.convert ua' ui' = .ok m' := by
  obtain ⟨x1, e1, -, r1⟩ := unit_ok m.x1 ui hi
  obtain ⟨x2, e2, -, r2⟩ := unit_ok m.x2 ui hi
  obtain ⟨y1, e3, -, r3⟩ := unit_ok m.y1 ua ha
  obtain ⟨yl, e4, -, r4⟩ := unit_ok m.yl ua ha
  obtain ⟨yu, e5, -, r5⟩ := unit_ok m.yu ua ha
  unfold Hexagon.convert at h
  simp only [e1, e2, e3, e4, e5, bind, Except.bind, pure, Except.pure, hz, if_true, Except.ok.injEq] at h
  subst h
  simp only [Hexagon.convert, Hexagon.new, norm_plain _ r1, norm_plain _ r2, norm_plain _ r3, norm_plain _ r4, norm_plain _ r5, bind,
    Except.bind, pure, Except.pure, if_true]

/-- C39: the same for the decagon. -/
theorem C39_twice_decagon_partial (m m' : Decagon) (ua ui ua' ui' : ℚ) (ha : ua ≠ 0) (hi : ui ≠ 0) (hz : m.zeroRef = true)
    (h : m.convert ua ui = .ok m') : m'.convert ua' ui' = .ok m' := by
  obtain ⟨x1, e1, -, r1⟩ := unit_ok m.x1 ui hi
  obtain ⟨x2, e2, -, r2⟩ := unit_ok m.x2 ui hi
  obtain ⟨x3, e6, -, r6⟩ := unit_ok m.x3 ui hi
  obtain ⟨y1, e3, -, r3⟩ := unit_ok m.y1 ua ha
  obtain ⟨y2, e7, -, r7⟩ := unit_ok m.y2 ua ha
  obtain ⟨yl, e4, -, r4⟩ := unit_ok m.yl ua ha
  obtain ⟨yu, e5, -, r5⟩ := unit_ok m.yu ua ha
  unfold Decagon.convert at h
  simp only [e1, e2, e3, e4, e5, e6, e7, bind, Except.bind, pure, Except.pure, hz, if_true, Except.ok.injEq] at h
  subst h
  simp only [Decagon.convert, Decagon.new, norm_plain _ r1, norm_plain _ r2, norm_plain _ r3, norm_plain _ r4, norm_plain _ r5,
    norm_plain _ r6, norm_plain _ r7, bind, Except.bind, pure, Except.pure, if_true]

/-- A hexagon given in seconds and volts, with distances from the middle. -/
def exHex : Hexagon := Hexagon.new ⟨false, 1 / 10⟩ ⟨true, 6 / 10⟩ ⟨true, 3 / 10⟩ ⟨false, 3 / 4⟩ ⟨false, 3 / 4⟩ false

/-- A decagon. -/
def exDecagon : Decagon :=
  Decagon.new ⟨false, 1 / 10⟩ ⟨true, 4 / 10⟩ ⟨false, 3 / 10⟩ ⟨true, 1 / 2⟩ ⟨true, 6 / 10⟩ ⟨false, 1 / 4⟩ ⟨false, 1 / 4⟩ true

/-- **C39 fails** with `zero_ref = False`: the second conversion turns the parameters around again. -/
theorem C39_twice_fails : ∃ (m m' m'' : Hexagon) (ua ui : ℚ), m.convert ua ui = .ok m' ∧ m'.convert ua ui = .ok m'' ∧
    m''.paths ≠ m'.paths :=
  ⟨exHex, ⟨plain (1 / 10), plain (3 / 10), plain (7 / 20), plain (1 / 4), plain (1 / 4), false, true⟩,
    ⟨plain (1 / 10), plain (3 / 10), plain (3 / 20), plain (-1 / 4), plain (-1 / 4), false, true⟩, 2, 2, by decide +kernel,
    by decide +kernel, by decide +kernel⟩

/-- The hypotheses of the C39 theorems are met. -/
example : (∃ m', exHex.convert 2 2 = .ok m' ∧ m'.paths = .ok (hexDoc exHex 2 2)) ∧
    hexDoc exHex 2 2 = [[(1/10, 1/2), (3/10, 13/20), (7/10, 13/20), (9/10, 1/2), (7/10, 7/20), (3/10, 7/20), (1/10, 1/2)],
      [(0, 2), (0, 5/4), (1, 5/4), (1, 2)], [(0, -1), (0, -1/4), (1, -1/4), (1, -1)]] :=
  ⟨C39_convert_hexagon _ _ _ (by norm_num) (by norm_num), by decide +kernel⟩

example : ∃ m, runHex exHex [.convert 2 2, .adjust (1 / 3), .adjust (-1 / 4)] = .ok m :=
  ⟨⟨plain (7/40), plain (27/80), plain (3/10), plain (1/4), plain (1/4), false, true⟩, by decide +kernel⟩

example : ∃ m', exDecagon.convert 2 2 = .ok m' ∧ m'.convert 3 5 = .ok m' :=
  ⟨⟨plain (1/10), plain (1/5), plain (3/10), plain (1/4), plain (3/10), plain (1/4), plain (1/4), true, true⟩, by decide +kernel,
    C39_twice_decagon_partial exDecagon _ 2 2 _ _ (by norm_num) (by norm_num) rfl (by decide +kernel)⟩

/-! ### C40 -/

/-- No parameter is in real units, as after a conversion. -/
def Plain (m : Hexagon) : Prop := m.x1.real = false ∧ m.x2.real = false ∧ m.y1.real = false ∧ m.yl.real = false ∧ m.yu.real = false

/-- No parameter is in real units. -/
def PlainD (m : Decagon) : Prop := m.x1.real = false ∧ m.x2.real = false ∧ m.x3.real = false ∧ m.y1.real = false ∧
  m.y2.real = false ∧ m.yl.real = false ∧ m.yu.real = false

/-- `p` moved away from the middle (½, ½) by factors. -/
def spread (sx sy : ℚ) (p : Pt) : Pt := (1 / 2 + sx * (p.1 - 1 / 2), 1 / 2 + sy * (p.2 - 1 / 2))

/-- All the points of a polygon given by its corners. -/
def hull (l : List Pt) : Set Pt := convexHull ℚ {p | p ∈ l}

theorem plain_eq (q : Qty) (h : q.real = false) : plain q.v = q := by
  cases q; simp_all [plain]

/-- C40: a factor of 0 changes nothing. -/
theorem C40_zero_hexagon (m : Hexagon) (h : Plain m) : m.adjust 0 = .ok m := by
  obtain ⟨h1, h2, h3, h4, h5⟩ := h
  unfold Hexagon.adjust
  simp [towards, Hexagon.new, plain_eq _ h1, plain_eq _ h2, plain_eq _ h3, plain_eq _ h4, plain_eq _ h5]

/-- C40: a factor of 0 changes nothing. -/
theorem C40_zero_decagon (m : Decagon) (h : PlainD m) : m.adjust 0 = .ok m := by
  obtain ⟨h1, h2, h3, h4, h5, h6, h7⟩ := h
  unfold Decagon.adjust
  simp [towards, Decagon.new, plain_eq _ h1, plain_eq _ h2, plain_eq _ h3, plain_eq _ h4, plain_eq _ h5, plain_eq _ h6, plain_eq _ h7]

/-- C40: a factor of -1 leaves one point and limits half an amplitude away from 0 and 1. -/
theorem C40_minus_one_hexagon (m : Hexagon) (hc : m.converted = true) :
    ∃ m', m.adjust (-1) = .ok m' ∧ m'.paths = .ok (List.replicate 7 (1 / 2, 1 / 2) :: limits (3 / 2) (-1 / 2)) := by
  refine ⟨_, rfl, ?_⟩
  simp only [Hexagon.paths, Hexagon.new, hc, if_true, Hexagon.center, pathUpper, pathLower, towards, plain, limits, List.replicate]
  norm_num

/-- C40: a factor of -1 leaves one point and limits half an amplitude away from 0 and 1. -/
theorem C40_minus_one_decagon (m : Decagon) (hc : m.converted = true) :
    ∃ m', m.adjust (-1) = .ok m' ∧ m'.paths = .ok (List.replicate 11 (1 / 2, 1 / 2) :: limits (3 / 2) (-1 / 2)) := by
  refine ⟨_, rfl, ?_⟩
  simp only [Decagon.paths, Decagon.new, hc, if_true, Decagon.center, pathUpper, pathLower, towards, plain, limits, List.replicate]
  norm_num

/-- The mask for a positive factor. -/
def hexPos (m : Hexagon) (f : ℚ) : Hexagon :=
  ⟨plain ((1 - f) * m.x1.v), plain (proportional ((1 - f) * m.x1.v) m.x2.v m.x1.v), plain ((1 - f) * m.y1.v), plain ((1 - f) * m.yl.v),
    plain ((1 - f) * m.yu.v), m.zeroRef, m.converted⟩

theorem hex_pos (m : Hexagon) (f : ℚ) (hf : f > 0) (hx : m.x1.v ≠ 1 / 2) : m.adjust f = .ok (hexPos m f) := by
  unfold Hexagon.adjust
  rw [if_pos hf]
  simp only
  rw [if_neg (fun h => hx (by linarith))]
  rfl

/-- The mask for another factor. -/
def hexNeg (m : Hexagon) (f : ℚ) : Hexagon :=
  ⟨towards (-f) m.x1, towards (-f) m.x2, towards (-f) m.y1, towards (-f) m.yl, towards (-f) m.yu, m.zeroRef, m.converted⟩

theorem hex_neg (m : Hexagon) (f : ℚ) (hf : ¬ f > 0) : m.adjust f = .ok (hexNeg m f) := by
  unfold Hexagon.adjust
  rw [if_neg hf]
  rfl

/-- The mask for a positive factor. -/
def decPos (m : Decagon) (f : ℚ) : Decagon :=
  ⟨plain ((1 - f) * m.x1.v), plain (proportional ((1 - f) * m.x1.v) m.x2.v m.x1.v), plain (proportional ((1 - f) * m.x1.v) m.x3.v m.x1.v),
    plain ((1 - f) * m.y1.v), plain (proportional ((1 - f) * m.y1.v) m.y2.v m.y1.v), plain ((1 - f) * m.yl.v),
    plain ((1 - f) * m.yu.v), m.zeroRef, m.converted⟩

theorem dec_pos (m : Decagon) (f : ℚ) (hf : f > 0) (hx : m.x1.v ≠ 1 / 2) (hy : m.y1.v ≠ 1 / 2) : m.adjust f = .ok (decPos m f) := by
  unfold Decagon.adjust
  rw [if_pos hf]
  simp only
  rw [if_neg (by rintro (h | h); exacts [hx (by linarith), hy (by linarith)])]
  rfl

/-- The mask for another factor. -/
def decNeg (m : Decagon) (f : ℚ) : Decagon :=
  ⟨towards (-f) m.x1, towards (-f) m.x2, towards (-f) m.x3, towards (-f) m.y1, towards (-f) m.y2, towards (-f) m.yl, towards (-f) m.yu,
    m.zeroRef, m.converted⟩

theorem dec_neg (m : Decagon) (f : ℚ) (hf : ¬ f > 0) : m.adjust f = .ok (decNeg m f) := by
  unfold Decagon.adjust
  rw [if_neg hf]
  rfl

/-- C40: with a factor of 1 there are no gaps: the polygon reaches from 0 to 1 in both directions and the limits are 1 and 0. -/
theorem C40_one_hexagon (m : Hexagon) (hc : m.converted = true) (hx : m.x1.v ≠ 1 / 2) :
    ∃ m' x, m.adjust 1 = .ok m' ∧ m'.paths = .ok (hexShape 0 x 1 0 :: limits 1 0) := by
  refine ⟨hexPos m 1, 1 / 2 - 1 / 2 * (1 / 2 - m.x2.v) / (1 / 2 - m.x1.v), hex_pos m 1 (by norm_num) hx, ?_⟩
  simp only [Hexagon.paths, hexPos, hc, if_true, Hexagon.center, pathUpper, pathLower, plain, limits, hexShape, proportional]
  norm_num

/-- C40: with a factor of 1 there are no gaps. -/
theorem C40_one_decagon (m : Decagon) (hc : m.converted = true) (hx : m.x1.v ≠ 1 / 2) (hy : m.y1.v ≠ 1 / 2) :
    ∃ m' x2 x3 y2, m.adjust 1 = .ok m' ∧ m'.paths = .ok (decShape 0 x2 x3 1 (1 - y2) 0 y2 :: limits 1 0) := by
  refine ⟨decPos m 1, 1 / 2 - 1 / 2 * (1 / 2 - m.x2.v) / (1 / 2 - m.x1.v), 1 / 2 - 1 / 2 * (1 / 2 - m.x3.v) / (1 / 2 - m.x1.v),
    1 / 2 - 1 / 2 * (1 / 2 - m.y2.v) / (1 / 2 - m.y1.v), dec_pos m 1 (by norm_num) hx hy, ?_⟩
  simp only [Decagon.paths, decPos, hc, if_true, Decagon.center, pathUpper, pathLower, plain, limits, decShape, proportional]
  norm_num

/-- The factor by which a distance `d = ½ - v` from the middle grows. -/
def grow (v f : ℚ) : ℚ := if f > 0 then (1 / 2 - (1 - f) * v) / (1 / 2 - v) else 1 + f

theorem grow_mono (v : ℚ) (h0 : 0 ≤ v) (h1 : v < 1 / 2) (f g : ℚ) (hfg : f ≤ g) : grow v f ≤ grow v g := by
  have hd : 0 < 1 / 2 - v := by linarith
  have key : ∀ x, (1 / 2 - (1 - x) * v) / (1 / 2 - v) = 1 + x * (v / (1 / 2 - v)) := by
    intro x
    rw [div_eq_iff hd.ne', add_mul, mul_assoc, div_mul_cancel₀ _ hd.ne']
    ring
  have hq : 0 ≤ v / (1 / 2 - v) := div_nonneg h0 hd.le
  unfold grow
  rw [key, key]
  split <;> split
  · have := mul_le_mul_of_nonneg_right hfg hq; linarith
  · linarith
  · have := mul_nonneg (by linarith : 0 ≤ g) hq; linarith
  · linarith

theorem grow_bounds (v : ℚ) (h0 : 0 ≤ v) (h1 : v < 1 / 2) (f : ℚ) (hf : -1 ≤ f) : 0 ≤ grow v f ∧ (f ≤ 1 → grow v f * (1 / 2 - v) ≤ 1 / 2) := by
  have hd : 0 < 1 / 2 - v := by linarith
  constructor
  · have := grow_mono v h0 h1 (-1) f hf
    have e : grow v (-1) = 0 := by unfold grow; norm_num
    linarith
  · intro h
    have := grow_mono v h0 h1 f 1 h
    have e : grow v 1 = (1 / 2) / (1 / 2 - v) := by unfold grow; norm_num
    rw [e, le_div_iff₀ hd] at this
    exact this

/-- Both coordinates of a corner on the level of `v`. -/
theorem prop_grow (v w f : ℚ) (hf : f > 0) : proportional ((1 - f) * v) w v = 1 / 2 + grow v f * (w - 1 / 2) := by
  unfold proportional grow
  rw [if_pos hf]
  ring

theorem self_grow (v f : ℚ) (hv : v ≠ 1 / 2) (hf : f > 0) : (1 - f) * v = 1 / 2 + grow v f * (v - 1 / 2) := by
  have h : (1 : ℚ) / 2 - v ≠ 0 := fun h => hv (by linarith)
  unfold grow
  rw [if_pos hf, ← neg_sub (1 / 2) v, mul_neg, div_mul_cancel₀ _ h]
  ring

theorem towards_grow (v f : ℚ) (q : Qty) (hf : ¬ f > 0) : (towards (-f) q).v = 1 / 2 + grow v f * (q.v - 1 / 2) := by
  unfold towards grow plain
  rw [if_neg hf]
  ring

/-- C40: the polygon keeps its proportions: every corner moves away from the middle by the same factors, which are equal for
factors up to 0, 1 for a factor of 0, and do not decrease with the factor. -/
theorem C40_proportions_hexagon (m : Hexagon) (hx0 : 0 ≤ m.x1.v) (hx : m.x1.v < 1 / 2) (hy0 : 0 ≤ m.y1.v) (hy : m.y1.v < 1 / 2) :
    ∃ sx sy : ℚ → ℚ, (∀ f g, f ≤ g → sx f ≤ sx g ∧ sy f ≤ sy g) ∧ (∀ f ≤ 0, sx f = 1 + f ∧ sy f = 1 + f) ∧
      ∀ f, ∃ m', m.adjust f = .ok m' ∧ m'.center = m.center.map (spread (sx f) (sy f)) := by
  refine ⟨grow m.x1.v, grow m.y1.v, fun f g h => ⟨grow_mono _ hx0 hx _ _ h, grow_mono _ hy0 hy _ _ h⟩, ?_, ?_⟩
  · intro f hf
    unfold grow
    rw [if_neg (not_lt.2 hf), if_neg (not_lt.2 hf)]
    simp
  · intro f
    by_cases hf : f > 0
    · refine ⟨_, hex_pos m f hf hx.ne, ?_⟩
      simp only [Hexagon.center, hexPos, plain, List.map, spread, prop_grow _ _ _ hf]
      rw [self_grow _ _ hx.ne hf, self_grow _ _ hy.ne hf]
      simp only [List.cons.injEq, Prod.mk.injEq, and_true]
      repeat' apply And.intro
      all_goals first | trivial | ring1
    · refine ⟨_, hex_neg m f hf, ?_⟩
      simp only [Hexagon.center, hexNeg, List.map, spread]
      rw [towards_grow m.x1.v _ m.x1 hf, towards_grow m.x1.v _ m.x2 hf, towards_grow m.y1.v _ m.y1 hf]
      simp only [List.cons.injEq, Prod.mk.injEq, and_true]
      repeat' apply And.intro
      all_goals first | trivial | ring1

/-- C40: the same for the decagon. -/
theorem C40_proportions_decagon (m : Decagon) (hx0 : 0 ≤ m.x1.v) (hx : m.x1.v < 1 / 2) (hy0 : 0 ≤ m.y1.v) (hy : m.y1.v < 1 / 2) :
    ∃ sx sy : ℚ → ℚ, (∀ f g, f ≤ g → sx f ≤ sx g ∧ sy f ≤ sy g) ∧ (∀ f ≤ 0, sx f = 1 + f ∧ sy f = 1 + f) ∧
      ∀ f, ∃ m', m.adjust f = .ok m' ∧ m'.center = m.center.map (spread (sx f) (sy f)) := by
  refine ⟨grow m.x1.v, grow m.y1.v, fun f g h => ⟨grow_mono _ hx0 hx _ _ h, grow_mono _ hy0 hy _ _ h⟩, ?_, ?_⟩
  · intro f hf
    unfold grow
    rw [if_neg (not_lt.2 hf), if_neg (not_lt.2 hf)]
    simp
  · intro f
    by_cases hf : f > 0
    · refine ⟨_, dec_pos m f hf hx.ne hy.ne, ?_⟩
      simp only [Decagon.center, decPos, plain, List.map, spread, prop_grow _ _ _ hf]
      rw [self_grow _ _ hx.ne hf, self_grow _ _ hy.ne hf]
      simp only [List.cons.injEq, Prod.mk.injEq, and_true]
      repeat' apply And.intro
      all_goals first | trivial | ring1
    · refine ⟨_, dec_neg m f hf, ?_⟩
      simp only [Decagon.center, decNeg, List.map, spread]
      rw [towards_grow m.x1.v _ m.x1 hf, towards_grow m.x1.v _ m.x2 hf, towards_grow m.x1.v _ m.x3 hf,
        towards_grow m.y1.v _ m.y1 hf, towards_grow m.y1.v _ m.y2 hf]
      simp only [List.cons.injEq, Prod.mk.injEq, and_true]
      repeat' apply And.intro
      all_goals first | trivial | ring1

/-! The polygon grows. -/

theorem mid_mem (S : Set Pt) (hS : Convex ℚ S) (X Y x : ℚ) (h1 : (1 / 2 + X, Y) ∈ S) (h2 : (1 / 2 - X, Y) ∈ S) (hx : |x| ≤ X) :
    (1 / 2 + x, Y) ∈ S := by
  rw [abs_le] at hx
  rcases eq_or_lt_of_le (by linarith : (0 : ℚ) ≤ X) with h0 | h0
  · have : x = X := by linarith [hx.1, hx.2]
    rw [this]; exact h1
  · have := hS h1 h2 (a := (X + x) / (2 * X)) (b := (X - x) / (2 * X)) (div_nonneg (by linarith) (by linarith))
      (div_nonneg (by linarith) (by linarith)) (by field_simp; ring)
    convert this using 1
    ext
    · simp only [Prod.smul_mk, Prod.mk_add_mk, smul_eq_mul]; field_simp; ring
    · simp only [Prod.smul_mk, Prod.mk_add_mk, smul_eq_mul]; field_simp; ring

theorem mid_mem' (S : Set Pt) (hS : Convex ℚ S) (X Y y : ℚ) (h1 : (X, 1 / 2 + Y) ∈ S) (h2 : (X, 1 / 2 - Y) ∈ S) (hy : |y| ≤ Y) :
    (X, 1 / 2 + y) ∈ S := by
  rw [abs_le] at hy
  rcases eq_or_lt_of_le (by linarith : (0 : ℚ) ≤ Y) with h0 | h0
  · have : y = Y := by linarith [hy.1, hy.2]
    rw [this]; exact h1
  · have := hS h1 h2 (a := (Y + y) / (2 * Y)) (b := (Y - y) / (2 * Y)) (div_nonneg (by linarith) (by linarith))
      (div_nonneg (by linarith) (by linarith)) (by field_simp; ring)
    convert this using 1
    ext
    · simp only [Prod.smul_mk, Prod.mk_add_mk, smul_eq_mul]; field_simp; ring
    · simp only [Prod.smul_mk, Prod.mk_add_mk, smul_eq_mul]; field_simp; ring

/-- A list of corners that is symmetric about the middle in both directions. -/
def Symmetric (l : List Pt) : Prop := ∀ p ∈ l, (1 - p.1, p.2) ∈ l ∧ (p.1, 1 - p.2) ∈ l

theorem spread_symmetric (l : List Pt) (h : Symmetric l) (sx sy : ℚ) : Symmetric (l.map (spread sx sy)) := by
  intro p hp
  obtain ⟨q, hq, rfl⟩ := List.mem_map.1 hp
  obtain ⟨h1, h2⟩ := h q hq
  refine ⟨List.mem_map.2 ⟨_, h1, ?_⟩, List.mem_map.2 ⟨_, h2, ?_⟩⟩
  · simp only [spread, Prod.mk.injEq, and_true]; ring
  · simp only [spread, Prod.mk.injEq, true_and]; ring

theorem hull_grows (l : List Pt) (h : Symmetric l) (sx sy tx ty : ℚ) (hs : 0 ≤ sx) (hs' : 0 ≤ sy) (hx : sx ≤ tx) (hy : sy ≤ ty) :
    hull (l.map (spread sx sy)) ⊆ hull (l.map (spread tx ty)) := by
  apply convexHull_min _ (convex_convexHull _ _)
  intro p hp
  obtain ⟨q, hq, rfl⟩ := List.mem_map.1 hp
  have hc := convex_convexHull ℚ {p | p ∈ l.map (spread tx ty)}
  have hsy := spread_symmetric l h tx ty
  have hm : spread tx ty q ∈ l.map (spread tx ty) := List.mem_map.2 ⟨q, hq, rfl⟩
  have corner : ∀ z : Pt, z ∈ l.map (spread tx ty) → z ∈ hull (l.map (spread tx ty)) := fun z hz => subset_convexHull ℚ _ hz
  set u := q.1 - 1 / 2 with hu
  set v := q.2 - 1 / 2 with hv
  have c1 : (1 / 2 + tx * u, 1 / 2 + ty * v) ∈ l.map (spread tx ty) := hm
  have c2 : (1 / 2 - tx * u, 1 / 2 + ty * v) ∈ l.map (spread tx ty) := by
    have := (hsy _ c1).1
    rwa [show (1 : ℚ) - (1 / 2 + tx * u) = 1 / 2 - tx * u by ring] at this
  have c3 : (1 / 2 + tx * u, 1 / 2 - ty * v) ∈ l.map (spread tx ty) := by
    have := (hsy _ c1).2
    rwa [show (1 : ℚ) - (1 / 2 + ty * v) = 1 / 2 - ty * v by ring] at this
  have c4 : (1 / 2 - tx * u, 1 / 2 - ty * v) ∈ l.map (spread tx ty) := by
    have := (hsy _ c3).1
    rwa [show (1 : ℚ) - (1 / 2 + tx * u) = 1 / 2 - tx * u by ring] at this
  have bx : |sx * u| ≤ |tx * u| := by
    rw [abs_mul, abs_mul, abs_of_nonneg hs, abs_of_nonneg (hs.trans hx)]
    exact mul_le_mul_of_nonneg_right hx (abs_nonneg _)
  have by' : |sy * v| ≤ |ty * v| := by
    rw [abs_mul, abs_mul, abs_of_nonneg hs', abs_of_nonneg (hs'.trans hy)]
    exact mul_le_mul_of_nonneg_right hy (abs_nonneg _)
  change (1 / 2 + sx * u, 1 / 2 + sy * v) ∈ hull _
  have row : ∀ Y, (1 / 2 + tx * u, Y) ∈ hull (l.map (spread tx ty)) → (1 / 2 - tx * u, Y) ∈ hull (l.map (spread tx ty)) →
      (1 / 2 + sx * u, Y) ∈ hull (l.map (spread tx ty)) := by
    intro Y a b
    rcases abs_cases (tx * u) with ⟨e, -⟩ | ⟨e, -⟩
    · exact mid_mem _ hc (tx * u) Y _ a b (by rw [← e]; exact bx)
    · refine mid_mem _ hc (-(tx * u)) Y _ ?_ ?_ (by rw [← e]; exact bx)
      · rwa [← sub_eq_add_neg]
      · rwa [sub_neg_eq_add]
  have a1 := row _ (corner _ c1) (corner _ c2)
  have a2 := row _ (corner _ c3) (corner _ c4)
  rcases abs_cases (ty * v) with ⟨e, -⟩ | ⟨e, -⟩
  · exact mid_mem' _ hc _ (ty * v) _ a1 a2 (by rw [← e]; exact by')
  · refine mid_mem' _ hc _ (-(ty * v)) _ ?_ ?_ (by rw [← e]; exact by')
    · rwa [← sub_eq_add_neg]
    · rwa [sub_neg_eq_add]

theorem hex_symmetric (m : Hexagon) : Symmetric m.center := by
  intro p hp
  simp only [Hexagon.center, List.mem_cons, List.not_mem_nil, or_false] at hp ⊢
  rcases hp with rfl | rfl | rfl | rfl | rfl | rfl | rfl <;> norm_num

theorem dec_symmetric (m : Decagon) : Symmetric m.center := by
  intro p hp
  simp only [Decagon.center, List.mem_cons, List.not_mem_nil, or_false] at hp ⊢
  rcases hp with rfl | rfl | rfl | rfl | rfl | rfl | rfl | rfl | rfl | rfl | rfl <;> norm_num

/-- C40: the polygon grows with the factor, as a set of points. -/
theorem C40_grows_hexagon (m : Hexagon) (hx0 : 0 ≤ m.x1.v) (hx : m.x1.v < 1 / 2) (hy0 : 0 ≤ m.y1.v) (hy : m.y1.v < 1 / 2)
    (f g : ℚ) (hf : -1 ≤ f) (hfg : f ≤ g) :
    ∃ mf mg, m.adjust f = .ok mf ∧ m.adjust g = .ok mg ∧ hull mf.center ⊆ hull mg.center := by
  obtain ⟨sx, sy, h1, h2, h3⟩ := C40_proportions_hexagon m hx0 hx hy0 hy
  obtain ⟨mf, e1, e2⟩ := h3 f
  obtain ⟨mg, e3, e4⟩ := h3 g
  refine ⟨mf, mg, e1, e3, ?_⟩
  rw [e2, e4]
  have h0 := h2 (-1) (by norm_num)
  have h4 := h1 _ _ hf
  exact hull_grows _ (hex_symmetric m) _ _ _ _ (by linarith [h0.1, h4.1]) (by linarith [h0.2, h4.2]) (h1 _ _ hfg).1 (h1 _ _ hfg).2

/-- C40: the polygon grows with the factor, as a set of points. -/
theorem C40_grows_decagon (m : Decagon) (hx0 : 0 ≤ m.x1.v) (hx : m.x1.v < 1 / 2) (hy0 : 0 ≤ m.y1.v) (hy : m.y1.v < 1 / 2)
    (f g : ℚ) (hf : -1 ≤ f) (hfg : f ≤ g) :
    ∃ mf mg, m.adjust f = .ok mf ∧ m.adjust g = .ok mg ∧ hull mf.center ⊆ hull mg.center := by
  obtain ⟨sx, sy, h1, h2, h3⟩ := C40_proportions_decagon m hx0 hx hy0 hy
  obtain ⟨mf, e1, e2⟩ := h3 f
  obtain ⟨mg, e3, e4⟩ := h3 g
  refine ⟨mf, mg, e1, e3, ?_⟩
  rw [e2, e4]
  have h0 := h2 (-1) (by norm_num)
  have h4 := h1 _ _ hf
  exact hull_grows _ (dec_symmetric m) _ _ _ _ (by linarith [h0.1, h4.1]) (by linarith [h0.2, h4.2]) (h1 _ _ hfg).1 (h1 _ _ hfg).2

theorem limit_mono (q : Qty) (h0 : 0 ≤ q.v) (h1 : q.v ≤ 1 / 2) (f g : ℚ) (hf : -1 ≤ f) (hfg : f ≤ g) (hg : g ≤ 1) :
    0 ≤ (if g > 0 then plain ((1 - g) * q.v) else towards (-g) q).v ∧
    (if g > 0 then plain ((1 - g) * q.v) else towards (-g) q).v ≤ (if f > 0 then plain ((1 - f) * q.v) else towards (-f) q).v ∧
    (if f > 0 then plain ((1 - f) * q.v) else towards (-f) q).v ≤ 1 / 2 := by
  unfold towards plain
  split <;> split <;> simp only <;> refine ⟨?_, ?_, ?_⟩ <;> nlinarith

/-- C40: the limits come closer with the factor, for distances up to half an amplitude. -/
theorem C40_limits_hexagon (m : Hexagon) (hx : m.x1.v ≠ 1 / 2) (hu : 0 ≤ m.yu.v ∧ m.yu.v ≤ 1 / 2) (hl : 0 ≤ m.yl.v ∧ m.yl.v ≤ 1 / 2)
    (f g : ℚ) (hf : -1 ≤ f) (hfg : f ≤ g) (hg : g ≤ 1) :
    ∃ mf mg, m.adjust f = .ok mf ∧ m.adjust g = .ok mg ∧
      (0 ≤ mg.yu.v ∧ mg.yu.v ≤ mf.yu.v ∧ mf.yu.v ≤ 1 / 2) ∧ (0 ≤ mg.yl.v ∧ mg.yl.v ≤ mf.yl.v ∧ mf.yl.v ≤ 1 / 2) := by
  have e : ∀ x, m.adjust x = .ok (if x > 0 then hexPos m x else hexNeg m x) := by
    intro x
    split
    · exact hex_pos m x ‹_› hx
    · exact hex_neg m x ‹_›
  refine ⟨_, _, e f, e g, ?_, ?_⟩
  · have p : ∀ x, (if x > 0 then hexPos m x else hexNeg m x).yu = if x > 0 then plain ((1 - x) * m.yu.v) else towards (-x) m.yu := by
      intro x
      split <;> rfl
    rw [p, p]
    exact limit_mono m.yu hu.1 hu.2 f g hf hfg hg
  · have p : ∀ x, (if x > 0 then hexPos m x else hexNeg m x).yl = if x > 0 then plain ((1 - x) * m.yl.v) else towards (-x) m.yl := by
      intro x
      split <;> rfl
    rw [p, p]
    exact limit_mono m.yl hl.1 hl.2 f g hf hfg hg

/-- C40: the limits come closer with the factor, for distances up to half an amplitude. -/
theorem C40_limits_decagon (m : Decagon) (hx : m.x1.v ≠ 1 / 2) (hy : m.y1.v ≠ 1 / 2) (hu : 0 ≤ m.yu.v ∧ m.yu.v ≤ 1 / 2)
    (hl : 0 ≤ m.yl.v ∧ m.yl.v ≤ 1 / 2) (f g : ℚ) (hf : -1 ≤ f) (hfg : f ≤ g) (hg : g ≤ 1) :
    ∃ mf mg, m.adjust f = .ok mf ∧ m.adjust g = .ok mg ∧
      (0 ≤ mg.yu.v ∧ mg.yu.v ≤ mf.yu.v ∧ mf.yu.v ≤ 1 / 2) ∧ (0 ≤ mg.yl.v ∧ mg.yl.v ≤ mf.yl.v ∧ mf.yl.v ≤ 1 / 2) := by
  have e : ∀ x, m.adjust x = .ok (if x > 0 then decPos m x else decNeg m x) := by
    intro x
    split
    · exact dec_pos m x ‹_› hx hy
    · exact dec_neg m x ‹_›
  refine ⟨_, _, e f, e g, ?_, ?_⟩
  · have p : ∀ x, (if x > 0 then decPos m x else decNeg m x).yu = if x > 0 then plain ((1 - x) * m.yu.v) else towards (-x) m.yu := by
      intro x
      split <;> rfl
    rw [p, p]
    exact limit_mono m.yu hu.1 hu.2 f g hf hfg hg
  · have p : ∀ x, (if x > 0 then decPos m x else decNeg m x).yl = if x > 0 then plain ((1 - x) * m.yl.v) else towards (-x) m.yl := by
      intro x
      split <;> rfl
    rw [p, p]
    exact limit_mono m.yl hl.1 hl.2 f g hf hfg hg

/-- `exHex` after its conversion. -/
def exPlain : Hexagon := ⟨plain (1 / 10), plain (3 / 10), plain (7 / 20), plain (1 / 4), plain (1 / 4), false, true⟩

/-- `exDecagon` after its conversion. -/
def exPlainD : Decagon :=
  ⟨plain (1/10), plain (1/5), plain (3/10), plain (1/4), plain (3/10), plain (1/4), plain (1/4), true, true⟩

/-- The hypotheses of the C40 theorems are met. -/
example : exPlain.adjust 0 = .ok exPlain ∧ exPlainD.adjust 0 = .ok exPlainD :=
  ⟨C40_zero_hexagon _ ⟨rfl, rfl, rfl, rfl, rfl⟩, C40_zero_decagon _ ⟨rfl, rfl, rfl, rfl, rfl, rfl, rfl⟩⟩

example : (∃ m' x, exPlain.adjust 1 = .ok m' ∧ m'.paths = .ok (hexShape 0 x 1 0 :: limits 1 0)) ∧
    (∃ m' x2 x3 y2, exPlainD.adjust 1 = .ok m' ∧ m'.paths = .ok (decShape 0 x2 x3 1 (1 - y2) 0 y2 :: limits 1 0)) :=
  ⟨C40_one_hexagon _ rfl (by norm_num [exPlain, plain]), C40_one_decagon _ rfl (by norm_num [exPlainD, plain]) (by norm_num [exPlainD, plain])⟩

example : (∃ mf mg, exPlain.adjust (-1 / 3) = .ok mf ∧ exPlain.adjust (1 / 2) = .ok mg ∧ hull mf.center ⊆ hull mg.center) ∧
    (∃ mf mg, exPlainD.adjust (-1 / 3) = .ok mf ∧ exPlainD.adjust (1 / 2) = .ok mg ∧ hull mf.center ⊆ hull mg.center) :=
  ⟨C40_grows_hexagon _ (by norm_num [exPlain, plain]) (by norm_num [exPlain, plain]) (by norm_num [exPlain, plain])
    (by norm_num [exPlain, plain]) _ _ (by norm_num) (by norm_num),
   C40_grows_decagon _ (by norm_num [exPlainD, plain]) (by norm_num [exPlainD, plain]) (by norm_num [exPlainD, plain])
    (by norm_num [exPlainD, plain]) _ _ (by norm_num) (by norm_num)⟩

/-- **C40 fails** before the conversion: an adjustment by 0 forgets the units. -/
theorem C40_units_fails : ∃ (m m0 a b : Hexagon) (ua ui : ℚ), m.adjust 0 = .ok m0 ∧ m.convert ua ui = .ok a ∧ m0.convert ua ui = .ok b ∧
    a.paths ≠ b.paths :=
  ⟨exHex, ⟨plain (1 / 10), plain (6 / 10), plain (3 / 10), plain (3 / 4), plain (3 / 4), false, false⟩,
    ⟨plain (1 / 10), plain (3 / 10), plain (7 / 20), plain (1 / 4), plain (1 / 4), false, true⟩,
    ⟨plain (1 / 10), plain (6 / 10), plain (2 / 10), plain (1 / 4), plain (1 / 4), false, true⟩, 2, 2, by decide +kernel,
    by decide +kernel, by decide +kernel, by decide +kernel⟩

end Verif.Props.Mask
