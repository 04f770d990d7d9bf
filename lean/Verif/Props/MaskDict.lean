import Verif.Model.MaskDict
import Verif.Props.Mask

/-!
C84: the dictionary of a mask.

Specification: `parameter d name` is the number stored under a name, and `shape d` the name of the shape.  `rebuildHexagon`, `rebuildDecagon`
make a mask from a dictionary the way a user does: `MaskHexagon(**parameters)`.
-/

namespace Verif.Props.MaskDict

open Verif Verif.Lines Verif.Mask

/-! ### Specification -/

/-- The entry of a dictionary. -/
def entry (d : Dict) (name : String) : Option Entry := (d.find? fun e => e.1 = name).map Prod.snd

/-- The number stored under a name. -/
def parameter (d : Dict) (name : String) : Option Qty :=
  match entry d name with
  | some (.number q) => some q
  | _ => none

/-- The stored shape. -/
def shape (d : Dict) : Option String :=
  match entry d "type" with
  | some (.text s) => some s
  | _ => none

/-- `MaskHexagon(x1=d["x1"], ...)` if the dictionary is one of a hexagon. -/
def rebuildHexagon (d : Dict) : Option Hexagon := do
  if shape d ≠ some "hexagon" then none
  let x1 ← parameter d "x1"
  let x2 ← parameter d "x2"
  let y1 ← parameter d "y1"
  let yl ← parameter d "yl"
  let yu ← parameter d "yu"
  return Hexagon.new x1 x2 y1 yl yu true

/-- `MaskDecagon(x1=d["x1"], ...)` if the dictionary is one of a decagon. -/
def rebuildDecagon (d : Dict) : Option Decagon := do
  if shape d ≠ some "decagon" then none
  let x1 ← parameter d "x1"
  let x2 ← parameter d "x2"
  let x3 ← parameter d "x3"
  let y1 ← parameter d "y1"
  let y2 ← parameter d "y2"
  let yl ← parameter d "yl"
  let yu ← parameter d "yu"
  return Decagon.new x1 x2 x3 y1 y2 yl yu true

/-! ### What is stored -/

/-- C84: the dictionary of a hexagon holds its shape and its five parameters under their names, and nothing else. -/
theorem C84_stored_hexagon (m : Hexagon) :
    shape m.toDict = some "hexagon" ∧ parameter m.toDict "x1" = some m.x1 ∧ parameter m.toDict "x2" = some m.x2 ∧
      parameter m.toDict "y1" = some m.y1 ∧ parameter m.toDict "yl" = some m.yl ∧ parameter m.toDict "yu" = some m.yu ∧
      (m.toDict.map Prod.fst).Nodup ∧ m.toDict.length = 6 := by
  refine ⟨rfl, rfl, rfl, rfl, rfl, rfl, ?_, rfl⟩
  show ["type", "x1", "x2", "y1", "yl", "yu"].Nodup
  decide

/-- C84: the dictionary of a decagon holds its shape and its seven parameters under their names, and nothing else. -/
theorem C84_stored_decagon (m : Decagon) :
    shape m.toDict = some "decagon" ∧ parameter m.toDict "x1" = some m.x1 ∧ parameter m.toDict "x2" = some m.x2 ∧
      parameter m.toDict "x3" = some m.x3 ∧ parameter m.toDict "y1" = some m.y1 ∧ parameter m.toDict "y2" = some m.y2 ∧
      parameter m.toDict "yl" = some m.yl ∧ parameter m.toDict "yu" = some m.yu ∧ (m.toDict.map Prod.fst).Nodup ∧ m.toDict.length = 8 := by
  refine ⟨rfl, rfl, rfl, rfl, rfl, rfl, rfl, rfl, ?_, rfl⟩
  show ["type", "x1", "x2", "x3", "y1", "y2", "yl", "yu"].Nodup
  decide

/-! ### Rebuilding -/

theorem rebuilt_hexagon (m : Hexagon) : rebuildHexagon (viaJson m.toDict) =
    some (Hexagon.new (plain m.x1.v) (plain m.x2.v) (plain m.y1.v) (plain m.yl.v) (plain m.yu.v) true) := rfl

theorem rebuilt_decagon (m : Decagon) : rebuildDecagon (viaJson m.toDict) =
    some (Decagon.new (plain m.x1.v) (plain m.x2.v) (plain m.x3.v) (plain m.y1.v) (plain m.y2.v) (plain m.yl.v) (plain m.yu.v) true) := rfl

/-- C84: a hexagon rebuilt from the stored dictionary of a converted mask and converted with any units again has the same paths, also after
any adjustment. -/
theorem C84_rebuild_hexagon (m : Hexagon) (hc : m.converted = true) (ua ui : ℚ) :
    ∃ r r', rebuildHexagon (viaJson m.toDict) = some r ∧ r.convert ua ui = .ok r' ∧ r'.paths = m.paths ∧
      ∀ f, (r'.adjust f >>= fun a => a.paths) = (m.adjust f >>= fun a => a.paths) := by
  refine ⟨_, ⟨plain m.x1.v, plain m.x2.v, plain m.y1.v, plain m.yl.v, plain m.yu.v, true, true⟩, rebuilt_hexagon m, rfl, ?_, ?_⟩
  · simp only [Hexagon.paths, Hexagon.center, plain, hc]
  · intro f
    by_cases hf : f > 0
    · by_cases hx : 1 / 2 - m.x1.v = 0
      · have h1 : ∀ n : Hexagon, n.x1.v = m.x1.v → n.y1.v = m.y1.v → n.adjust f = .error .zeroDivision := by
          intro n e e'
          unfold Hexagon.adjust
          rw [if_pos hf]
          exact if_pos (by rw [e]; exact hx)
        rw [h1 m rfl rfl, h1 ⟨plain m.x1.v, plain m.x2.v, plain m.y1.v, plain m.yl.v, plain m.yu.v, true, true⟩ rfl rfl]
      · have h1 : ∀ n : Hexagon, n.x1.v = m.x1.v → n.y1.v = m.y1.v → n.adjust f = .ok (Mask.hexPos n f) := by
          intro n e e'
          unfold Hexagon.adjust
          rw [if_pos hf]
          exact if_neg (by rw [e]; exact hx)
        rw [h1 m rfl rfl, h1 ⟨plain m.x1.v, plain m.x2.v, plain m.y1.v, plain m.yl.v, plain m.yu.v, true, true⟩ rfl rfl]
        simp only [bind, Except.bind, Hexagon.paths, Mask.hexPos, Hexagon.center, plain, hc]
    · rw [Mask.hex_neg _ _ hf, Mask.hex_neg _ _ hf]
      simp only [bind, Except.bind, Hexagon.paths, Mask.hexNeg, Hexagon.center, plain, towards, hc]

/-- C84: a decagon rebuilt from the stored dictionary of a converted mask and converted with any units again has the same paths, also after
any adjustment. -/
theorem C84_rebuild_decagon (m : Decagon) (hc : m.converted = true) (ua ui : ℚ) :
    ∃ r r', rebuildDecagon (viaJson m.toDict) = some r ∧ r.convert ua ui = .ok r' ∧ r'.paths = m.paths ∧
      ∀ f, (r'.adjust f >>= fun a => a.paths) = (m.adjust f >>= fun a => a.paths) := by
  refine ⟨_, ⟨plain m.x1.v, plain m.x2.v, plain m.x3.v, plain m.y1.v, plain m.y2.v, plain m.yl.v, plain m.yu.v, true, true⟩, rebuilt_decagon m, rfl, ?_, ?_⟩
  · simp only [Decagon.paths, Decagon.center, plain, hc]
  · intro f
    by_cases hf : f > 0
    · by_cases hx : 1 / 2 - m.x1.v = 0 ∨ 1 / 2 - m.y1.v = 0
      · have h1 : ∀ n : Decagon, n.x1.v = m.x1.v → n.y1.v = m.y1.v → n.adjust f = .error .zeroDivision := by
          intro n e e'
          unfold Decagon.adjust
          rw [if_pos hf]
          exact if_pos (by rw [e, e']; exact hx)
        rw [h1 m rfl rfl, h1 ⟨plain m.x1.v, plain m.x2.v, plain m.x3.v, plain m.y1.v, plain m.y2.v, plain m.yl.v, plain m.yu.v, true, true⟩ rfl rfl]
      · have h1 : ∀ n : Decagon, n.x1.v = m.x1.v → n.y1.v = m.y1.v → n.adjust f = .ok (Mask.decPos n f) := by
          intro n e e'
          unfold Decagon.adjust
          rw [if_pos hf]
          exact if_neg (by rw [e, e']; exact hx)
        rw [h1 m rfl rfl, h1 ⟨plain m.x1.v, plain m.x2.v, plain m.x3.v, plain m.y1.v, plain m.y2.v, plain m.yl.v, plain m.yu.v, true, true⟩ rfl rfl]
        simp only [bind, Except.bind, Decagon.paths, Mask.decPos, Decagon.center, plain, hc]
    · rw [Mask.dec_neg _ _ hf, Mask.dec_neg _ _ hf]
      simp only [bind, Except.bind, Decagon.paths, Mask.decNeg, Decagon.center, plain, towards, hc]

/-- A mask with its usual reference and without real units. -/
def Usual (m : Hexagon) : Prop := m.zeroRef = true ∧ m.converted = false ∧ m.x1.real = false ∧ m.x2.real = false ∧ m.y1.real = false ∧
  m.yl.real = false ∧ m.yu.real = false

/-- A mask with its usual reference and without real units. -/
def UsualD (m : Decagon) : Prop := m.zeroRef = true ∧ m.converted = false ∧ m.x1.real = false ∧ m.x2.real = false ∧ m.x3.real = false ∧
  m.y1.real = false ∧ m.y2.real = false ∧ m.yl.real = false ∧ m.yu.real = false

/-- C84, only part of the claim: a new hexagon is rebuilt from its stored dictionary if it is given in normalised units and with the default
`zero_ref`.  Missing: other new masks (`C84_reference_fails`, `C84_units_fails`). -/
theorem C84_new_hexagon_partial (m : Hexagon) (h : Usual m) : rebuildHexagon (viaJson m.toDict) = some m := by
  obtain ⟨hz, hc, h1, h2, h3, h4, h5⟩ := h
  rw [rebuilt_hexagon, Mask.plain_eq _ h1, Mask.plain_eq _ h2, Mask.plain_eq _ h3, Mask.plain_eq _ h4, Mask.plain_eq _ h5]
  cases m
  simp only [Hexagon.new] at *
  rw [hz, hc]

/-- C84, only part of the claim: as for hexagons. -/
theorem C84_new_decagon_partial (m : Decagon) (h : UsualD m) : rebuildDecagon (viaJson m.toDict) = some m := by
  obtain ⟨hz, hc, h1, h2, h3, h4, h5, h6, h7⟩ := h
  rw [rebuilt_decagon, Mask.plain_eq _ h1, Mask.plain_eq _ h2, Mask.plain_eq _ h3, Mask.plain_eq _ h4, Mask.plain_eq _ h5,
    Mask.plain_eq _ h6, Mask.plain_eq _ h7]
  cases m
  simp only [Decagon.new] at *
  rw [hz, hc]

/-- C84: converted masks of the same shape with the same stored dictionary have the same paths, whatever they were made from. -/
theorem C84_determines_hexagon (m n : Hexagon) (hm : m.converted = true) (hn : n.converted = true)
    (h : viaJson m.toDict = viaJson n.toDict) : m.paths = n.paths := by
  obtain ⟨r, r', h1, h2, h3, -⟩ := C84_rebuild_hexagon m hm 1 1
  obtain ⟨s, s', k1, k2, k3, -⟩ := C84_rebuild_hexagon n hn 1 1
  rw [h, k1] at h1
  injection h1 with h1
  subst h1
  rw [k2] at h2
  injection h2 with h2
  rw [← h3, ← k3, h2]

/-- C84: converted masks of the same shape with the same stored dictionary have the same paths, whatever they were made from. -/
theorem C84_determines_decagon (m n : Decagon) (hm : m.converted = true) (hn : n.converted = true)
    (h : viaJson m.toDict = viaJson n.toDict) : m.paths = n.paths := by
  obtain ⟨r, r', h1, h2, h3, -⟩ := C84_rebuild_decagon m hm 1 1
  obtain ⟨s, s', k1, k2, k3, -⟩ := C84_rebuild_decagon n hn 1 1
  rw [h, k1] at h1
  injection h1 with h1
  subst h1
  rw [k2] at h2
  injection h2 with h2
  rw [← h3, ← k3, h2]

/-- C84: a hexagon is never taken for a decagon, nor the other way round. -/
theorem C84_shapes (m : Hexagon) (n : Decagon) : rebuildDecagon (viaJson m.toDict) = none ∧ rebuildHexagon (viaJson n.toDict) = none := ⟨rfl, rfl⟩

/-- C84: a mask class without its own dictionary stores its paths, and only once it is converted. -/
theorem C84_base (converted : Bool) (paths : List (List Pt)) :
    (converted = true → baseDict converted paths = .ok [("paths", paths)]) ∧
    (converted = false → baseDict converted paths = .error .valueError) := by
  constructor <;> rintro rfl <;> rfl

/-! ### What is lost -/

/-- C84 is false for new masks: the reference of the levels is not stored.  Two masks with the same dictionary, of which one forbids the
middle of the eye and the other one does not, the rebuilt mask being the other one. -/
theorem C84_reference_fails : ∃ (m r a b : Hexagon) (ua ui : ℚ), rebuildHexagon (viaJson m.toDict) = some r ∧ m.convert ua ui = .ok a ∧
    r.convert ua ui = .ok b ∧ a.paths ≠ b.paths := by
  refine ⟨Hexagon.new (plain (1 / 4)) (plain (3 / 8)) (plain (1 / 8)) (plain (3 / 4)) (plain (3 / 4)) false, _, _, _, 1, 1, rfl, rfl, rfl, ?_⟩
  decide +kernel

/-- C84 is false for new masks: the json file does not tell volts from fractions of the amplitude. -/
theorem C84_units_fails : ∃ (m r a b : Hexagon) (ua ui : ℚ), rebuildHexagon (viaJson m.toDict) = some r ∧ m.convert ua ui = .ok a ∧
    r.convert ua ui = .ok b ∧ a.paths ≠ b.paths := by
  refine ⟨Hexagon.new (plain (1 / 4)) (plain (3 / 8)) ⟨true, 1⟩ (plain (1 / 4)) (plain (1 / 4)) true, _, _, _, 4, 1, rfl, rfl, rfl, ?_⟩
  decide +kernel

/-! ### The hypotheses are met -/

/-- A hexagon in volts and with the other reference, once converted, meets the hypothesis of `C84_rebuild_hexagon`; two different ones have the
same dictionary. -/
example : ∃ (a b : Hexagon), (Hexagon.new (plain (1 / 4)) (plain (3 / 8)) ⟨true, 1⟩ (plain (3 / 4)) (plain (3 / 4)) false).convert 4 1 = .ok a ∧
    (Hexagon.new (plain (1 / 4)) ⟨true, 3⟩ (plain (1 / 4)) (plain (1 / 4)) (plain (1 / 4)) true).convert 5 8 = .ok b ∧
    a.converted = true ∧ b.converted = true ∧ a ≠ b ∧ viaJson a.toDict = viaJson b.toDict := by
  refine ⟨_, _, rfl, rfl, rfl, rfl, ?_, ?_⟩ <;> decide +kernel

/-- A converted decagon. -/
example : ∃ a b : Decagon,
    (Decagon.new (plain (1 / 4)) (plain (1 / 3)) (plain (2 / 5)) ⟨true, 1⟩ (plain (1 / 3)) (plain (1 / 4)) (plain (1 / 4)) true).convert 4 1 = .ok a ∧
    (Decagon.new (plain (1 / 4)) (plain (1 / 3)) ⟨true, 2⟩ (plain (1 / 4)) (plain (1 / 3)) ⟨true, 1⟩ (plain (1 / 4)) true).convert 4 5 = .ok b ∧
    a.converted = true ∧ b.converted = true ∧ viaJson a.toDict = viaJson b.toDict := by
  refine ⟨_, _, rfl, rfl, rfl, rfl, ?_⟩
  decide +kernel

/-- Usual masks. -/
example : Usual (Hexagon.new (plain (1 / 4)) (plain (3 / 8)) (plain (1 / 4)) (plain (1 / 4)) (plain (1 / 4)) true) ∧
    UsualD (Decagon.new (plain (1 / 4)) (plain (1 / 3)) (plain (2 / 5)) (plain (1 / 4)) (plain (1 / 3)) (plain (1 / 4)) (plain (1 / 4)) true) := by
  constructor <;> simp [Usual, UsualD, Hexagon.new, Decagon.new, plain]

end Verif.Props.MaskDict
