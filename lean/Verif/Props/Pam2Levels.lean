import Verif.Model.Pam2
import Mathlib.Tactic.Linarith
import Mathlib.Tactic.Ring
import Mathlib.Tactic.NormNum

/-!
Decision levels of the PAM2 eye diagram (C54) and their update after the vertical measurement (C61).
-/

namespace Verif.Props.Pam2Levels

open Verif Verif.Pam2

set_option linter.unusedSectionVars false

variable {K : Type} [Field K] [LinearOrder K] [IsStrictOrderedRing K]

/-! ### Specification -/

/-- The level of a logical 0: the user's, else the measured one. -/
def low (c : LevelConfig K) (m : Level K × Level K) : K := c.y0.getD m.1.value

/-- The level of a logical 1: the user's, else the measured one. -/
def high (c : LevelConfig K) (m : Level K × Level K) : K := c.y1.getD m.2.value

/-- The hysteresis: the user's, else a fraction of the amplitude. -/
def hysteresis (c : LevelConfig K) (m : Level K × Level K) : K := c.hys.getD (c.hysUa * (high c m - low c m))

theorem start_low (c : LevelConfig K) (m : Level K × Level K) : c.y0.getD (startLevels c m).1.value = low c m := by
  unfold startLevels low
  rcases h0 : c.y0 with _ | a
  · simp
  · simp

theorem start_high (c : LevelConfig K) (m : Level K × Level K) : c.y1.getD (startLevels c m).2.value = high c m := by
  unfold startLevels high
  rcases h0 : c.y1 with _ | a
  · simp
  · simp

/-! ### C54 -/

/-- C54: the two thresholds lie around the decision level, which is the user's or midway between the levels, and are the hysteresis apart; the user's
levels replace measured ones. -/
theorem C54_thresholds (c : LevelConfig K) (m : Level K × Level K) (h : 0 ≤ hysteresis c m) :
    (levels c m).falling ≤ (levels c m).half ∧ (levels c m).half ≤ (levels c m).rising ∧
    (levels c m).rising - (levels c m).falling = hysteresis c m ∧
    (levels c m).half - (levels c m).falling = (levels c m).rising - (levels c m).half ∧
    (levels c m).half = c.yTh.getD ((low c m + high c m) / 2) ∧
    (levels c m).zero = low c m ∧ (levels c m).zero + (levels c m).ua = high c m := by
  have e : levels c m = ⟨low c m, high c m - low c m, c.yTh.getD ((low c m + high c m) / 2),
      c.yTh.getD ((low c m + high c m) / 2) + hysteresis c m / 2, c.yTh.getD ((low c m + high c m) / 2) - hysteresis c m / 2,
      (levels c m).lowSnr⟩ := by
    unfold levels hysteresis
    simp only [start_low, start_high]
    rcases c.hys with _ | x <;> rcases c.yTh with _ | y <;> simp only [Option.getD_none, Option.getD_some, add_comm (high c m)]
  rw [e]
  refine ⟨?_, ?_, ?_, ?_, rfl, rfl, ?_⟩
  · simp only; linarith
  · simp only; linarith
  · simp only; ring
  · simp only; ring
  · simp only; ring

/-- C54: with a measured level and noise, low signal to noise means that the amplitude is below twice the summed deviations. -/
theorem C54_snr_partial (c : LevelConfig K) (m : Level K × Level K) (h : c.y0 = none ∨ c.y1 = none)
    (hs : 0 < m.1.stddev + m.2.stddev) :
    (levels c m).lowSnr = true ↔ high c m - low c m < 2 * (m.1.stddev + m.2.stddev) := by
  have e : (levels c m).lowSnr = if m.2.stddev + m.1.stddev = 0 then false
      else decide ((high c m - low c m) / (m.2.stddev + m.1.stddev) < 2) := by
    simp only [levels, start_low, start_high]
    simp only [startLevels, if_pos h]
  have hs' : 0 < m.2.stddev + m.1.stddev := by linarith
  rw [e, if_neg hs'.ne', decide_eq_true_iff, div_lt_iff₀ hs', add_comm m.2.stddev]

/-- C54: without noise, or with both levels given, the signal to noise ratio is never low. -/
theorem C54_snr_off (c : LevelConfig K) (m : Level K × Level K)
    (h : (c.y0 ≠ none ∧ c.y1 ≠ none) ∨ m.1.stddev + m.2.stddev = 0) : (levels c m).lowSnr = false := by
  have : (startLevels c m).2.stddev + (startLevels c m).1.stddev = 0 := by
    unfold startLevels
    rcases h with ⟨h0, h1⟩ | h
    · rw [if_neg (by simp [h0, h1])]; simp
    · by_cases hc : c.y0 = none ∨ c.y1 = none
      · rw [if_pos hc, add_comm]; exact h
      · rw [if_neg hc]; simp
  simp only [levels, this, if_true]

/-- C54 does not hold for the signal to noise ratio in general: with both levels given, an inverted eye is not flagged although its amplitude is
below twice the (unmeasured) deviations, whatever they are. -/
theorem C54_snr_fails : ∃ (c : LevelConfig ℚ) (m : Level ℚ × Level ℚ),
    high c m - low c m < 2 * (m.1.stddev + m.2.stddev) ∧ (levels c m).lowSnr = false :=
  ⟨⟨some 1, some 0, none, none, 0⟩, (⟨0, 1⟩, ⟨0, 1⟩), by simp [high, low]; norm_num, by decide +kernel⟩

/-- A clock signal of 0 V and 3.3 V with measured noise, 10% hysteresis. -/
def exConfig : LevelConfig ℚ := ⟨none, none, none, none, 1 / 10⟩

/-- Its measured levels. -/
def exMeasured : Level ℚ × Level ℚ := (⟨0, 1 / 10⟩, ⟨33 / 10, 2 / 10⟩)

example : 0 ≤ hysteresis exConfig exMeasured := by decide +kernel
example : (levels exConfig exMeasured).rising = 1815 / 1000 := by decide +kernel
example : (exConfig.y0 = none ∨ exConfig.y1 = none) ∧ 0 < exMeasured.1.stddev + exMeasured.2.stddev := by decide +kernel
example : (levels exConfig exMeasured).lowSnr = false := by decide +kernel
example : (levels { exConfig with y1 := some (1 / 2) } exMeasured).lowSnr = true := by decide +kernel

/-! ### C61 -/

/-- C61: after the measurement the levels are the user's or the measured ones, and the decision level is midway unless given - unless the level
of a 0 is given and that of a 1 is not. -/
theorem C61_update_partial (c : LevelConfig K) (m : Level K × Level K) (m0 m1 : K) (h : c.y0 = none ∨ c.y1 ≠ none) :
    let l := updateLevels c m0 m1 (levels c m)
    l.zero = c.y0.getD m0 ∧ l.zero + l.ua = c.y1.getD m1 ∧ l.half = c.yTh.getD ((c.y0.getD m0 + c.y1.getD m1) / 2) ∧
    l.rising = (levels c m).rising ∧ l.falling = (levels c m).falling ∧ l.lowSnr = (levels c m).lowSnr := by
  have hz : ∀ y, c.y0 = some y → (levels c m).zero = y := by
    intro y hy; simp [levels, hy]
  have ht : ∀ y, c.yTh = some y → (levels c m).half = y := by
    intro y hy; simp [levels, hy]
  intro l
  have e : l = updateLevels c m0 m1 (levels c m) := rfl
  unfold updateLevels at e
  rcases h0 : c.y0 with _ | a <;> rcases h1 : c.y1 with _ | b <;> rcases hth : c.yTh with _ | t <;> simp only [h0, h1, hth] at e <;>
    first | (exfalso; simp [h0, h1] at h; done) | skip
  all_goals
    rw [e]
    simp only [Option.getD_none, Option.getD_some]
    refine ⟨?_, ?_, ?_, ?_, ?_, ?_⟩ <;> first | trivial | rfl | (exact hz _ h0) | (exact ht _ hth) | (rw [hz _ h0]; ring1) | ring1

/-- C61 fails if only the level of a 0 is given: the amplitude is then that of the measured levels, so that the level of a 1 is off by
the difference between the given and the measured level of a 0. -/
theorem C61_manual_low_fails (m : Level K × Level K) (c : LevelConfig K) (y m0 m1 : K) (h0 : c.y0 = some y) (h1 : c.y1 = none) :
    (updateLevels c m0 m1 (levels c m)).zero + (updateLevels c m0 m1 (levels c m)).ua = m1 + (y - m0) := by
  have hz : (levels c m).zero = y := by simp [levels, h0]
  simp only [updateLevels, h0, h1, hz]
  ring

example : (exConfig.y0 = none ∨ exConfig.y1 ≠ none) := by decide +kernel
example : (updateLevels { exConfig with y0 := some (1 / 5) } 0 3 (levels { exConfig with y0 := some (1 / 5) } exMeasured)).zero +
    (updateLevels { exConfig with y0 := some (1 / 5) } 0 3 (levels { exConfig with y0 := some (1 / 5) } exMeasured)).ua = 16 / 5 := by
  decide +kernel

end Verif.Props.Pam2Levels
