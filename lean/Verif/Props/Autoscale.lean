import Verif.Model.Autoscale
import Mathlib.Tactic.Linarith
import Mathlib.Tactic.Ring
import Mathlib.Tactic.FieldSimp
import Mathlib.Tactic.Positivity
import Mathlib.Tactic.LinearCombination
import Mathlib.Tactic.NormNum

/-!
C26 (autoscale is bounded and restores the record length) and C27 (autoscale re-centres and converges).
-/

namespace Verif.Props.Autoscale

open Verif Verif.Autoscale

/-! ### Specification -/

/-- Height on the screen of a sample: -1/2 is the lower clipping limit, 1/2 the upper one. -/
def height (a : Acq) (v : ℚ) : ℚ := (v - a.clipMin) / (a.clipMax - a.clipMin) - 1 / 2

/-- An acquisition that needs no change: the samples stay 5% away from the limits, they cover 75% to 85% of the screen
and they are centred within 10%. -/
def Settled (a : Acq) : Prop :=
  ∃ lo ∈ a.y.map (height a), ∃ hi ∈ a.y.map (height a),
    (∀ y ∈ a.y.map (height a), lo ≤ y ∧ y ≤ hi) ∧ -(45 / 100) ≤ lo ∧ hi ≤ 45 / 100 ∧
    75 / 100 ≤ hi - lo ∧ hi - lo ≤ 85 / 100 ∧ |(lo + hi) / 2| ≤ 1 / 10

/-! ### One acquisition -/

theorem foldl_min_spec (ys : List ℚ) : ∀ y : ℚ, ys.foldl min y ∈ y :: ys ∧ ∀ x ∈ y :: ys, ys.foldl min y ≤ x := by
  induction ys with
  | nil => intro y; simp
  | cons a ys ih =>
    intro y
    obtain ⟨h1, h2⟩ := ih (min y a)
    rw [List.foldl_cons]
    constructor
    · rcases List.mem_cons.1 h1 with h | h
      · rw [h]; rcases min_choice y a with e | e <;> rw [e] <;> simp
      · simp [h]
    · intro x hx
      have h0 := h2 (min y a) (by simp)
      rcases List.mem_cons.1 hx with rfl | hx
      · exact h0.trans (min_le_left _ _)
      · rcases List.mem_cons.1 hx with rfl | hx
        · exact h0.trans (min_le_right _ _)
        · exact h2 x (by simp [hx])

theorem foldl_max_spec (ys : List ℚ) : ∀ y : ℚ, ys.foldl max y ∈ y :: ys ∧ ∀ x ∈ y :: ys, x ≤ ys.foldl max y := by
  induction ys with
  | nil => intro y; simp
  | cons a ys ih =>
    intro y
    obtain ⟨h1, h2⟩ := ih (max y a)
    rw [List.foldl_cons]
    constructor
    · rcases List.mem_cons.1 h1 with h | h
      · rw [h]; rcases max_choice y a with e | e <;> rw [e] <;> simp
      · simp [h]
    · intro x hx
      have h0 := h2 (max y a) (by simp)
      rcases List.mem_cons.1 hx with rfl | hx
      · exact (le_max_left _ _).trans h0
      · rcases List.mem_cons.1 hx with rfl | hx
        · exact (le_max_right _ _).trans h0
        · exact h2 x (by simp [hx])

theorem minMax_spec (l : List ℚ) (h : l ≠ []) :
    ∃ lo hi, minMax l = .ok (lo, hi) ∧ lo ∈ l ∧ hi ∈ l ∧ ∀ x ∈ l, lo ≤ x ∧ x ≤ hi := by
  cases l with
  | nil => exact absurd rfl h
  | cons y ys =>
    refine ⟨_, _, rfl, (foldl_min_spec ys y).1, (foldl_max_spec ys y).1, fun x hx =>
      ⟨(foldl_min_spec ys y).2 x hx, (foldl_max_spec ys y).2 x hx⟩⟩

theorem minMax_eq (l : List ℚ) (lo hi : ℚ) (h1 : lo ∈ l) (h2 : hi ∈ l) (h : ∀ x ∈ l, lo ≤ x ∧ x ≤ hi) :
    minMax l = .ok (lo, hi) := by
  obtain ⟨a, b, e, h3, h4, h5⟩ := minMax_spec l (List.ne_nil_of_mem h1)
  rw [e, le_antisymm (h5 _ h1).1 (h _ h3).1, le_antisymm (h _ h4).2 (h5 _ h2).2]

/-- The decision leaves everything alone exactly for settled extremes. -/
theorem decision_none (n s p lo hi : ℚ) :
    decision n s p lo hi = none ↔
      (-(45 / 100) ≤ lo ∧ hi ≤ 45 / 100 ∧ 75 / 100 ≤ hi - lo ∧ hi - lo ≤ 85 / 100 ∧ |(lo + hi) / 2| ≤ 1 / 10) := by
  unfold decision
  simp only [Bool.or_eq_true, decide_eq_true_eq]
  rw [abs_le]
  constructor
  · intro h
    split_ifs at h with h1 h2 h3 h4 h5 h6 h7
    all_goals first
      | (push Not at *; refine ⟨by linarith, by linarith, by linarith, by linarith, by linarith, by linarith⟩)
  · rintro ⟨h1, h2, h3, h4, h5, h6⟩
    rw [if_neg (by linarith), if_neg (by linarith), if_neg (by linarith)]
    have hr : ¬ (hi - lo < 75 / 100 ∨ 85 / 100 < hi - lo) := by push Not; exact ⟨h3, h4⟩
    rw [if_neg hr, if_neg hr, if_neg]
    push Not
    exact ⟨h6, h5, rfl⟩

theorem adjust_ok (n s p : ℚ) (a : Acq) (h : a.y ≠ []) :
    ∃ lo ∈ a.y.map (height a), ∃ hi ∈ a.y.map (height a), (∀ y ∈ a.y.map (height a), lo ≤ y ∧ y ≤ hi) ∧
      adjust n s p a = .ok (decision n s p lo hi) := by
  obtain ⟨lo, hi, e, h1, h2, h3⟩ := minMax_spec (a.y.map (height a)) (by simpa using h)
  refine ⟨lo, h1, hi, h2, h3, ?_⟩
  unfold adjust
  rw [show screen a = height a from rfl, e]
  rfl

theorem adjust_none (n s p : ℚ) (a : Acq) (h : adjust n s p a = .ok none) : Settled a := by
  have hne : a.y ≠ [] := by
    intro hy
    unfold adjust at h
    rw [hy] at h
    simp [minMax, bind, Except.bind] at h
  obtain ⟨lo, h1, hi, h2, h3, e⟩ := adjust_ok n s p a hne
  rw [e] at h
  exact ⟨lo, h1, hi, h2, h3, (decision_none n s p lo hi).1 (Except.ok.inj h)⟩

theorem adjust_settled (n s p : ℚ) (a : Acq) (h : Settled a) : adjust n s p a = .ok none := by
  obtain ⟨lo, h1, hi, h2, h3, h4⟩ := h
  unfold adjust
  rw [show screen a = height a from rfl, minMax_eq _ lo hi h1 h2 h3]
  exact congrArg Except.ok ((decision_none n s p lo hi).2 h4)

/-! ### C26 -/

theorem loop_count (dev : Dev) : ∀ k log, (loop dev k log).2.count .acquire ≤ log.count .acquire + k := by
  intro k
  induction k with
  | zero => intro log; simp [loop]
  | succ k ih =>
    intro log
    rw [loop]
    split
    · simp
    · split
      · simp
      · simp
      · refine (ih _).trans ?_
        simp; omega

/-- **C26.** At most ten acquisitions, whatever the instrument does. -/
theorem C26_bounded (dev : Dev) (log : List Ev) :
    (autoscale dev log).2.count .acquire ≤ log.count .acquire + 10 := by
  have h := loop_count dev 10 (log ++ [.setPoints 1000000])
  unfold autoscale
  simp only
  split
  · rename_i e l' hl; rw [hl] at h; simpa using h
  · rename_i k l' hl
    rw [hl] at h
    have h' : (l' ++ [Ev.setPoints (dev.points log)]).count .acquire ≤ log.count .acquire + 10 := by simpa using h
    split <;> exact h'

theorem loop_suffix (dev : Dev) : ∀ k log, ∃ t, (loop dev k log).2 = log ++ t ∧ ∀ v, Ev.setPoints v ∉ t := by
  intro k
  induction k with
  | zero => intro log; exact ⟨[], by simp [loop]⟩
  | succ k ih =>
    intro log
    rw [loop]
    split
    · exact ⟨[.acquire], rfl, by simp⟩
    · split
      · exact ⟨[.acquire], rfl, by simp⟩
      · exact ⟨[.acquire], rfl, by simp⟩
      · rename_i s p _
        obtain ⟨t, e, h⟩ := ih (log ++ [.acquire] ++ [.setScale s] ++ [.setPosition p])
        refine ⟨[.acquire, .setScale s, .setPosition p] ++ t, by rw [e]; simp, ?_⟩
        intro v hv
        rcases List.mem_append.1 hv with h' | h'
        · simp at h'
        · exact h v h'

theorem loop_result (dev : Dev) (hacq : ∀ h, ∃ a, dev.acquire h = .ok a ∧ a.y ≠ []) :
    ∀ k log, ∃ j, (loop dev k log).1 = .ok j := by
  intro k
  induction k with
  | zero => intro log; exact ⟨0, rfl⟩
  | succ k ih =>
    intro log
    obtain ⟨a, ha, hy⟩ := hacq log
    obtain ⟨lo, -, hi, -, -, e⟩ := adjust_ok dev.nDiv (dev.scale log) (dev.position log) a hy
    rw [loop]
    simp only [ha, e]
    cases hd : decision dev.nDiv (dev.scale log) (dev.position log) lo hi with
    | none => exact ⟨k, rfl⟩
    | some q => exact ih _

/-- **C26 (partial).** When no acquisition raises, the record length read at the beginning is written back as the last
action, on a normal return and on a timeout; in between it is set once, to a million, and there are no other outcomes.
Missing: an exception during an acquisition (including a TimeoutError) leaves the record length changed
(`C26_restore_fails`). -/
theorem C26_restores_partial (dev : Dev) (hacq : ∀ h, ∃ a, dev.acquire h = .ok a ∧ a.y ≠ []) (log : List Ev) :
    ∃ t, (autoscale dev log).2 = log ++ [.setPoints 1000000] ++ t ++ [.setPoints (dev.points log)] ∧
      (∀ v, Ev.setPoints v ∉ t) ∧
      ((autoscale dev log).1 = .ok () ∨ (autoscale dev log).1 = .error .timeout) := by
  obtain ⟨j, hj⟩ := loop_result dev hacq 10 (log ++ [.setPoints 1000000])
  obtain ⟨t, ht, hv⟩ := loop_suffix dev 10 (log ++ [.setPoints 1000000])
  refine ⟨t, ?_, hv, ?_⟩
  · unfold autoscale
    simp only
    split
    · rename_i e l' hl; rw [hl] at hj; exact absurd hj (by simp)
    · rename_i k l' hl
      rw [hl] at ht
      subst ht
      split <;> rfl
  · unfold autoscale
    simp only
    split
    · rename_i e l' hl; rw [hl] at hj; exact absurd hj (by simp)
    · split
      · exact Or.inr rfl
      · exact Or.inl rfl

theorem loop_settled (dev : Dev) : ∀ k log j l, loop dev k log = (.ok j, l) → j ≠ 0 →
    ∃ h a, l = h ++ [.acquire] ∧ dev.acquire h = .ok a ∧ Settled a := by
  intro k
  induction k with
  | zero => intro log j l h hj; simp [loop] at h; exact absurd h.1.symm hj
  | succ k ih =>
    intro log j l h hj
    rw [loop] at h
    split at h
    · simp at h
    · rename_i a ha
      split at h
      · simp at h
      · rename_i hn
        simp only [Prod.mk.injEq] at h
        exact ⟨log, a, h.2.symm, ha, adjust_none _ _ _ a hn⟩
      · exact ih _ j l h hj

/-- **C26.** A normal return happens only right after an acquisition that needed no change: the last actions are that
acquisition and the restoring of the record length. -/
theorem C26_returns_settled (dev : Dev) (log : List Ev) (hok : (autoscale dev log).1 = .ok ()) :
    ∃ h a, (autoscale dev log).2 = h ++ [.acquire, .setPoints (dev.points log)] ∧ dev.acquire h = .ok a ∧
      Settled a := by
  unfold autoscale at hok ⊢
  simp only at hok ⊢
  split at hok
  · simp at hok
  · rename_i k l' hl
    split at hok
    · simp at hok
    · rename_i hk
      obtain ⟨h, a, e, h1, h2⟩ := loop_settled dev 10 _ k l' hl hk
      rw [if_neg hk]
      exact ⟨h, a, by rw [e]; simp, h1, h2⟩

/-- Number of adjustments made in a history. -/
def adjustments (l : List Ev) : ℕ := l.countP fun | .setScale _ => true | _ => false

theorem loop_timeout (dev : Dev) : ∀ k log l, loop dev (k + 1) log = (.ok 0, l) →
    l.count .acquire = log.count .acquire + (k + 1) ∧ adjustments log + k ≤ adjustments l := by
  intro k
  induction k with
  | zero =>
    intro log l h
    rw [loop] at h
    split at h
    · simp at h
    · split at h
      · simp at h
      · simp only [Prod.mk.injEq] at h; rw [← h.2]; simp [adjustments]
      · rw [loop] at h
        simp only [Prod.mk.injEq] at h; rw [← h.2]; simp [adjustments]
  | succ k ih =>
    intro log l h
    rw [loop] at h
    split at h
    · simp at h
    · split at h
      · simp at h
      · simp at h
      · obtain ⟨h1, h2⟩ := ih _ l h
        simp [adjustments] at h1 h2
        simp only [adjustments]
        omega

/-- **C26 (partial).** When no acquisition raises, a TimeoutError means that ten acquisitions were made and the first
nine of them at least all needed a change.  Missing: the tenth may have settled (`C26_timeout_fails`). -/
theorem C26_timeout_partial (dev : Dev) (hacq : ∀ h, ∃ a, dev.acquire h = .ok a ∧ a.y ≠ []) (log : List Ev)
    (herr : (autoscale dev log).1 = .error .timeout) :
    (autoscale dev log).2.count .acquire = log.count .acquire + 10 ∧
      adjustments log + 9 ≤ adjustments (autoscale dev log).2 := by
  obtain ⟨j, hj⟩ := loop_result dev hacq 10 (log ++ [.setPoints 1000000])
  unfold autoscale at herr ⊢
  simp only at herr ⊢
  split at herr
  · rename_i e l' hl; rw [hl] at hj; exact absurd hj (by simp)
  · rename_i k l' hl
    split at herr
    · rename_i hk
      subst hk
      obtain ⟨h1, h2⟩ := loop_timeout dev 9 _ l' hl
      rw [if_pos rfl]
      simp [adjustments] at h1 h2 ⊢
      omega
    · simp at herr

/-- An instrument that shows a small signal until nine changes were made and then a perfect one. -/
def slowDev : Dev where
  points _ := 5000
  position _ := 0
  scale _ := 1
  acquire h := .ok ⟨if adjustments h < 9 then [0, 1 / 100] else [-(4 / 10), 4 / 10], -(1 / 2), 1 / 2⟩
  nDiv := 10

/-- **C26 fails** in one case: when the tenth acquisition is the first that needs no change, autoscale has settled but
still raises TimeoutError. -/
theorem C26_timeout_fails :
    (autoscale slowDev []).1 = .error .timeout ∧
    (∃ h a, (autoscale slowDev []).2 = h ++ [.acquire, .setPoints 5000] ∧ slowDev.acquire h = .ok a ∧ Settled a) := by
  refine ⟨by decide +kernel, (autoscale slowDev []).2.dropLast.dropLast, ⟨[-(4 / 10), 4 / 10], -(1 / 2), 1 / 2⟩, by decide +kernel,
    ?_, -(4 / 10), ?_, 4 / 10, ?_, ?_, ?_⟩
  · have : ¬ adjustments (autoscale slowDev []).2.dropLast.dropLast < 9 := by decide +kernel
    simp only [slowDev] at this ⊢
    rw [if_neg this]
  · norm_num [height]
  · norm_num [height]
  · norm_num [height]
  · norm_num [abs_le]

/-- An instrument whose acquisition times out. -/
def deadDev : Dev := { slowDev with acquire := fun _ => .error .timeout }

/-- **C26 fails** when an acquisition raises: the record length stays at a million. -/
theorem C26_restore_fails :
    autoscale deadDev [] = (.error .timeout, [.setPoints 1000000, .acquire]) ∧ deadDev.points [] = 5000 := by
  decide +kernel

/-- The hypothesis of the partial theorems is met, with both outcomes. -/
example : (∀ h, ∃ a, slowDev.acquire h = .ok a ∧ a.y ≠ []) := by
  intro h
  refine ⟨_, rfl, ?_⟩
  show (if adjustments h < 9 then [0, 1 / 100] else [-(4 / 10), 4 / 10] : List ℚ) ≠ []
  split <;> simp

/-! ### C27 -/

/-- The last value written by `setScale`, else the initial one. -/
def curScale (s0 : ℚ) (l : List Ev) : ℚ := l.foldl (fun s e => match e with | .setScale v => v | _ => s) s0

/-- The last value written by `setPosition`, else the initial one. -/
def curPosition (p0 : ℚ) (l : List Ev) : ℚ := l.foldl (fun s e => match e with | .setPosition v => v | _ => s) p0

/-- What a linear screen with `n` divisions at scale `s` (units per division) and position `p` (divisions) shows of a
steady signal: a level `v` is drawn `v / s + p` divisions above the middle; levels beyond the screen are clipped. -/
def shown (n s p : ℚ) (signal : List ℚ) : Acq where
  y := signal.map fun v => max ((-(n / 2) - p) * s) (min ((n / 2 - p) * s) v)
  clipMin := (-(n / 2) - p) * s
  clipMax := (n / 2 - p) * s

/-- A linear instrument with a steady signal. -/
def linearDev (n s0 p0 points : ℚ) (signal : List ℚ) : Dev where
  points _ := points
  position := curPosition p0
  scale := curScale s0
  acquire h := .ok (shown n (curScale s0 h) (curPosition p0 h) signal)
  nDiv := n

theorem height_shown {n s p : ℚ} (hn : 0 < n) (hs : 0 < s) (signal : List ℚ) (v : ℚ) :
    height (shown n s p signal) v = (v / s + p) / n := by
  unfold height shown
  simp only
  rw [show (n / 2 - p) * s - (-(n / 2) - p) * s = n * s by ring]
  field_simp
  ring

/-- **C27.** Every adjustment puts the middle of what was seen at the middle of the screen, and the scale stays
positive: for whatever samples a linear screen delivered, with extremes `lo` and `hi`. -/
theorem C27_recentres (n s p : ℚ) (hn : 0 < n) (hs : 0 < s) (a : Acq) (lo hi : ℚ)
    (hmin : a.clipMin = (-(n / 2) - p) * s) (hmax : a.clipMax = (n / 2 - p) * s)
    (hlo : lo ∈ a.y) (hhi : hi ∈ a.y) (hext : ∀ v ∈ a.y, lo ≤ v ∧ v ≤ hi) (s' p' : ℚ)
    (h : adjust n s p a = .ok (some (s', p'))) :
    0 < s' ∧ (lo + hi) / 2 / s' + p' = 0 := by
  have hh : ∀ v, height a v = (v / s + p) / n := by
    intro v
    have := height_shown (p := p) hn hs ([] : List ℚ) v
    rw [← this]
    unfold height
    rw [hmin, hmax]
    rfl
  have hmono : ∀ x y : ℚ, x ≤ y → height a x ≤ height a y := by
    intro x y hxy
    rw [hh, hh]
    gcongr
  have hmm : minMax (a.y.map (screen a)) = .ok (height a lo, height a hi) := by
    refine minMax_eq _ _ _ (List.mem_map_of_mem hlo) (List.mem_map_of_mem hhi) ?_
    intro x hx
    obtain ⟨v, hv, rfl⟩ := List.mem_map.1 hx
    exact ⟨hmono _ _ (hext v hv).1, hmono _ _ (hext v hv).2⟩
  have hlh : lo ≤ hi := (hext lo hlo).2
  unfold adjust at h
  rw [hmm] at h
  simp only [bind, Except.bind, pure, Except.pure, Except.ok.injEq] at h
  unfold decision at h
  simp only [Bool.or_eq_true, decide_eq_true_eq] at h
  have key : ∀ t : ℚ, 0 < t → (lo + hi) / 2 / t
      + (p - n * ((height a lo + height a hi) / 2)) * s / t = 0 := by
    intro t ht
    rw [hh, hh]
    field_simp
    ring
  have hresize : ∀ σ : ℚ, σ < 75 / 100 ∨ 85 / 100 < σ → ¬ σ < 5 / 100 → 0 < s / (8 / 10 / σ) ∧ s / (8 / 10 / σ) ≠ s := by
    intro σ h1 h2
    have hσ : 0 < σ := by push Not at h2; linarith
    refine ⟨by positivity, ?_⟩
    intro e
    rw [div_div_eq_mul_div, div_eq_iff (by norm_num)] at e
    have : σ = 8 / 10 := mul_left_cancel₀ hs.ne' e
    rcases h1 with h1 | h1 <;> rw [this] at h1 <;> norm_num at h1
  split_ifs at h with h1 h2 h3 h4 h5 h6 h7 h8 h9 h10
  all_goals first
    | (simp only [Option.some.injEq, Prod.mk.injEq] at h
       obtain ⟨rfl, rfl⟩ := h
       first
         | exact ⟨by positivity, key _ (by positivity)⟩
         | exact ⟨(hresize _ ‹_› ‹_›).1, key _ (hresize _ ‹_› ‹_›).1⟩
         | (exfalso; exact absurd (hresize _ ‹_› ‹_›).2 (by push Not at *; tauto)))

/-- Nothing is clipped when the signal is on the screen. -/
theorem shown_y {n s p : ℚ} {signal : List ℚ} (h : ∀ v ∈ signal, (-(n / 2) - p) * s ≤ v ∧ v ≤ (n / 2 - p) * s) :
    (shown n s p signal).y = signal := by
  unfold shown
  simp only
  conv_rhs => rw [← List.map_id signal]
  refine List.map_congr_left fun v hv => ?_
  rw [min_eq_right (h v hv).2, max_eq_right (h v hv).1]
  rfl

/-- Extremes of a signal. -/
structure Extremes (signal : List ℚ) (lo hi : ℚ) : Prop where
  lo_mem : lo ∈ signal
  hi_mem : hi ∈ signal
  bound : ∀ v ∈ signal, lo ≤ v ∧ v ≤ hi

theorem screen_iff {n s p v : ℚ} (hn : 0 < n) (hs : 0 < s) :
    ((-(n / 2) - p) * s ≤ v ↔ -(1 / 2) ≤ (v / s + p) / n) ∧ (v ≤ (n / 2 - p) * s ↔ (v / s + p) / n ≤ 1 / 2) := by
  constructor
  · rw [le_div_iff₀ hn, ← sub_le_iff_le_add, le_div_iff₀ hs]
    constructor <;> intro h <;> linarith
  · rw [div_le_iff₀ hn, ← le_sub_iff_add_le, div_le_iff₀ hs]
    constructor <;> intro h <;> linarith

theorem adjust_shown {n s p lo hi : ℚ} (hn : 0 < n) (hs : 0 < s) {signal : List ℚ} (hx : Extremes signal lo hi)
    (h1 : -(1 / 2) ≤ (lo / s + p) / n) (h2 : (hi / s + p) / n ≤ 1 / 2) :
    adjust n s p (shown n s p signal) = .ok (decision n s p ((lo / s + p) / n) ((hi / s + p) / n)) := by
  have hy : (shown n s p signal).y = signal := shown_y fun v hv =>
    ⟨((screen_iff hn hs).1.2 h1).trans (hx.bound v hv).1, (hx.bound v hv).2.trans ((screen_iff hn hs).2.2 h2)⟩
  have hmm : minMax ((shown n s p signal).y.map (screen (shown n s p signal)))
      = .ok ((lo / s + p) / n, (hi / s + p) / n) := by
    rw [hy, show screen (shown n s p signal) = fun v => (v / s + p) / n from funext (height_shown hn hs signal)]
    refine minMax_eq _ _ _ (List.mem_map.2 ⟨lo, hx.lo_mem, rfl⟩) (List.mem_map.2 ⟨hi, hx.hi_mem, rfl⟩) ?_
    intro x hx'
    obtain ⟨v, hv, rfl⟩ := List.mem_map.1 hx'
    have := hx.bound v hv
    constructor
    · have := this.1; gcongr
    · have := this.2; gcongr
  unfold adjust
  rw [hmm]
  rfl

theorem curScale_append (s0 : ℚ) (l m : List Ev) : curScale s0 (l ++ m) = curScale (curScale s0 l) m := by
  unfold curScale; rw [List.foldl_append]

theorem curPosition_append (s0 : ℚ) (l m : List Ev) :
    curPosition s0 (l ++ m) = curPosition (curPosition s0 l) m := by
  unfold curPosition; rw [List.foldl_append]

section converge
variable {n s0 p0 pts lo hi : ℚ} {signal : List ℚ}

theorem step_none (hn : 0 < n) (hx : Extremes signal lo hi) (k : ℕ) (log : List Ev) {s p : ℚ}
    (es : curScale s0 log = s) (ep : curPosition p0 log = p) (hs : 0 < s)
    (h1 : -(1 / 2) ≤ (lo / s + p) / n) (h2 : (hi / s + p) / n ≤ 1 / 2)
    (hd : decision n s p ((lo / s + p) / n) ((hi / s + p) / n) = none) :
    loop (linearDev n s0 p0 pts signal) (k + 1) log = (.ok k, log ++ [.acquire]) := by
  rw [loop]
  simp only [linearDev, es, ep, adjust_shown hn hs hx h1 h2, hd]

theorem step_some (hn : 0 < n) (hx : Extremes signal lo hi) (k : ℕ) (log : List Ev) {s p s' p' : ℚ}
    (es : curScale s0 log = s) (ep : curPosition p0 log = p) (hs : 0 < s)
    (h1 : -(1 / 2) ≤ (lo / s + p) / n) (h2 : (hi / s + p) / n ≤ 1 / 2)
    (hd : decision n s p ((lo / s + p) / n) ((hi / s + p) / n) = some (s', p')) :
    ∃ log', loop (linearDev n s0 p0 pts signal) (k + 1) log = loop (linearDev n s0 p0 pts signal) k log' ∧
      curScale s0 log' = s' ∧ curPosition p0 log' = p' := by
  refine ⟨log ++ [.acquire] ++ [.setScale s'] ++ [.setPosition p'], ?_, ?_, ?_⟩
  · rw [loop]
    simp only [linearDev, es, ep, adjust_shown hn hs hx h1 h2, hd]
  · rw [curScale_append, curScale_append]; rfl
  · rw [curPosition_append]; rfl

/-- Heights of the extremes when the signal is centred. -/
theorem centred {s p : ℚ} (hn : 0 < n) (hs : 0 < s) (hc : (lo + hi) / 2 / s + p = 0) :
    (lo / s + p) / n = -((hi - lo) / (n * s) / 2) ∧ (hi / s + p) / n = (hi - lo) / (n * s) / 2 := by
  have hp : p = -((lo + hi) / 2 / s) := by linarith
  subst hp
  constructor <;> · field_simp; ring

theorem settle (hn : 0 < n) (hx : Extremes signal lo hi) (k : ℕ) (log : List Ev) {s p : ℚ}
    (es : curScale s0 log = s) (ep : curPosition p0 log = p) (hs : 0 < s) (hc : (lo + hi) / 2 / s + p = 0)
    (h1 : 75 / 100 ≤ (hi - lo) / (n * s)) (h2 : (hi - lo) / (n * s) ≤ 85 / 100) :
    loop (linearDev n s0 p0 pts signal) (k + 1) log = (.ok k, log ++ [.acquire]) := by
  obtain ⟨e1, e2⟩ := centred hn hs hc
  refine step_none hn hx k log es ep hs (by rw [e1]; linarith) (by rw [e2]; linarith) ?_
  rw [e1, e2, decision_none]
  refine ⟨by linarith, by linarith, by linarith, by linarith, ?_⟩
  rw [abs_le]
  constructor <;> linarith

/-- From a centred picture between 5% and 90% of the screen at most two acquisitions are needed. -/
theorem resize (hn : 0 < n) (hx : Extremes signal lo hi) (k : ℕ) (log : List Ev) {s p : ℚ}
    (es : curScale s0 log = s) (ep : curPosition p0 log = p) (hs : 0 < s) (hc : (lo + hi) / 2 / s + p = 0)
    (h1 : 5 / 100 ≤ (hi - lo) / (n * s)) (h2 : (hi - lo) / (n * s) ≤ 9 / 10) :
    ∃ j l, loop (linearDev n s0 p0 pts signal) (k + 2) log = (.ok j, l) ∧ k ≤ j := by
  obtain ⟨e1, e2⟩ := centred hn hs hc
  by_cases hr : 75 / 100 ≤ (hi - lo) / (n * s) ∧ (hi - lo) / (n * s) ≤ 85 / 100
  · exact ⟨k + 1, _, settle hn hx (k + 1) log es ep hs hc hr.1 hr.2, by omega⟩
  · set σ := (hi - lo) / (n * s) with hσ
    have hσ0 : 0 < σ := by linarith
    have hne : s / (8 / 10 / σ) ≠ s := by
      intro e
      rw [div_div_eq_mul_div, div_eq_iff (by norm_num)] at e
      have : σ = 8 / 10 := mul_left_cancel₀ hs.ne' e
      exact hr (by rw [this]; norm_num)
    have hd : decision n s p ((lo / s + p) / n) ((hi / s + p) / n)
        = some (s / (8 / 10 / σ), p * s / (s / (8 / 10 / σ))) := by
      rw [e1, e2]
      unfold decision
      simp only [Bool.or_eq_true, decide_eq_true_eq]
      have hs1 : σ / 2 - -(σ / 2) = σ := by ring
      have hs2 : (-(σ / 2) + σ / 2) / 2 = 0 := by ring
      rw [hs1, hs2, if_neg (by linarith), if_neg (by linarith), if_neg (by linarith)]
      have hr' : σ < 75 / 100 ∨ 85 / 100 < σ := by
        by_contra hc'; push Not at hc'; exact hr hc'
      rw [if_pos hr', if_pos (Or.inr (Or.inr hne)), mul_zero, sub_zero]
    obtain ⟨log', hl, es', ep'⟩ := step_some (pts := pts) hn hx (k + 1) log es ep hs (by rw [e1]; linarith)
      (by rw [e2]; linarith) hd
    have hspan : (hi - lo) / (n * (s / (8 / 10 / σ))) = 8 / 10 := by
      have : hi - lo = σ * (n * s) := by rw [hσ]; field_simp
      rw [this]; field_simp
    refine ⟨k, _, hl.trans (settle hn hx k log' es' ep' (by positivity) ?_ (by rw [hspan]; norm_num)
      (by rw [hspan]; norm_num)), le_refl _⟩
    have : p = -((lo + hi) / 2 / s) := by linarith
    rw [this]
    field_simp
    ring

/-- From a centred picture each further factor of ten costs one acquisition. -/
theorem enlarge (hn : 0 < n) (hx : Extremes signal lo hi) (k : ℕ) : ∀ (m : ℕ) (log : List Ev) (s p : ℚ),
    curScale s0 log = s → curPosition p0 log = p → 0 < s → (lo + hi) / 2 / s + p = 0 →
    5 / 100 ≤ (hi - lo) / (n * s) * 10 ^ m → (hi - lo) / (n * s) ≤ 9 / 10 →
    ∃ j l, loop (linearDev n s0 p0 pts signal) (k + m + 2) log = (.ok j, l) ∧ k ≤ j := by
  intro m
  induction m with
  | zero =>
    intro log s p es ep hs hc h1 h2
    exact resize hn hx k log es ep hs hc (by simpa using h1) h2
  | succ m ih =>
    intro log s p es ep hs hc h1 h2
    by_cases h3 : 5 / 100 ≤ (hi - lo) / (n * s)
    · obtain ⟨j, l, e, hj⟩ := resize (pts := pts) hn hx (k + (m + 1)) log es ep hs hc h3 h2
      exact ⟨j, l, e, by omega⟩
    · obtain ⟨e1, e2⟩ := centred hn hs hc
      set σ := (hi - lo) / (n * s) with hσ
      push Not at h3
      have hσ0 : 0 ≤ σ := by
        rw [hσ]
        have := (hx.bound lo hx.lo_mem).2
        have : 0 ≤ hi - lo := by linarith
        positivity
      have hd : decision n s p ((lo / s + p) / n) ((hi / s + p) / n) = some (s / 10, p * s / (s / 10)) := by
        rw [e1, e2]
        unfold decision
        simp only [Bool.or_eq_true, decide_eq_true_eq]
        have hs1 : σ / 2 - -(σ / 2) = σ := by ring
        have hs2 : (-(σ / 2) + σ / 2) / 2 = 0 := by ring
        rw [hs1, hs2, if_neg (by linarith), if_neg (by linarith), if_pos h3, mul_zero, sub_zero]
      obtain ⟨log', hl, es', ep'⟩ := step_some (pts := pts) hn hx (k + m + 2) log es ep hs (by rw [e1]; linarith)
        (by rw [e2]; linarith) hd
      have hspan : (hi - lo) / (n * (s / 10)) = σ * 10 := by rw [hσ]; field_simp
      obtain ⟨j, l, e, hj⟩ := ih log' _ _ es' ep' (by positivity)
        (by
          have : p = -((lo + hi) / 2 / s) := by linarith
          rw [this]; field_simp; ring)
        (by rw [hspan, mul_assoc, ← pow_succ']; exact h1)
        (by rw [hspan]; linarith)
      exact ⟨j, l, hl.trans e, hj⟩

end converge

/-- **C27.** Autoscale converges on a steady signal: when the signal is on the screen at the beginning and covers at
least a ten-millionth of it, autoscale returns normally (and then `C26_returns_settled` describes the final picture),
whatever the number of divisions, scale, position and history. -/
theorem C27_converges (n s0 p0 pts : ℚ) (signal : List ℚ) (log : List Ev) (lo hi : ℚ) (hn : 0 < n)
    (hs : 0 < curScale s0 log) (hx : Extremes signal lo hi)
    (h1 : -(1 / 2) ≤ (lo / curScale s0 log + curPosition p0 log) / n)
    (h2 : (hi / curScale s0 log + curPosition p0 log) / n ≤ 1 / 2)
    (h3 : 1 / 10 ^ 7 ≤ (hi - lo) / (n * curScale s0 log)) :
    (autoscale (linearDev n s0 p0 pts signal) log).1 = .ok () := by
  suffices h : ∃ j l, loop (linearDev n s0 p0 pts signal) 10 (log ++ [.setPoints 1000000]) = (.ok j, l) ∧ 1 ≤ j by
    obtain ⟨j, l, e, hj⟩ := h
    unfold autoscale
    simp only [e]
    rw [if_neg (by omega)]
  have es : curScale s0 (log ++ [.setPoints 1000000]) = curScale s0 log := by rw [curScale_append]; rfl
  have ep : curPosition p0 (log ++ [.setPoints 1000000]) = curPosition p0 log := by rw [curPosition_append]; rfl
  generalize curScale s0 log = s at *
  generalize curPosition p0 log = p at *
  set σ := (hi - lo) / (n * s) with hσ
  have hσ' : (hi / s + p) / n - (lo / s + p) / n = σ := by rw [hσ]; field_simp; ring
  have hσ1 : σ ≤ 1 := by linarith
  have hσ0 : 0 < σ := lt_of_lt_of_le (by positivity) h3
  cases hd : decision n s p ((lo / s + p) / n) ((hi / s + p) / n) with
  | none => exact ⟨9, _, step_none hn hx 9 _ es ep hs h1 h2 hd, by omega⟩
  | some q =>
    obtain ⟨s', p'⟩ := q
    obtain ⟨log', hl, es', ep'⟩ := step_some (pts := pts) hn hx 9 _ es ep hs h1 h2 hd
    have hy : (shown n s p signal).y = signal := shown_y fun v hv =>
      ⟨((screen_iff hn hs).1.2 h1).trans (hx.bound v hv).1, (hx.bound v hv).2.trans ((screen_iff hn hs).2.2 h2)⟩
    obtain ⟨hs', hc'⟩ := C27_recentres n s p hn hs (shown n s p signal) lo hi rfl rfl (by rw [hy]; exact hx.lo_mem)
      (by rw [hy]; exact hx.hi_mem) (by rw [hy]; exact hx.bound) s' p'
      (by rw [adjust_shown hn hs hx h1 h2, hd])
    -- the new span
    have hspan : ∃ f : ℚ, 0 < f ∧ s' = s * f ∧ σ ≤ 9 / 10 * f ∧ f * 5 / 100 ≤ σ * 10 ^ 6 := by
      unfold decision at hd
      simp only [Bool.or_eq_true, decide_eq_true_eq, hσ'] at hd
      have h3' : 1 / 10 ≤ σ * 10 ^ 6 := by
        have := mul_le_mul_of_nonneg_right h3 (by norm_num : (0 : ℚ) ≤ 10 ^ 6)
        norm_num at this ⊢
        linarith
      have hnorm : (10 : ℚ) ^ 6 = 1000000 := by norm_num
      split_ifs at hd with a1 a2 a3 a4 a5 a6 a7 a8 a9 a10
      all_goals simp only [Option.some.injEq, Prod.mk.injEq] at hd
      all_goals rw [← hd.1]
      all_goals first
        | (refine ⟨4, by norm_num, rfl, by linarith, ?_⟩; rw [hnorm] at h3' ⊢; linarith)
        | (refine ⟨1 / 4, by norm_num, by ring1, by linarith, ?_⟩; rw [hnorm] at h3' ⊢; linarith)
        | (refine ⟨1 / 10, by norm_num, by ring1, by linarith, ?_⟩; rw [hnorm] at h3' ⊢; linarith)
        | (refine ⟨1, by norm_num, by ring1, by push Not at *; linarith, ?_⟩; rw [hnorm] at h3' ⊢; linarith)
        | (refine ⟨σ / (8 / 10), by positivity, by field_simp, by linarith, ?_⟩; rw [hnorm] at h3' ⊢; linarith)
    obtain ⟨f, hf, rfl, hf1, hf2⟩ := hspan
    have hspan' : (hi - lo) / (n * (s * f)) = σ / f := by rw [hσ]; field_simp
    obtain ⟨j, l, e, hj⟩ := enlarge (pts := pts) hn hx 1 6 log' _ _ es' ep' hs' hc'
      (by rw [hspan', div_mul_eq_mul_div, le_div_iff₀ hf]; linarith)
      (by rw [hspan', div_le_iff₀ hf]; linarith)
    exact ⟨j, l, hl.trans e, hj⟩

/-- **C27.** For a steady unclipped picture (5% away from the limits, at least 5% high) an adjustment makes the signal
cover exactly 80% of the screen, unless its size was already right, and the next acquisition needs no change. -/
theorem C27_span (n s p lo hi : ℚ) (hn : 0 < n) (hs : 0 < s) (signal : List ℚ) (hx : Extremes signal lo hi)
    (h1 : -(45 / 100) ≤ (lo / s + p) / n) (h2 : (hi / s + p) / n ≤ 45 / 100)
    (h3 : 5 / 100 ≤ (hi - lo) / (n * s)) (s' p' : ℚ)
    (h : adjust n s p (shown n s p signal) = .ok (some (s', p'))) :
    ((hi - lo) / (n * s') = 8 / 10 ∨
      (s' = s ∧ 75 / 100 ≤ (hi - lo) / (n * s') ∧ (hi - lo) / (n * s') ≤ 85 / 100)) ∧
    adjust n s' p' (shown n s' p' signal) = .ok none := by
  have hy : (shown n s p signal).y = signal := shown_y fun v hv =>
    ⟨((screen_iff hn hs).1.2 (by linarith)).trans (hx.bound v hv).1,
      (hx.bound v hv).2.trans ((screen_iff hn hs).2.2 (by linarith))⟩
  obtain ⟨hs', hc'⟩ := C27_recentres n s p hn hs (shown n s p signal) lo hi rfl rfl (by rw [hy]; exact hx.lo_mem)
    (by rw [hy]; exact hx.hi_mem) (by rw [hy]; exact hx.bound) s' p' h
  rw [adjust_shown hn hs hx (by linarith) (by linarith)] at h
  set σ := (hi - lo) / (n * s) with hσ
  have hσ' : (hi / s + p) / n - (lo / s + p) / n = σ := by rw [hσ]; field_simp; ring
  have hσ0 : 0 < σ := by linarith
  have hspan : (hi - lo) / (n * s') = 8 / 10 ∨
      (s' = s ∧ 75 / 100 ≤ (hi - lo) / (n * s') ∧ (hi - lo) / (n * s') ≤ 85 / 100) := by
    simp only [Except.ok.injEq] at h
    unfold decision at h
    simp only [Bool.or_eq_true, decide_eq_true_eq, hσ'] at h
    rw [if_neg (by linarith), if_neg (by linarith), if_neg (by linarith)] at h
    split_ifs at h with a1 a2 a3 a4
    all_goals simp only [Option.some.injEq, Prod.mk.injEq] at h
    all_goals rw [← h.1]
    all_goals first
      | (left
         have : hi - lo = σ * (n * s) := by rw [hσ]; field_simp
         rw [this]; field_simp; done)
      | (right
         push Not at a1
         exact ⟨rfl, a1⟩)
  refine ⟨hspan, ?_⟩
  obtain ⟨e1, e2⟩ := centred (p := p') hn hs' hc'
  have hb : 75 / 100 ≤ (hi - lo) / (n * s') ∧ (hi - lo) / (n * s') ≤ 85 / 100 := by
    rcases hspan with e | e
    · rw [e]; norm_num
    · exact e.2
  rw [adjust_shown hn hs' hx (by rw [e1]; linarith) (by rw [e2]; linarith), e1, e2]
  refine congrArg Except.ok ((decision_none _ _ _ _ _).2 ⟨by linarith, by linarith, by linarith, by linarith, ?_⟩)
  rw [abs_le]
  constructor <;> linarith

/-- **C27**, the picture of a signal that leaves the screen or is tiny: which factor the scale is changed by.  With `lo` and `hi` the extremes of what is
seen, a picture that comes closer than 5% to a limit is made four times smaller if it covers more than 60% of the screen, four times larger if it covers
less than 10%, and is moved otherwise; a picture away from the limits that covers less than 5% is made ten times larger. -/
theorem C27_factor (n s p lo hi : ℚ) (hn : 0 < n) (hs : 0 < s) (a : Acq) (hmin : a.clipMin = (-(n / 2) - p) * s) (hmax : a.clipMax = (n / 2 - p) * s)
    (hx : Extremes a.y lo hi) :
    (45 / 100 < (hi / s + p) / n ∨ (lo / s + p) / n < -(45 / 100) →
      (6 / 10 < (hi - lo) / (n * s) → ∃ p', adjust n s p a = .ok (some (s * 4, p'))) ∧
      ((hi - lo) / (n * s) < 1 / 10 → ∃ p', adjust n s p a = .ok (some (s / 4, p'))) ∧
      (1 / 10 ≤ (hi - lo) / (n * s) → (hi - lo) / (n * s) ≤ 6 / 10 → ∃ p', adjust n s p a = .ok (some (s, p')))) ∧
    ((hi / s + p) / n ≤ 45 / 100 → -(45 / 100) ≤ (lo / s + p) / n → (hi - lo) / (n * s) < 5 / 100 →
      ∃ p', adjust n s p a = .ok (some (s / 10, p'))) := by
  have hh : ∀ v, height a v = (v / s + p) / n := by
    intro v
    have := height_shown (p := p) hn hs ([] : List ℚ) v
    rw [← this]
    unfold height
    rw [hmin, hmax]
    rfl
  have hmono : ∀ x y : ℚ, x ≤ y → height a x ≤ height a y := by
    intro x y hxy
    rw [hh, hh]
    gcongr
  have hmm : minMax (a.y.map (screen a)) = .ok (height a lo, height a hi) := by
    refine minMax_eq _ _ _ (List.mem_map_of_mem hx.lo_mem) (List.mem_map_of_mem hx.hi_mem) ?_
    intro x hx'
    obtain ⟨v, hv, rfl⟩ := List.mem_map.1 hx'
    exact ⟨hmono _ _ (hx.bound v hv).1, hmono _ _ (hx.bound v hv).2⟩
  have hspan : (hi / s + p) / n - (lo / s + p) / n = (hi - lo) / (n * s) := by
    field_simp
    ring
  have key : adjust n s p a = .ok (decision n s p ((lo / s + p) / n) ((hi / s + p) / n)) := by
    unfold adjust
    rw [hmm, hh, hh]
    rfl
  rw [key]
  unfold decision
  simp only [hspan]
  constructor
  · intro hc
    by_cases h1 : 45 / 100 < (hi / s + p) / n
    · simp only [if_pos h1]
      refine ⟨fun h => ?_, fun h => ?_, fun h h' => ?_⟩
      · simp only [if_pos h]
        exact ⟨_, rfl⟩
      · simp only [if_neg (show ¬ 6 / 10 < (hi - lo) / (n * s) by linarith), if_pos h]
        exact ⟨_, rfl⟩
      · simp only [if_neg (not_lt.2 h'), if_neg (not_lt.2 h)]
        exact ⟨_, rfl⟩
    · simp only [if_neg h1, if_pos (hc.resolve_left h1)]
      refine ⟨fun h => ?_, fun h => ?_, fun h h' => ?_⟩
      · simp only [if_pos h]
        exact ⟨_, rfl⟩
      · simp only [if_neg (show ¬ 6 / 10 < (hi - lo) / (n * s) by linarith), if_pos h]
        exact ⟨_, rfl⟩
      · simp only [if_neg (not_lt.2 h'), if_neg (not_lt.2 h)]
        exact ⟨_, rfl⟩
  · intro h1 h2 h3
    rw [if_neg (by linarith), if_neg (by linarith), if_pos h3]
    exact ⟨_, rfl⟩

/-- Four pictures on a screen with eight divisions of one unit each: the first three are too high, the last one is tiny. -/
example : Extremes (shown 8 1 0 [-3, 5]).y (-3) 4 ∧ (45 / 100 : ℚ) < (4 / 1 + 0) / 8 ∧ (6 / 10 : ℚ) < (4 - -3) / (8 * 1) ∧
    Extremes (shown 8 1 0 [38 / 10, 39 / 10]).y (38 / 10) (39 / 10) ∧ (45 / 100 : ℚ) < (39 / 10 / 1 + 0) / 8 ∧
      (39 / 10 - 38 / 10) / (8 * 1) < (1 / 10 : ℚ) ∧
    Extremes (shown 8 1 0 [2, 39 / 10]).y 2 (39 / 10) ∧ (1 / 10 : ℚ) ≤ (39 / 10 - 2) / (8 * 1) ∧ (39 / 10 - 2) / (8 * 1) ≤ (6 / 10 : ℚ) ∧
    Extremes (shown 8 1 0 [1, 11 / 10]).y 1 (11 / 10) ∧ (11 / 10 / 1 + 0) / 8 ≤ (45 / 100 : ℚ) ∧ (11 / 10 - 1) / (8 * 1) < (5 / 100 : ℚ) := by
  refine ⟨⟨by decide +kernel, by decide +kernel, by decide +kernel⟩, by norm_num, by norm_num,
    ⟨by decide +kernel, by decide +kernel, by decide +kernel⟩, by norm_num, by norm_num,
    ⟨by decide +kernel, by decide +kernel, by decide +kernel⟩, by norm_num, by norm_num,
    ⟨by decide +kernel, by decide +kernel, by decide +kernel⟩, by norm_num, by norm_num⟩

/-- The hypotheses are met: a small signal in a corner of the screen. -/
example : Extremes [3, 31 / 10, 29 / 10] (29 / 10) (31 / 10) ∧ (0 : ℚ) < curScale 1 [] ∧
    -(1 / 2) ≤ ((29 / 10 : ℚ) / curScale 1 [] + curPosition 0 []) / 8 ∧
    ((31 / 10 : ℚ) / curScale 1 [] + curPosition 0 []) / 8 ≤ 1 / 2 ∧
    1 / 10 ^ 7 ≤ ((31 / 10 : ℚ) - 29 / 10) / (8 * curScale 1 []) := by
  refine ⟨⟨by simp, by simp, by norm_num⟩, ?_⟩
  norm_num [curScale, curPosition]

/-- Not claimed by C27, but worth knowing: a signal beyond the screen is not found; the scale is reduced although the
signal should be searched for. -/
theorem C27_offscreen : (autoscale (linearDev 8 1 0 5000 [6, 7]) []).1 = .error .timeout := by decide +kernel

end Verif.Props.Autoscale
