import Verif.Model.CdrFft
import Verif.Props.CdrRun
import Mathlib.Tactic.Positivity

/-!
C64: the high pass filter.  C65: clock recovery with a filter.
-/

namespace Verif.Props.CdrFft

open Verif Verif.Cdr Verif.CdrFft

/-! ### C64 -/

theorem butter_eq (f bw : ℝ) (hf : f ≠ 0) (hb : bw ≠ 0) (n : ℕ) : butter f bw n = 1 / Real.sqrt (1 + ((bw / f) ^ 2) ^ n) := by
  unfold butter
  rw [if_neg hf]
  congr 3
  have h0 : f / bw ≠ 0 := div_ne_zero hf hb
  rw [show (-2 * (n : ℤ)) = -((2 * n : ℕ) : ℤ) by push_cast; ring, zpow_neg, zpow_natCast, pow_mul, ← inv_pow, ← inv_pow, inv_div]

/-- C64: at zero frequency nothing passes. -/
theorem C64_dc (bw : ℝ) (n : ℕ) : butter 0 bw n = 0 := if_pos rfl

/-- C64: the gain is never negative and less than one. -/
theorem C64_range (f bw : ℝ) (hb : bw ≠ 0) (n : ℕ) : 0 ≤ butter f bw n ∧ butter f bw n < 1 := by
  by_cases hf : f = 0
  · subst hf
    rw [C64_dc]
    exact ⟨le_refl _, one_pos⟩
  · rw [butter_eq f bw hf hb]
    have h0 : 0 < bw / f ∨ bw / f < 0 := (div_ne_zero hb hf).lt_or_gt.symm
    have h1 : 0 < ((bw / f) ^ 2) ^ n := pow_pos (pow_pos_of_ne (div_ne_zero hb hf)) n
    have h2 : 1 < Real.sqrt (1 + ((bw / f) ^ 2) ^ n) := by
      rw [show (1 : ℝ) = Real.sqrt 1 by simp]
      apply Real.sqrt_lt_sqrt (by norm_num)
      simp
      exact h1
    exact ⟨by positivity, (div_lt_one (by linarith)).2 h2⟩
where
  pow_pos_of_ne {x : ℝ} (h : x ≠ 0) : 0 < x ^ 2 := by positivity

/-- C64: at the bandwidth the gain is that of -3 dB, half the power. -/
theorem C64_cutoff (bw : ℝ) (hb : bw ≠ 0) (n : ℕ) : butter bw bw n ^ 2 = 1 / 2 := by
  rw [butter_eq bw bw hb hb, div_self hb, one_pow, one_pow, div_pow, Real.sq_sqrt (by norm_num)]
  norm_num

/-- C64: the gain does not depend on the sign, and grows with the frequency. -/
theorem C64_monotone (f g bw : ℝ) (hb : bw ≠ 0) (n : ℕ) (hn : n ≠ 0) (h : |f| < |g|) : butter f bw n < butter g bw n := by
  have hg : g ≠ 0 := by
    rintro rfl
    rw [abs_zero] at h
    exact absurd (abs_nonneg f) (by linarith)
  by_cases hf : f = 0
  · subst hf
    rw [C64_dc, butter_eq g bw hg hb]
    positivity
  · rw [butter_eq f bw hf hb, butter_eq g bw hg hb]
    have h1 : (bw / g) ^ 2 < (bw / f) ^ 2 := by
      rw [div_pow, div_pow]
      apply div_lt_div_of_pos_left (by positivity) (by positivity)
      exact sq_lt_sq.2 h
    have h2 : ((bw / g) ^ 2) ^ n < ((bw / f) ^ 2) ^ n := pow_lt_pow_left₀ h1 (by positivity) hn
    apply one_div_lt_one_div_of_lt
    · apply Real.sqrt_pos.2
      positivity
    · apply Real.sqrt_lt_sqrt (by positivity)
      linarith

theorem C64_even (f bw : ℝ) (hb : bw ≠ 0) (n : ℕ) : butter (-f) bw n = butter f bw n := by
  by_cases hf : f = 0
  · subst hf
    rw [neg_zero]
  · rw [butter_eq (-f) bw (neg_ne_zero.2 hf) hb, butter_eq f bw hf hb, div_neg, neg_sq]

/-- C64: a higher order is steeper: less gain below, more above the bandwidth. -/
theorem C64_order (f bw : ℝ) (hf : f ≠ 0) (hb : bw ≠ 0) (n m : ℕ) (hnm : n < m) :
    (|f| < |bw| → butter f bw m < butter f bw n) ∧ (|bw| < |f| → butter f bw n < butter f bw m) := by
  rw [butter_eq f bw hf hb, butter_eq f bw hf hb]
  have hp : 0 < (bw / f) ^ 2 := by positivity
  constructor
  · intro h
    have h1 : 1 < (bw / f) ^ 2 := by
      rw [div_pow, one_lt_div (by positivity)]
      exact sq_lt_sq.2 h
    have h2 := pow_lt_pow_right₀ h1 hnm
    apply one_div_lt_one_div_of_lt (Real.sqrt_pos.2 (by positivity))
    apply Real.sqrt_lt_sqrt (by positivity)
    linarith
  · intro h
    have h1 : (bw / f) ^ 2 < 1 := by
      rw [div_pow, div_lt_one (by positivity)]
      exact sq_lt_sq.2 h
    have h2 := pow_lt_pow_right_of_lt_one₀ hp h1 hnm
    apply one_div_lt_one_div_of_lt (Real.sqrt_pos.2 (by positivity))
    apply Real.sqrt_lt_sqrt (by positivity)
    linarith

/-- C64: one gain per frequency, for each what the theorems above are about. -/
theorem C64_each (freqs : List ℝ) (bw : ℝ) (n : ℕ) : (highPassButter freqs bw n).length = freqs.length ∧
    ∀ i (h : i < freqs.length) (h' : i < (highPassButter freqs bw n).length), (highPassButter freqs bw n)[i] = butter freqs[i] bw n := by
  refine ⟨by simp [highPassButter], fun i h h' => ?_⟩
  simp [highPassButter]

/-- The hypotheses are met: 1 MHz and 4 MHz bandwidth, order 1 and 2. -/
example : (4000000 : ℝ) ≠ 0 ∧ |(1000000 : ℝ)| < |4000000| ∧ (1 : ℕ) < 2 := by
  refine ⟨by norm_num, ?_, by norm_num⟩
  rw [abs_of_pos (by norm_num), abs_of_pos (by norm_num)]
  norm_num

/-! ### C65 -/

/-- The transforms keep the number of samples (an even one). -/
def SameLength (fft : List ℝ → List ℂ) (ifft : List ℂ → List ℝ) : Prop :=
  ∀ l : List ℝ, (fft l).length = l.length / 2 + 1 ∧ ∀ s : List ℂ, s.length = l.length / 2 + 1 → (ifft s).length = l.length / 2 * 2

/-- One is the inverse of the other, for an even number of samples; no signal has no spectrum. -/
def Inverse (fft : List ℝ → List ℂ) (ifft : List ℂ → List ℝ) : Prop :=
  (∀ l : List ℝ, l.length % 2 = 0 → ifft (fft l) = l) ∧ ∀ n : ℕ, ifft (List.replicate (n / 2 + 1) 0) = List.replicate (n / 2 * 2) 0

theorem trim_length (n : ℕ) (l : List ℝ) : (trim n l).length = l.length - 2 * n := by
  unfold trim
  rw [List.length_take, List.length_drop]
  omega

theorem trim_get (n : ℕ) (l : List ℝ) (i : ℕ) (h : i < (trim n l).length) (h' : i + n < l.length) : (trim n l)[i] = l[i + n] := by
  have h2 : i < l.length - n - n := by rw [trim_length] at h; omega
  have : (trim n l)[i]? = l[i + n]? := by
    unfold trim
    rw [List.getElem?_take_of_lt h2, List.getElem?_drop, add_comm]
  rw [List.getElem?_eq_getElem h, List.getElem?_eq_getElem h'] at this
  exact Option.some.inj this

theorem filtered_eq (fft : List ℝ → List ℂ) (ifft : List ℂ → List ℝ) (ojtf : List ℝ → List ℂ) (hl : SameLength fft ifft)
    (hg : ∀ f, (ojtf f).length = f.length) (clk ties : List ℝ) (h2 : 2 ≤ clk.length) (ht : ties.length = clk.length) :
    ∃ adj : List ℝ, adj.length = clk.length / 2 * 2 ∧
      filtered fft ifft ojtf clk ties =
        .ok (List.zipWith (· + ·) (clk.take (clk.length / 2 * 2)) adj, List.zipWith (· - ·) (ties.take (clk.length / 2 * 2)) adj) ∧
      adj = ifft (List.zipWith (fun (s : ℂ) (g : ℂ) => s * (1 - (‖g‖ : ℝ))) (fft (ties.take (clk.length / 2 * 2)))
        (ojtf (rfftFreq (clk.length / 2 * 2) ((clk.getLastD 0 - clk.headD 0) / (clk.length - 1))))) := by
  cases clk with
  | nil => simp at h2
  | cons first rest =>
    refine ⟨_, ?_, ?_, rfl⟩
    · obtain ⟨l1, l2⟩ := hl (ties.take ((first :: rest).length / 2 * 2))
      have hlt : (ties.take ((first :: rest).length / 2 * 2)).length = (first :: rest).length / 2 * 2 := by
        rw [List.length_take, ht]
        omega
      rw [hlt] at l1 l2
      rw [l2]
      · omega
      · rw [List.length_zipWith, l1, hg]
        unfold rfftFreq
        simp
    · unfold filtered
      simp only
      rw [if_neg (by omega)]
      rfl

/-- C65: the filter moves jitter from the errors to the clock edges: their sum, where the data edge was, is unchanged.  An odd last edge and 100 edges
at both ends are removed. -/
theorem C65_sum (base : List ℚ → Except PyErr (List ℚ × List ℚ)) (fft : List ℝ → List ℂ) (ifft : List ℂ → List ℝ) (ojtf : List ℝ → List ℂ)
    (hl : SameLength fft ifft) (hg : ∀ f, (ojtf f).length = f.length) (edges clk ties : List ℚ) (hb : base edges = .ok (clk, ties))
    (ht : ties.length = clk.length) (h2 : 2 ≤ clk.length) :
    ∃ out r, runFft base fft ifft ojtf edges true = .ok (out, r) ∧ out.length = clk.length / 2 * 2 - 200 ∧ r.length = out.length ∧
      ∀ i (h : i < out.length) (h' : i < r.length) (hc : i + 100 < clk.length) (hc' : i + 100 < ties.length),
        out[i] + r[i] = (clk[i + 100] : ℝ) + ties[i + 100] := by
  obtain ⟨adj, a1, a2, -⟩ := filtered_eq fft ifft ojtf hl hg (clk.map fun x : ℚ => (x : ℝ)) (ties.map fun x : ℚ => (x : ℝ)) (by simpa using h2)
    (by simpa using ht)
  rw [List.length_map] at a1 a2
  unfold runFft
  simp only [hb, bind, Except.bind, a2, if_true, pure, Except.pure]
  have e1 : (trim 100 (List.zipWith (· + ·) ((clk.map fun x : ℚ => (x : ℝ)).take (clk.length / 2 * 2)) adj)).length = clk.length / 2 * 2 - 200 := by
    rw [trim_length, List.length_zipWith, List.length_take, List.length_map, a1]
    omega
  have e2 : (trim 100 (List.zipWith (· - ·) ((ties.map fun x : ℚ => (x : ℝ)).take (clk.length / 2 * 2)) adj)).length = clk.length / 2 * 2 - 200 := by
    rw [trim_length, List.length_zipWith, List.length_take, List.length_map, a1, ht]
    omega
  refine ⟨_, _, rfl, e1, by rw [e1, e2], ?_⟩
  intro i h h' hc hc'
  rw [e1] at h
  rw [trim_get _ _ _ _ (by rw [List.length_zipWith, List.length_take, List.length_map, a1]; omega),
    trim_get _ _ _ _ (by rw [List.length_zipWith, List.length_take, List.length_map, a1, ht]; omega)]
  simp only [List.getElem_zipWith, List.getElem_take, List.getElem_map]
  ring

/-- C65: fewer than 200 clock edges leave nothing. -/
theorem C65_short (base : List ℚ → Except PyErr (List ℚ × List ℚ)) (fft : List ℝ → List ℂ) (ifft : List ℂ → List ℝ) (ojtf : List ℝ → List ℂ)
    (hl : SameLength fft ifft) (hg : ∀ f, (ojtf f).length = f.length) (edges clk ties : List ℚ) (hb : base edges = .ok (clk, ties))
    (ht : ties.length = clk.length) (h2 : 2 ≤ clk.length) (h3 : clk.length < 202) :
    runFft base fft ifft ojtf edges true = .ok ([], []) := by
  obtain ⟨out, r, h, l1, l2, -⟩ := C65_sum base fft ifft ojtf hl hg edges clk ties hb ht h2
  have o0 : out = [] := List.length_eq_zero_iff.1 (by omega)
  have r0 : r = [] := List.length_eq_zero_iff.1 (by omega)
  rw [h, o0, r0]

theorem scaled_zero (s g : List ℂ) (h : ∀ x ∈ g, ‖x‖ = 1) (hlen : s.length = g.length) :
    List.zipWith (fun (s : ℂ) (g : ℂ) => s * (1 - (‖g‖ : ℝ))) s g = List.replicate s.length 0 := by
  apply List.ext_getElem
  · simp [hlen]
  · intro i h1 h2
    rw [List.getElem_zipWith, List.getElem_replicate, h _ (List.getElem_mem _)]
    simp

theorem scaled_all (s g : List ℂ) (h : ∀ x ∈ g, ‖x‖ = 0) (hlen : s.length = g.length) :
    List.zipWith (fun (s : ℂ) (g : ℂ) => s * (1 - (‖g‖ : ℝ))) s g = s := by
  apply List.ext_getElem
  · simp [hlen]
  · intro i h1 h2
    rw [List.getElem_zipWith, h _ (List.getElem_mem _)]
    simp

/-- C65: an observed jitter transfer function of one at all frequencies leaves clock and errors as they are, one of zero removes all errors. -/
theorem C65_extremes (base : List ℚ → Except PyErr (List ℚ × List ℚ)) (fft : List ℝ → List ℂ) (ifft : List ℂ → List ℝ) (ojtf : List ℝ → List ℂ)
    (hl : SameLength fft ifft) (hi : Inverse fft ifft) (hg : ∀ f, (ojtf f).length = f.length) (edges clk ties : List ℚ)
    (hb : base edges = .ok (clk, ties)) (ht : ties.length = clk.length) (h2 : 2 ≤ clk.length) :
    ∃ out r, runFft base fft ifft ojtf edges true = .ok (out, r) ∧ out.length = clk.length / 2 * 2 - 200 ∧ r.length = out.length ∧
      ((∀ f, ∀ g ∈ ojtf f, ‖g‖ = 1) → ∀ i (h : i < out.length) (h' : i < r.length) (hc : i + 100 < clk.length) (hc' : i + 100 < ties.length),
        out[i] = (clk[i + 100] : ℝ) ∧ r[i] = (ties[i + 100] : ℝ)) ∧
      ((∀ f, ∀ g ∈ ojtf f, ‖g‖ = 0) → ∀ i (h : i < out.length) (h' : i < r.length) (hc : i + 100 < clk.length) (hc' : i + 100 < ties.length),
        out[i] = (clk[i + 100] : ℝ) + ties[i + 100] ∧ r[i] = 0) := by
  obtain ⟨adj, a1, a2, a3⟩ := filtered_eq fft ifft ojtf hl hg (clk.map fun x : ℚ => (x : ℝ)) (ties.map fun x : ℚ => (x : ℝ)) (by simpa using h2)
    (by simpa using ht)
  rw [List.length_map] at a1 a2 a3
  have hlt : ((ties.map fun x : ℚ => (x : ℝ)).take (clk.length / 2 * 2)).length = clk.length / 2 * 2 := by
    rw [List.length_take, List.length_map, ht]
    omega
  have hsl : (fft ((ties.map fun x : ℚ => (x : ℝ)).take (clk.length / 2 * 2))).length = clk.length / 2 * 2 / 2 + 1 := by
    rw [(hl _).1, hlt]
  unfold runFft
  simp only [hb, bind, Except.bind, a2, if_true, pure, Except.pure]
  have e1 : (trim 100 (List.zipWith (· + ·) ((clk.map fun x : ℚ => (x : ℝ)).take (clk.length / 2 * 2)) adj)).length = clk.length / 2 * 2 - 200 := by
    rw [trim_length, List.length_zipWith, List.length_take, List.length_map, a1]
    omega
  have e2 : (trim 100 (List.zipWith (· - ·) ((ties.map fun x : ℚ => (x : ℝ)).take (clk.length / 2 * 2)) adj)).length = clk.length / 2 * 2 - 200 := by
    rw [trim_length, List.length_zipWith, List.length_take, List.length_map, a1, ht]
    omega
  refine ⟨_, _, rfl, e1, by rw [e1, e2], ?_, ?_⟩
  · intro h1
    have hadj : adj = List.replicate (clk.length / 2 * 2) 0 := by
      rw [a3, scaled_zero _ _ (h1 _) (by rw [hsl, hg]; unfold rfftFreq; simp), hsl, hi.2]
      have : clk.length / 2 * 2 / 2 * 2 = clk.length / 2 * 2 := by omega
      rw [this]
    intro i h h' hc hc'
    rw [e1] at h
    rw [trim_get _ _ _ _ (by rw [List.length_zipWith, List.length_take, List.length_map, a1]; omega),
      trim_get _ _ _ _ (by rw [List.length_zipWith, List.length_take, List.length_map, a1, ht]; omega)]
    subst hadj
    simp only [List.getElem_zipWith, List.getElem_take, List.getElem_map, List.getElem_replicate]
    exact ⟨add_zero _, sub_zero _⟩
  · intro h1
    have hadj : adj = (ties.map fun x : ℚ => (x : ℝ)).take (clk.length / 2 * 2) := by
      rw [a3, scaled_all _ _ (h1 _) (by rw [hsl, hg]; unfold rfftFreq; simp), hi.1 _ (by rw [hlt]; omega)]
    intro i h h' hc hc'
    rw [e1] at h
    rw [trim_get _ _ _ _ (by rw [List.length_zipWith, List.length_take, List.length_map, a1]; omega),
      trim_get _ _ _ _ (by rw [List.length_zipWith, List.length_take, List.length_map, a1, ht]; omega)]
    subst hadj
    simp only [List.getElem_zipWith, List.getElem_take, List.getElem_map]
    exact ⟨trivial, sub_self _⟩

/-- C65: errors of the clock recovery are passed on; recovering no clock edge or one raises an error too. -/
theorem C65_errors (base : List ℚ → Except PyErr (List ℚ × List ℚ)) (fft : List ℝ → List ℂ) (ifft : List ℂ → List ℝ) (ojtf : List ℝ → List ℂ)
    (edges : List ℚ) (resample : Bool) :
    (∀ e, base edges = .error e → runFft base fft ifft ojtf edges resample = .error e) ∧
    (∀ ties, base edges = .ok ([], ties) → runFft base fft ifft ojtf edges resample = .error .indexError) ∧
    ∀ x ties, base edges = .ok ([x], ties) → runFft base fft ifft ojtf edges resample = .error .valueError := by
  unfold runFft
  refine ⟨fun e h => ?_, fun ties h => ?_, fun x ties h => ?_⟩
  · simp only [h, bind, Except.bind]
  · simp only [h, bind, Except.bind]
    rfl
  · have hf : filtered fft ifft ojtf ([x].map fun x : ℚ => (x : ℝ)) (ties.map fun x : ℚ => (x : ℝ)) = .error .valueError := by
      unfold filtered
      simp
    simp only [h, bind, Except.bind, hf]

theorem nextOf_fold (x : ℝ) (l : List (ℝ × ℝ)) (b : Option (ℝ × ℝ)) (hb : ∀ p ∈ b, x ≤ p.1) :
    (∃ p, l.foldl (nextOf x) b = some p ∧ (p ∈ l ∨ b = some p) ∧ x ≤ p.1 ∧ (∀ q ∈ l, x ≤ q.1 → p.1 ≤ q.1) ∧ ∀ q ∈ b, p.1 ≤ q.1) ∨
    (l.foldl (nextOf x) b = none ∧ b = none ∧ ∀ q ∈ l, q.1 < x) := by
  induction l generalizing b with
  | nil =>
    cases b with
    | none => exact Or.inr ⟨rfl, rfl, by simp⟩
    | some p => exact Or.inl ⟨p, rfl, Or.inr rfl, hb p rfl, by simp, fun q hq => le_of_eq (by rw [Option.some.inj hq])⟩
  | cons a l ih =>
    rw [List.foldl_cons]
    by_cases ha : a.1 < x
    · have e : nextOf x b a = b := by unfold nextOf; rw [if_pos ha]
      rw [e]
      rcases ih b hb with ⟨p, p1, p2, p3, p4, p5⟩ | ⟨p1, p2, p3⟩
      · refine Or.inl ⟨p, p1, p2.imp (List.mem_cons_of_mem _) id, p3, ?_, p5⟩
        intro q hq hx
        rcases List.mem_cons.1 hq with rfl | hq
        · linarith
        · exact p4 q hq hx
      · refine Or.inr ⟨p1, p2, ?_⟩
        intro q hq
        rcases List.mem_cons.1 hq with rfl | hq
        · exact ha
        · exact p3 q hq
    · push Not at ha
      have key : ∀ c : ℝ × ℝ, nextOf x b a = some c → (c = a ∨ b = some c) → x ≤ c.1 → c.1 ≤ a.1 → (∀ q ∈ b, c.1 ≤ q.1) →
          (∃ p, l.foldl (nextOf x) (nextOf x b a) = some p ∧ (p ∈ a :: l ∨ b = some p) ∧ x ≤ p.1 ∧ (∀ q ∈ a :: l, x ≤ q.1 → p.1 ≤ q.1) ∧
            ∀ q ∈ b, p.1 ≤ q.1) := by
        intro c e h1 h2 h3 h4
        rw [e]
        rcases ih (some c) (fun p hp => by rw [← Option.some.inj hp]; exact h2) with ⟨p, p1, p2, p3, p4, p5⟩ | ⟨p1, p2, p3⟩
        · have p5' := p5 c rfl
          refine ⟨p, p1, ?_, p3, ?_, fun q hq => p5'.trans (h4 q hq)⟩
          · rcases p2 with p2 | p2
            · exact Or.inl (List.mem_cons_of_mem _ p2)
            · obtain rfl := Option.some.inj p2
              rcases h1 with rfl | h1
              · exact Or.inl List.mem_cons_self
              · exact Or.inr h1
          · intro q hq hx
            rcases List.mem_cons.1 hq with rfl | hq
            · exact p5'.trans h3
            · exact p4 q hq hx
        · cases p2
      left
      cases b with
      | none =>
        refine key a ?_ (Or.inl rfl) ha (le_refl _) (by simp)
        unfold nextOf
        rw [if_neg (not_lt.2 ha)]
      | some d =>
        by_cases hd : a.1 < d.1
        · refine key a ?_ (Or.inl rfl) ha (le_refl _) ?_
          · unfold nextOf
            rw [if_neg (not_lt.2 ha)]
            simp only
            rw [if_pos hd]
          · intro q hq
            obtain rfl : d = q := by simpa using hq
            exact hd.le
        · refine key d ?_ (Or.inr rfl) (hb d rfl) (not_lt.1 hd) ?_
          · unfold nextOf
            rw [if_neg (not_lt.2 ha)]
            simp only
            rw [if_neg hd]
          · intro q hq
            obtain rfl : d = q := by simpa using hq
            exact le_refl _

/-- C65: not resampled, the error at a data edge is that of the next clock edge (before trimming), after all of them that of the last one. -/
theorem C65_at_edges (base : List ℚ → Except PyErr (List ℚ × List ℚ)) (fft : List ℝ → List ℂ) (ifft : List ℂ → List ℝ) (ojtf : List ℝ → List ℂ)
    (hl : SameLength fft ifft) (hg : ∀ f, (ojtf f).length = f.length) (edges clk ties : List ℚ) (hb : base edges = .ok (clk, ties))
    (ht : ties.length = clk.length) (h2 : 2 ≤ clk.length) :
    ∃ out tiesF r, runFft base fft ifft ojtf edges false = .ok (trim 100 out, r) ∧ runFft base fft ifft ojtf edges true = .ok (trim 100 out, trim 100 tiesF) ∧
      out.length = clk.length / 2 * 2 ∧ tiesF.length = out.length ∧ r.length = edges.length ∧
      ∀ i (h : i < edges.length) (h' : i < r.length),
        (∃ j, ∃ (hj : j < out.length) (hj' : j < tiesF.length), (edges[i] : ℝ) ≤ out[j] ∧
          (∀ l (hl : l < out.length), (edges[i] : ℝ) ≤ out[l] → out[j] ≤ out[l]) ∧ r[i] = tiesF[j]) ∨
        ((∀ l (hl : l < out.length), out[l] < (edges[i] : ℝ)) ∧ some r[i] = tiesF.getLast?) := by
  obtain ⟨adj, a1, a2, -⟩ := filtered_eq fft ifft ojtf hl hg (clk.map fun x : ℚ => (x : ℝ)) (ties.map fun x : ℚ => (x : ℝ)) (by simpa using h2)
    (by simpa using ht)
  rw [List.length_map] at a1 a2
  obtain ⟨out, hout⟩ : ∃ out, List.zipWith (· + ·) ((clk.map fun x : ℚ => (x : ℝ)).take (clk.length / 2 * 2)) adj = out := ⟨_, rfl⟩
  obtain ⟨tiesF, hties⟩ : ∃ t, List.zipWith (· - ·) ((ties.map fun x : ℚ => (x : ℝ)).take (clk.length / 2 * 2)) adj = t := ⟨_, rfl⟩
  have e1 : out.length = clk.length / 2 * 2 := by
    rw [← hout, List.length_zipWith, List.length_take, List.length_map, a1]
    omega
  have e2 : tiesF.length = clk.length / 2 * 2 := by
    rw [← hties, List.length_zipWith, List.length_take, List.length_map, a1, ht]
    omega
  rw [hout, hties] at a2
  refine ⟨out, tiesF, edges.map fun x : ℚ => next out tiesF x, ?_, ?_, e1, by rw [e1, e2], by simp, ?_⟩
  · unfold runFft
    simp only [hb, bind, Except.bind, a2, Bool.false_eq_true, if_false, pure, Except.pure]
  · unfold runFft
    simp only [hb, bind, Except.bind, a2, if_true, pure, Except.pure]
  · intro i h h'
    rw [List.getElem_map]
    have hzl : (out.zip tiesF).length = out.length := by rw [List.length_zip, e1, e2, min_self]
    rcases nextOf_fold (edges[i] : ℝ) (out.zip tiesF) none (by simp) with ⟨p, p1, p2, p3, p4, -⟩ | ⟨p1, -, p3⟩
    · left
      have hp : p ∈ out.zip tiesF := by
        rcases p2 with p2 | p2
        · exact p2
        · cases p2
      obtain ⟨j, hj, rfl⟩ := List.mem_iff_getElem.1 hp
      rw [List.getElem_zip] at p3 p4 p1
      refine ⟨j, by omega, by omega, p3, ?_, ?_⟩
      · intro l hl' hx
        have := p4 (out.zip tiesF)[l] (List.getElem_mem (by omega)) (by rw [List.getElem_zip]; exact hx)
        rwa [List.getElem_zip] at this
      · unfold next
        rw [p1]
    · right
      constructor
      · intro l hl'
        have := p3 (out.zip tiesF)[l] (List.getElem_mem (by omega))
        rwa [List.getElem_zip] at this
      · unfold next
        rw [p1]
        have hne : tiesF ≠ [] := by
          intro hc
          rw [hc] at e2
          simp at e2
          omega
        rw [List.getLast?_eq_some_getLast hne]
        congr 1
        obtain ⟨a, l, rfl⟩ := List.exists_cons_of_ne_nil hne
        rw [List.getLastD_cons, List.getLast_eq_getLastD]

/-- Two samples per spectral line: a transform for the example below. -/
noncomputable def pack : List ℝ → List ℂ
  | a :: b :: l => ⟨a, b⟩ :: pack l
  | _ => [0]

noncomputable def unpack (s : List ℂ) : List ℝ := s.dropLast.flatMap fun z => [z.re, z.im]

theorem pack_length (l : List ℝ) : (pack l).length = l.length / 2 + 1 := by
  induction l using pack.induct with
  | case1 a b l ih =>
    simp only [pack, List.length_cons, ih]
    omega
  | case2 l h =>
    rcases l with - | ⟨a, - | ⟨b, l⟩⟩
    · rfl
    · simp [pack]
    · exact absurd rfl (h a b l)

theorem unpack_length (s : List ℂ) : (unpack s).length = (s.length - 1) * 2 := by
  unfold unpack
  rw [List.length_flatMap]
  simp

theorem pack_ne (l : List ℝ) : pack l ≠ [] := by
  have := pack_length l
  intro h
  rw [h] at this
  simp at this

/-- The hypotheses of C65 about the transforms are met. -/
theorem pack_transforms : SameLength pack unpack ∧ Inverse pack unpack := by
  refine ⟨fun l => ⟨pack_length l, fun s hs => ?_⟩, ?_, ?_⟩
  · rw [unpack_length, hs, Nat.add_sub_cancel]
  · intro l hl
    induction l using pack.induct with
    | case1 a b l ih =>
      have := ih (by simp only [List.length_cons] at hl; omega)
      unfold unpack at this ⊢
      rw [pack, List.dropLast_cons_of_ne_nil (pack_ne l), List.flatMap_cons, this]
      rfl
    | case2 l h =>
      rcases l with - | ⟨a, - | ⟨b, l⟩⟩
      · rfl
      · simp at hl
      · exact absurd rfl (h a b l)
  · intro n
    unfold unpack
    rw [List.dropLast_replicate, Nat.add_sub_cancel]
    induction n / 2 with
    | zero => rfl
    | succ k ih =>
      rw [List.replicate_succ, List.flatMap_cons, ih]
      rw [Nat.succ_mul, Nat.add_comm, List.replicate_add]
      rfl

/-- The other hypotheses of C65 are met: a recovered clock of 300 edges, a filter that passes everything. -/
example : ∃ (base : List ℚ → Except PyErr (List ℚ × List ℚ)) (clk ties : List ℚ) (ojtf : List ℝ → List ℂ),
    base [] = .ok (clk, ties) ∧ ties.length = clk.length ∧ 2 ≤ clk.length ∧ (∀ f, (ojtf f).length = f.length) ∧ ∀ f, ∀ g ∈ ojtf f, ‖g‖ = 1 := by
  refine ⟨fun _ => .ok ((List.range 300).map fun i : ℕ => (i : ℚ), (List.range 300).map fun i : ℕ => (i : ℚ) / 1000), _, _,
    fun f => f.map fun _ => 1, rfl, by simp, by simp, by simp, ?_⟩
  intro f g hg
  obtain ⟨x, -, rfl⟩ := List.mem_map.1 hg
  simp

end Verif.Props.CdrFft
