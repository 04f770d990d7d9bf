import Verif.Model.FloatWave
import Verif.Props.FloatStats
import Verif.Props.WaveDecode
import Verif.Props.WfmDecode

/-!
C101: the times and voltages of waveforms in double precision.
-/

namespace Verif.Props.FloatWave

open Verif Verif.Scpi Verif.Wave Verif.Float Verif.Props.Float Verif.Props.FloatStats Verif.Props.Wave
open Verif.Tek (lit)

/-! ### Specification -/

/-- Times read from a waveform: within four roundings of the true ones, in order, and different as long as the step is larger than
the rounding. -/
structure Instants (u : ℚ) (n : ℕ) (time size : ℕ → ℚ) (step : ℚ) (x : List ℚ) : Prop where
  length : x.length = n
  near : ∀ k < n, |x.getD k 0 - time k| ≤ 4 * u * size k
  ordered : 0 ≤ step → ∀ j k, j ≤ k → k < n → x.getD j 0 ≤ x.getD k 0
  strict : (∀ k < n, 8 * u * size k < step) → ∀ j k, j < k → k < n → x.getD j 0 < x.getD k 0

/-- Voltages read from a waveform with the counts `w`: within six roundings of the true ones, as are the limits; a larger count never
has a lower voltage, counts at the limits are at or beyond the voltages of the limits; different counts have different voltages as
long as the difference is larger than the rounding. -/
structure Volts (u : ℚ) (w : List ℚ) (volt size : ℚ → ℚ) (slope lo hi : ℚ) (y : List ℚ) (clipMin clipMax : ℚ) : Prop where
  length : y.length = w.length
  near : ∀ k < w.length, |y.getD k 0 - volt (w.getD k 0)| ≤ 6 * u * size (w.getD k 0)
  limits : |clipMin - volt lo| ≤ 6 * u * size lo ∧ |clipMax - volt hi| ≤ 6 * u * size hi
  ordered : 0 ≤ slope → ∀ j < w.length, ∀ k < w.length, w.getD j 0 ≤ w.getD k 0 → y.getD j 0 ≤ y.getD k 0
  clipped : 0 ≤ slope → ∀ k < w.length, (hi ≤ w.getD k 0 → clipMax ≤ y.getD k 0) ∧ (w.getD k 0 ≤ lo → y.getD k 0 ≤ clipMin) ∧
    (w.getD k 0 ≤ hi → y.getD k 0 ≤ clipMax) ∧ (lo ≤ w.getD k 0 → clipMin ≤ y.getD k 0)
  strict : ∀ j < w.length, ∀ k < w.length, 6 * u * (size (w.getD j 0) + size (w.getD k 0)) < slope * (w.getD k 0 - w.getD j 0) →
    y.getD j 0 < y.getD k 0
  unclipped : ∀ k < w.length, (6 * u * (size (w.getD k 0) + size hi) < slope * (hi - w.getD k 0) → y.getD k 0 < clipMax) ∧
    (6 * u * (size (w.getD k 0) + size lo) < slope * (w.getD k 0 - lo) → clipMin < y.getD k 0)

/-! ### Rounding -/

theorem fl_nonneg (R : Rounding) {x : ℚ} (h : 0 ≤ x) : 0 ≤ R.fl x := by
  rcases eq_or_lt_of_le h with e | e
  · rw [← e, fl_zero]
  · exact ((fl_pos R).2 e).le

/-- The error of a term that was rounded several times. -/
theorem term (u m x P : ℚ) (hP : |P - 1| ≤ m * u) : |x * P - x| ≤ m * u * |x| := by
  have : x * P - x = x * (P - 1) := by ring
  rw [this, abs_mul, mul_comm]
  exact mul_le_mul_of_nonneg_right hP (abs_nonneg _)

theorem instants_of (F : Floats) (n : ℕ) (time size : ℕ → ℚ) (step : ℚ) (x : List ℚ) (g : ℕ → ℚ) (hx : x = (List.range n).map g)
    (hnear : ∀ k < n, |g k - time k| ≤ 4 * F.u * size k) (hord : 0 ≤ step → ∀ j k, j ≤ k → g j ≤ g k)
    (htime : ∀ j k : ℕ, time k - time j = (k - j) * step) (hsize : ∀ k, 0 ≤ size k) : Instants F.u n time size step x := by
  have hg : ∀ k < n, x.getD k 0 = g k := by
    intro k hk
    rw [hx, List.getD_eq_getElem _ _ (by simpa using hk)]
    simp
  refine ⟨by simp [hx], fun k hk => by rw [hg k hk]; exact hnear k hk, fun hs j k hjk hk => ?_, fun hs j k hjk hk => ?_⟩
  · rw [hg j (by omega), hg k hk]; exact hord hs j k hjk
  · rw [hg j (by omega), hg k hk]
    have h1 := abs_le.1 (hnear j (by omega))
    have h2 := abs_le.1 (hnear k hk)
    have h3 := htime j k
    have h4 := hs j (by omega)
    have h5 := hs k hk
    have h6 : (1 : ℚ) ≤ (k : ℚ) - j := by
      have : (j : ℚ) + 1 ≤ k := by exact_mod_cast hjk
      linarith
    have h0 : 0 ≤ step := by
      have := mul_nonneg (mul_nonneg (by norm_num : (0:ℚ) ≤ 8) F.u_nonneg) (hsize k)
      linarith
    have h7 : step ≤ ((k : ℚ) - j) * step := by nlinarith
    linarith [h1.2, h2.1]

theorem volts_of (F : Floats) (w : List ℚ) (volt size : ℚ → ℚ) (slope lo hi : ℚ) (g : ℚ → ℚ)
    (hnear : ∀ v, |g v - volt v| ≤ 6 * F.u * size v) (hord : 0 ≤ slope → ∀ a b, a ≤ b → g a ≤ g b)
    (hvolt : ∀ a b, volt b - volt a = slope * (b - a)) : Volts F.u w volt size slope lo hi (w.map g) (g lo) (g hi) := by
  have hg : ∀ k < w.length, (w.map g).getD k 0 = g (w.getD k 0) := by
    intro k hk
    rw [List.getD_eq_getElem _ _ (by simpa using hk), List.getD_eq_getElem _ _ hk]
    simp
  have hstrict : ∀ a b, 6 * F.u * (size a + size b) < slope * (b - a) → g a < g b := by
    intro a b h
    have h1 := abs_le.1 (hnear a)
    have h2 := abs_le.1 (hnear b)
    have h3 := hvolt a b
    linarith [h1.2, h2.1]
  refine ⟨by simp, fun k hk => by rw [hg k hk]; exact hnear _, ⟨hnear _, hnear _⟩, fun hs j hj k hk h => ?_, fun hs k hk => ?_,
    fun j hj k hk h => ?_, fun k hk => ?_⟩
  · rw [hg j hj, hg k hk]; exact hord hs _ _ h
  · rw [hg k hk]
    exact ⟨hord hs _ _, hord hs _ _, hord hs _ _, hord hs _ _⟩
  · rw [hg j hj, hg k hk]; exact hstrict _ _ h
  · rw [hg k hk]
    exact ⟨hstrict _ _, fun h => hstrict _ _ (by linarith)⟩

theorem volt_near (R : Rounding) (off mult zero w : ℚ) :
    |voltF R (R.fl off) (R.fl mult) (R.fl zero) w - ((w - off) * mult + zero)| ≤ 6 * R.u * ((|w| + |off|) * |mult| + |zero|) := by
  have hu := R.u_nonneg
  have hs := R.u_small
  unfold voltF
  obtain ⟨a, ha, ea⟩ := rel R off
  obtain ⟨c, hc, ec⟩ := rel R mult
  obtain ⟨e, he, ee⟩ := rel R zero
  obtain ⟨b, hb, eb⟩ := rel R (w - R.fl off)
  obtain ⟨d, hd, ed⟩ := rel R (R.fl (w - R.fl off) * R.fl mult)
  obtain ⟨f, hf, ef⟩ := rel R (R.fl (R.fl (w - R.fl off) * R.fl mult) + R.fl zero)
  rw [ef, ed, eb, ea, ec, ee]
  have p1 : |(1 + b) - 1| ≤ 1 * R.u := by simpa using hb
  have p2 := step hu hs (by norm_num) p1 hc
  have p3 := step hu hs (by norm_num) p2 hd
  have p4 := step hu hs (by norm_num) p3 hf
  have p5 := step hu hs (by norm_num) p4 ha
  have q1 : |(1 + e) - 1| ≤ 1 * R.u := by simpa using he
  have q2 := step hu hs (by norm_num) q1 hf
  have t1 := term R.u 6 (w * mult) ((1 + b) * (1 + c) * (1 + d) * (1 + f)) (p4.trans (by nlinarith))
  have t2 := term R.u 6 (off * mult) ((1 + b) * (1 + c) * (1 + d) * (1 + f) * (1 + a)) (p5.trans (by nlinarith))
  have t3 := term R.u 6 zero ((1 + e) * (1 + f)) (q2.trans (by nlinarith))
  have key : ((w - off * (1 + a)) * (1 + b) * (mult * (1 + c)) * (1 + d) + zero * (1 + e)) * (1 + f) - ((w - off) * mult + zero) =
      (w * mult * ((1 + b) * (1 + c) * (1 + d) * (1 + f)) - w * mult) +
      -(off * mult * ((1 + b) * (1 + c) * (1 + d) * (1 + f) * (1 + a)) - off * mult) +
      (zero * ((1 + e) * (1 + f)) - zero) := by ring
  rw [key]
  refine (abs_add_le _ _).trans ?_
  refine (add_le_add_left (abs_add_le _ _) _).trans ?_
  rw [abs_neg]
  rw [abs_mul] at t1 t2
  linarith

theorem volt_mono (F : Floats) (off mult zero : ℚ) (hm : 0 ≤ mult) (a b : ℚ) (h : a ≤ b) :
    voltF F.toRounding off (F.fl mult) zero a ≤ voltF F.toRounding off (F.fl mult) zero b := by
  unfold voltF
  apply F.mono
  have h1 : F.fl (a - off) ≤ F.fl (b - off) := F.mono _ _ (by linarith)
  have h2 := F.mono _ _ (mul_le_mul_of_nonneg_right h1 (fl_nonneg F.toRounding hm))
  linarith

theorem time_near (R : Rounding) (z i k : ℚ) : |R.fl (R.fl z + R.fl (R.fl i * k)) - (z + i * k)| ≤ 4 * R.u * (|z| + |i| * |k|) := by
  have hu := R.u_nonneg
  have hs := R.u_small
  obtain ⟨a, ha, ea⟩ := rel R z
  obtain ⟨b, hb, eb⟩ := rel R i
  obtain ⟨c, hc, ec⟩ := rel R (R.fl i * k)
  obtain ⟨d, hd, ed⟩ := rel R (R.fl z + R.fl (R.fl i * k))
  rw [ed, ec, ea, eb]
  have p1 : |(1 + b) - 1| ≤ 1 * R.u := by simpa using hb
  have p2 := step hu hs (by norm_num) p1 hc
  have p3 := step hu hs (by norm_num) p2 hd
  have q1 : |(1 + a) - 1| ≤ 1 * R.u := by simpa using ha
  have q2 := step hu hs (by norm_num) q1 hd
  have t1 := term R.u 4 (i * k) ((1 + b) * (1 + c) * (1 + d)) (p3.trans (by nlinarith))
  have t2 := term R.u 4 z ((1 + a) * (1 + d)) (q2.trans (by nlinarith))
  have key : (z * (1 + a) + i * (1 + b) * k * (1 + c)) * (1 + d) - (z + i * k) =
      (i * k * ((1 + b) * (1 + c) * (1 + d)) - i * k) + (z * ((1 + a) * (1 + d)) - z) := by ring
  rw [key]
  refine (abs_add_le _ _).trans ?_
  rw [abs_mul] at t1
  linarith

theorem time_mono (F : Floats) (z i : ℚ) (hi : 0 ≤ i) (a b : ℚ) (h : a ≤ b) :
    F.fl (z + F.fl (F.fl i * a)) ≤ F.fl (z + F.fl (F.fl i * b)) := by
  apply F.mono
  have := F.mono _ _ (mul_le_mul_of_nonneg_left h (fl_nonneg F.toRounding hi))
  linarith

/-! ### Replies -/

/-- The counts of a reply in floats. -/
def waveF (R : Rounding) (q : Acq) (noise : Bool) (r : ℕ → ℚ) : List ℚ :=
  if noise then ditherF R (-fullScale q.size) (fullScale q.size) (8 * q.size) (fun c => c) q.codes r else q.codes.map fun c : ℤ => (c : ℚ)

/-- What is returned in floats. -/
def resultF (R : Rounding) (q : Acq) (raw noise : Bool) (r : ℕ → ℚ) : Result :=
  let m := fullScale q.size
  let conv : ℚ → ℚ := fun y => if raw then y else voltF R (R.fl q.yOff) (R.fl q.yMult) (R.fl q.yZero) y
  { x := (List.range q.codes.length).map fun k : ℕ => R.fl (R.fl q.xZero + R.fl (R.fl q.xIncr * k))
    y := (waveF R q noise r).map conv
    info :=
      { config := q.config
        xUnit := q.xUnit
        yUnit := if raw then lit "ADC Counts" else q.yUnit
        xIncr := R.fl q.xIncr
        yIncr := if raw then 1 else R.fl q.yMult
        clipMin := conv (-m)
        clipMax := conv m
        top := decide (∃ c ∈ q.codes, m ≤ c)
        bottom := decide (∃ c ∈ q.codes, c ≤ -m) } }

theorem queryF_reply (R : Rounding) (dec : List UInt8 → Option Str) (data : List UInt8) (h : Hdr) (q : Acq) (hr : Reply dec data h q)
    (raw noise : Bool) (r : ℕ → ℚ) : parseQueryF R dec data raw noise r = .ok (resultF R q raw noise r) := by
  obtain ⟨hb, text, curve, s, S, b1, n, hsplit, hdec, hp, horder, hcur, hhex, k1, k2, k3, k4, k5, k6, k7, k8, k9, k10, k11, k12, hcodes, hlim⟩ :=
    reply_facts dec data h q hr
  have hlen : (waveF R q noise r).length = q.codes.length := by
    unfold waveF; cases noise <;> simp [ditherF]
  have hany : ∀ m : ℤ, (q.codes.any fun c => decide (m ≤ c)) = decide (∃ c ∈ q.codes, m ≤ c) := by
    intro m; rw [Bool.eq_iff_iff]; simp
  have hany2 : ∀ m : ℤ, (q.codes.any fun c => decide (c ≤ m)) = decide (∃ c ∈ q.codes, c ≤ m) := by
    intro m; rw [Bool.eq_iff_iff]; simp
  have hw : (if noise = true then ditherF R (-fullScale q.size) (fullScale q.size) (8 * q.size) (fun c => c) q.codes r
      else q.codes.map fun c : ℤ => (c : ℚ)) = waveF R q noise r := rfl
  unfold parseQueryF
  rw [hsplit]
  simp only [bind, Except.bind, hdec, pure, Except.pure, hp, horder, lastRoot, List.getLast?_singleton]
  unfold decodeCurveF
  simp only [bind, Except.bind, pure, Except.pure, k1, k2, k3, k4, k5, k6, k10, k12, asInt, asNumF, asNum, asText, hcur,
    hhex, hcodes, hlim, if_neg hr.nonempty]
  rw [if_neg (by simp)]
  simp only [Int.toNat_natCast, hw]
  unfold convertF resultF
  cases raw with
  | true =>
    simp only [if_true, hlen]
    simp [hany, hany2]
  | false =>
    simp only [bind, Except.bind, pure, Except.pure, k7, k8, k9, k11, asNumF, asNum, asText, Bool.false_eq_true, if_false, hlen, if_true]
    simp [hany, hany2]

/-- **C101** for replies: in floats the times and voltages are those that the header describes up to a few roundings, in the right
order and different where the difference is larger than that; the clipped samples are those beyond the reported limits.  The counts
are those of the raw reply (without noise the codes). -/
theorem C101_query (F : Floats) (dec : List UInt8 → Option Str) (data : List UInt8) (h : Hdr) (q : Acq) (hr : Reply dec data h q)
    (noise : Bool) (r : ℕ → ℚ) :
    ∃ raw res, parseQueryF F.toRounding dec data true noise r = .ok raw ∧ parseQueryF F.toRounding dec data false noise r = .ok res ∧
      raw.x = res.x ∧ Instants F.u q.codes.length (fun k => q.xZero + q.xIncr * k) (fun k => |q.xZero| + |q.xIncr| * k) q.xIncr res.x ∧
      Volts F.u raw.y (fun w => (w - q.yOff) * q.yMult + q.yZero) (fun w => (|w| + |q.yOff|) * |q.yMult| + |q.yZero|) q.yMult
        (-fullScale q.size) (fullScale q.size) res.y res.info.clipMin res.info.clipMax ∧
      raw.info.clipMin = -fullScale q.size ∧ raw.info.clipMax = fullScale q.size ∧ raw.y.length = q.codes.length ∧
      (noise = false → raw.y = q.codes.map fun c : ℤ => (c : ℚ)) ∧
      (∀ i ∈ [raw.info, res.info], (i.top = true ↔ ∃ c ∈ q.codes, fullScale q.size ≤ c) ∧ (i.bottom = true ↔ ∃ c ∈ q.codes, c ≤ -fullScale q.size) ∧
        i.xIncr = F.fl q.xIncr ∧ i.xUnit = q.xUnit ∧ i.config = q.config) ∧
      res.info.yUnit = q.yUnit ∧ res.info.yIncr = F.fl q.yMult ∧ raw.info.yUnit = lit "ADC Counts" ∧ raw.info.yIncr = 1 := by
  have hy : (resultF F.toRounding q true noise r).y = waveF F.toRounding q noise r := by simp [resultF]
  have hlen : (waveF F.toRounding q noise r).length = q.codes.length := by unfold waveF; cases noise <;> simp [ditherF]
  refine ⟨_, _, queryF_reply F.toRounding dec data h q hr true noise r, queryF_reply F.toRounding dec data h q hr false noise r, rfl, ?_, ?_,
    by simp [resultF], by simp [resultF], by rw [hy, hlen],
    fun hn => by rw [hy, waveF, if_neg (by simp [hn])], ?_, by simp [resultF], by simp [resultF], by simp [resultF], by simp [resultF]⟩
  · refine instants_of F _ _ _ _ _ _ rfl (fun k _ => ?_) (fun hs j k hjk => time_mono F _ _ hs _ _ (by exact_mod_cast hjk))
      (fun j k => by ring) (fun k => by positivity)
    have := time_near F.toRounding q.xZero q.xIncr k
    rwa [Nat.abs_cast] at this
  · rw [hy]
    have := volts_of F (waveF F.toRounding q noise r) (fun w => (w - q.yOff) * q.yMult + q.yZero)
      (fun w => (|w| + |q.yOff|) * |q.yMult| + |q.yZero|) q.yMult (-fullScale q.size) (fullScale q.size)
      (voltF F.toRounding (F.fl q.yOff) (F.fl q.yMult) (F.fl q.yZero)) (fun v => volt_near F.toRounding _ _ _ v)
      (fun hs a b hab => volt_mono F _ _ _ hs a b hab) (fun a b => by ring)
    simpa [resultF] using this
  · intro i hi
    simp only [List.mem_cons, List.not_mem_nil, or_false] at hi
    rcases hi with rfl | rfl <;> simp [resultF]

/-! ### Noise -/

theorem uniform_near (R : Rounding) (c r : ℚ) (lsb : ℕ) (h0 : 0 ≤ r) (h1 : r ≤ 1) :
    |R.fl (c + uniformF R lsb r) - (c + 2 ^ lsb * (r - 1 / 2))| ≤ 3 * R.u * (|c| + 2 ^ lsb) := by
  have hu := R.u_nonneg
  have hs := R.u_small
  unfold uniformF
  have hP : (0 : ℚ) < 2 ^ lsb := by positivity
  generalize (2 : ℚ) ^ lsb = P at *
  have e1 := R.err (P * r)
  have e2 := R.err (-(P / 2) + R.fl (P * r))
  have e3 := R.err (c + R.fl (-(P / 2) + R.fl (P * r)))
  have m0 : 0 ≤ P * r := by positivity
  have m1 : P * r ≤ P := by nlinarith
  rw [abs_of_nonneg m0] at e1
  have uP : R.u * P ≤ 1 / 100 * P := mul_le_mul_of_nonneg_right hs hP.le
  have u0 : 0 ≤ R.u * P := mul_nonneg hu hP.le
  have a1 : |R.fl (P * r) - P * r| ≤ R.u * P := e1.trans (mul_le_mul_of_nonneg_left m1 hu)
  have b1 := abs_le.1 a1
  have a2 : |-(P / 2) + R.fl (P * r)| ≤ 51 / 100 * P := by rw [abs_le]; constructor <;> linarith
  have a3 : |R.fl (-(P / 2) + R.fl (P * r)) - (-(P / 2) + R.fl (P * r))| ≤ 51 / 100 * (R.u * P) := by
    refine e2.trans ((mul_le_mul_of_nonneg_left a2 hu).trans ?_); linarith
  have b3 := abs_le.1 a3
  have b2 := abs_le.1 a2
  have a4 : |c + R.fl (-(P / 2) + R.fl (P * r))| ≤ |c| + 52 / 100 * P := by
    refine (abs_add_le _ _).trans ?_
    have : |R.fl (-(P / 2) + R.fl (P * r))| ≤ 52 / 100 * P := by rw [abs_le]; constructor <;> linarith
    linarith
  have a5 := e3.trans (mul_le_mul_of_nonneg_left a4 hu)
  have b5 := abs_le.1 a5
  have u2 : 0 ≤ R.u * |c| := mul_nonneg hu (abs_nonneg _)
  rw [abs_le]
  constructor <;> nlinarith [b1.1, b1.2, b3.1, b3.2, b5.1, b5.2]

/-- Halves of integers are doubles. -/
theorem double_half (n : ℤ) (h : |n| ≤ 2 ^ 53) : double.fl ((n : ℚ) / 2) = n / 2 := by
  have := nearest_rep n (-1) h
  rw [zpow_neg_one, ← div_eq_mul_inv] at this
  exact this

theorem double_dither (lo hi : ℤ) (hlo : |lo| ≤ 2 ^ 16) (hhi : |hi| ≤ 2 ^ 16) (bits : ℕ) (codes : List ℤ) (hc : ∀ c ∈ codes, |c| ≤ 2 ^ 15)
    (hl : lsbLoop codes bits 0 ≤ 16) (r : ℕ → ℚ) (hr : ∀ k, 0 ≤ r k ∧ r k ≤ 1 - 1 / 2 ^ 36) :
    ∃ u : ℕ → ℚ, (∀ k, -(1 / 2) ≤ u k ∧ u k < 1 / 2) ∧ ditherF double lo hi bits (fun c => c) codes r = dither lo hi bits codes u := by
  set lsb := lsbLoop codes bits 0 with hlsb
  have hP : (0 : ℚ) < 2 ^ lsb := by positivity
  have hP1 : (1 : ℚ) ≤ 2 ^ lsb := one_le_pow₀ (by norm_num)
  refine ⟨fun k => (double.fl ((codes.getD k 0 : ℤ) + uniformF double lsb (r k)) - (codes.getD k 0 : ℤ)) / 2 ^ lsb, fun k => ?_, ?_⟩
  · have hck : |codes.getD k 0| ≤ 2 ^ 15 := by
      by_cases hk : k < codes.length
      · rw [List.getD_eq_getElem _ _ hk]; exact hc _ (List.getElem_mem _)
      · rw [List.getD_eq_default _ _ (by omega)]; norm_num
    beta_reduce
    generalize codes.getD k 0 = c at hck ⊢
    have hcq : |(c : ℚ)| ≤ 2 ^ 15 := by exact_mod_cast hck
    constructor
    · rw [le_div_iff₀ hP]
      have hpz : ((2 ^ lsb : ℤ) : ℚ) = 2 ^ lsb := by push_cast; rfl
      have hpb : (2 : ℤ) ^ lsb ≤ 2 ^ 16 := pow_le_pow_right₀ (by norm_num) hl
      have hp0 : (0 : ℤ) < 2 ^ lsb := by positivity
      have s1 : 0 ≤ double.fl (2 ^ lsb * r k) := fl_nonneg double (mul_nonneg hP.le (hr k).1)
      have s2 : -(2 ^ lsb / 2) ≤ uniformF double lsb (r k) := by
        have := doubles.mono (((-2 ^ lsb : ℤ) : ℚ) / 2) (-(2 ^ lsb / 2) + double.fl (2 ^ lsb * r k)) (by push_cast; linarith)
        have e := double_half (-2 ^ lsb) (by rw [abs_neg, abs_of_pos hp0]; exact hpb.trans (by norm_num))
        unfold uniformF
        have e' : doubles.fl (((-2 ^ lsb : ℤ) : ℚ) / 2) = ((-2 ^ lsb : ℤ) : ℚ) / 2 := e
        rw [e'] at this
        push_cast at this
        have h2 : doubles.fl (-(2 ^ lsb / 2) + double.fl (2 ^ lsb * r k)) = double.fl (-(2 ^ lsb / 2) + double.fl (2 ^ lsb * r k)) := rfl
        rw [h2] at this
        linarith
      have h3 := doubles.mono (((2 * c - 2 ^ lsb : ℤ) : ℚ) / 2) (c + uniformF double lsb (r k)) (by push_cast; linarith)
      have e := double_half (2 * c - 2 ^ lsb) (by
        have := abs_le.1 hck
        rw [abs_le]; constructor <;> omega)
      have e' : doubles.fl (((2 * c - 2 ^ lsb : ℤ) : ℚ) / 2) = ((2 * c - 2 ^ lsb : ℤ) : ℚ) / 2 := e
      rw [e'] at h3
      have h2 : doubles.fl (c + uniformF double lsb (r k)) = double.fl (c + uniformF double lsb (r k)) := rfl
      rw [h2] at h3
      push_cast at h3
      linarith
    · rw [div_lt_iff₀ hP]
      have h4 := abs_le.1 (uniform_near double c (r k) lsb (hr k).1 ((hr k).2.trans (by norm_num)))
      have hu : double.u = 1 / 2 ^ 53 := rfl
      rw [hu] at h4
      have h5 : 2 ^ lsb * r k ≤ 2 ^ lsb * (68719476735 / 68719476736) :=
        mul_le_mul_of_nonneg_left ((hr k).2.trans (by norm_num)) hP.le
      norm_num at h4 hcq
      linarith [h4.2]
  · unfold ditherF dither
    simp only [← hlsb]
    apply List.ext_getElem
    · simp
    · intro k h1 h2
      simp only [List.getElem_mapIdx]
      have hk : k < codes.length := by simpa using h1
      rw [List.getD_eq_getElem _ _ hk]
      have ehi : double.fl ((hi : ℚ) - 1 / 2) = hi - 1 / 2 := by
        have := double_half (2 * hi - 1) (by
          have := abs_le.1 hhi
          rw [abs_le]; constructor <;> omega)
        have e : ((2 * hi - 1 : ℤ) : ℚ) / 2 = hi - 1 / 2 := by push_cast; ring
        rwa [e] at this
      have elo : double.fl ((lo : ℚ) + 1 / 2) = lo + 1 / 2 := by
        have := double_half (2 * lo + 1) (by
          have := abs_le.1 hlo
          rw [abs_le]; constructor <;> omega)
        have e : ((2 * lo + 1 : ℤ) : ℚ) / 2 = lo + 1 / 2 := by push_cast; ring
        rwa [e] at this
      unfold ditherOneF ditherOne
      simp only [ehi, elo]
      have e : ((codes[k] : ℤ) : ℚ) + 2 ^ lsb * ((double.fl (codes[k] + uniformF double lsb (r k)) - codes[k]) / 2 ^ lsb) =
          double.fl (codes[k] + uniformF double lsb (r k)) := by
        rw [mul_div_cancel₀ _ hP.ne']; ring
      rw [e]

/-- **C101, partial**, noise in doubles: unless a random number is within rounding of 1, each sample moves by at most half of the true
least significant bit, nothing leaves the limits, and clipped samples stay clipped when all bits are in use (as in C38). -/
theorem C101_noise_partial (dec : List UInt8 → Option Str) (data : List UInt8) (h : Hdr) (q : Acq) (hr : Reply dec data h q) (r : ℕ → ℚ)
    (hrand : ∀ k, 0 ≤ r k ∧ r k ≤ 1 - 1 / 2 ^ 36) (h0 : ∃ c ∈ q.codes, c ≠ 0)
    (hin : ∀ c ∈ q.codes, -fullScale q.size ≤ c ∧ c ≤ fullScale q.size) :
    ∃ raw, parseQueryF double dec data true true r = .ok raw ∧ Dithered (-fullScale q.size) (fullScale q.size) q.codes raw.y := by
  have hfs : 0 < fullScale q.size ∧ fullScale q.size ≤ 32512 := by unfold fullScale; split <;> norm_num
  have hb : -2 ^ (8 * q.size) < -fullScale q.size ∧ fullScale q.size < 2 ^ (8 * q.size) := by
    unfold fullScale; rcases hr.size with e | e <;> simp [e]
  have hab : ∀ c ∈ q.codes, |c| ≤ 2 ^ 15 := by
    intro c hc
    have := hin c hc
    rw [abs_le]; constructor <;> omega
  have hl := lsb_found q.codes (8 * q.size) h0 (fun c hc => abs_lt.2 ⟨lt_of_lt_of_le hb.1 (hin c hc).1, lt_of_le_of_lt (hin c hc).2 hb.2⟩)
  have hle : lsbLoop q.codes (8 * q.size) 0 ≤ 16 := by
    obtain ⟨c, hc, hc0⟩ := h0
    have h1 := Int.le_of_dvd (abs_pos.2 hc0) ((dvd_abs _ _).2 (hl.1 c hc))
    have h2 : (2 : ℤ) ^ lsbLoop q.codes (8 * q.size) 0 ≤ 2 ^ 15 := h1.trans (hab c hc)
    have := (pow_le_pow_iff_right₀ (by norm_num : (1:ℤ) < 2)).1 h2
    omega
  obtain ⟨u, hu, e⟩ := double_dither (-fullScale q.size) (fullScale q.size) (by rw [abs_le]; constructor <;> omega)
    (by rw [abs_le]; constructor <;> omega) (8 * q.size) q.codes hab hle r hrand
  refine ⟨_, queryF_reply double dec data h q hr true true r, ?_⟩
  have hy : (resultF double q true true r).y = dither (-fullScale q.size) (fullScale q.size) (8 * q.size) q.codes u := by
    rw [← e]; simp [resultF, waveF]
  rw [hy]
  exact C38_dither_partial _ _ (by omega) _ hb _ h0 hin u hu

/-- **C101 fails** for random numbers next to 1: rounding then moves a sample by a whole code, to the limit, and a clipped sample away from
the limit. -/
theorem C101_noise_fails : double.fl (1 - 1 / 2 ^ 53) = 1 - 1 / 2 ^ 53 ∧
    ditherF double (-127) 127 8 (fun c => c) [126, -127, 3] (fun _ => 1 - 1 / 2 ^ 53) = [127, -253 / 2, 7 / 2] ∧
    ∀ u : ℕ → ℚ, (∀ k, -(1 / 2) ≤ u k ∧ u k < 1 / 2) →
      ∀ y, (dither (-127) 127 8 [126, -127, 3] u)[0]? = some y → y ≠ 127 := by
  refine ⟨by decide +kernel, by decide +kernel, ?_⟩
  intro u hu y hy e
  have hd := C38_dither_partial (-127) 127 (by norm_num) 8 (by norm_num) [126, -127, 3] ⟨3, by simp, by norm_num⟩ (by decide) u hu
  obtain ⟨k, hk, hn⟩ := hd.near
  have hk0 : k = 0 := by
    by_contra hne
    have := hk.1 3 (by simp)
    have h2 : (2 : ℤ) ∣ 3 := (dvd_pow_self 2 hne).trans this
    norm_num at h2
  have := hn 0 126 y rfl hy
  rw [e, hk0] at this
  norm_num at this

/-! ### Files -/

open Verif.Wfm Verif.Props.Wfm

/-- The columns of a frame that are returned. -/
def cut {α : Type} (r : Recording) (prepost : Bool) (l : List α) : List α := if prepost then l else (l.drop r.nPre).take r.n

theorem cut_map {α β : Type} (r : Recording) (prepost : Bool) (f : α → β) (l : List α) : cut r prepost (l.map f) = (cut r prepost l).map f := by
  unfold cut; split
  · rfl
  · rw [List.map_take, List.map_drop]

theorem trim_cut (r : Recording) (t : ℤ) (prepost : Bool) (a b : List (Option ℚ)) (ha : a.length = r.nPre + r.n + r.nPost)
    (hb : b.length = r.nPre + r.n + r.nPost) : (headOf r t).trim prepost ⟨a, b⟩ = ⟨cut r prepost a, cut r prepost b⟩ := by
  unfold Head.trim cut
  cases prepost with
  | true => rfl
  | false =>
    simp only [Bool.false_eq_true, if_false, Frame.mk.injEq]
    have hp : (headOf r t).pre = (r.nPre : ℤ) := rfl
    have hs : (headOf r t).samples = (r.n : ℤ) := rfl
    rw [hp, hs, slice_mid _ r.nPre r.n r.nPost ha, slice_mid _ r.nPre r.n r.nPost hb]
    exact ⟨rfl, rfl⟩

/-- The time of column `k` in floats. -/
def instantF (R : Rounding) (r : Recording) (s : Shot) (k : ℤ) : ℚ := R.fl (R.fl (R.fl ((k - r.nPre : ℤ) + s.tt) * r.xScale) + r.xOffset)

theorem timesF_eq (R : Rounding) (r : Recording) (t : ℤ) (s : Shot) (hpp : r.nPre = r.nPost) :
    timesF R (headOf r t) (some s.tt) = ((List.range (r.nPre + r.n + r.nPost)).map fun k : ℕ => instantF R r s k).map some := by
  unfold timesF
  have : ((headOf r t).samples + (headOf r t).post - -(headOf r t).post).toNat = r.nPre + r.n + r.nPost := by
    simp only [headOf]; omega
  rw [this, List.map_map]
  apply List.map_congr_left
  intro k _
  simp only [headOf, oaddF, omulF, Option.bind_eq_bind, Option.bind_some, Option.pure_def, Function.comp, instantF]
  rw [hpp, show (-(r.nPost : ℤ) + k) = k - r.nPost by ring]

/-- The voltage of a count in floats. -/
def fileVolt (R : Rounding) (r : Recording) (raw : Bool) (w : ℚ) : ℚ := if raw then w else R.fl (R.fl (w * r.yScale) + r.yOffset)

theorem fileVoltF_eq (R : Rounding) (r : Recording) (t : ℤ) (raw : Bool) (w : ℚ) : fileVoltF R (headOf r t) raw w = some (fileVolt R r raw w) := by
  unfold fileVoltF fileVolt
  cases raw <;> simp [headOf, oaddF, omulF]

/-- The counts of a file in floats. -/
def fileWave (R : Rounding) (r : Recording) (noise : Bool) (d : ℕ → ℚ) : List ℚ :=
  if noise then ditherF R (R.fl r.lo) (R.fl r.hi) (8 * r.width) (fun c => R.fl c) r.codes d else r.codes.map fun c : ℤ => R.fl c

/-- The counts of frame `i`. -/
def chunk (R : Rounding) (r : Recording) (noise : Bool) (d : ℕ → ℚ) (i : ℕ) : List ℚ :=
  ((fileWave R r noise d).drop (i * (r.nPre + r.n + r.nPost))).take (r.nPre + r.n + r.nPost)

theorem fileF_holds (R : Rounding) (dec : List UInt8 → Option Str) (data : List UInt8) (r : Recording) (trail : ℕ)
    (h : Holds dec data r 0 trail) (ht : r.others = [] ∨ trail = 0) (hpp : r.nPre = r.nPost) (raw noise prepost : Bool) (d : ℕ → ℚ) :
    ∃ times t, Times r.shots times ∧ (∀ i < r.shots.length, (chunk R r noise d i).length = r.nPre + r.n + r.nPost) ∧
      parseWfmF R dec data raw noise prepost d =
      .ok (r.shots.mapIdx fun i s => ⟨(cut r prepost ((List.range (r.nPre + r.n + r.nPost)).map fun k : ℕ => instantF R r s k)).map some,
        ((cut r prepost (chunk R r noise d i)).map (fileVolt R r raw)).map some⟩, fileInfoF R (headOf r t) raw prepost r.codes times) := by
  obtain ⟨t, h1, h2⟩ := head_holds dec data r 0 trail h
  obtain ⟨ts, h3, h4⟩ := heads_holds data r.others h.others
  set N := r.nPre + r.n + r.nPost with hN
  have hcl := codes_length dec data r 0 trail h
  have hwl : (fileWave R r noise d).length = (r.others.length + 1) * N := by
    rw [← hcl]; unfold fileWave; cases noise <;> simp [ditherF]
  have hylen : ∀ i, i < r.shots.length → (chunk R r noise d i).length = N := by
    intro i hi
    unfold chunk
    rw [List.length_take, List.length_drop, hwl, ← hN]
    have hsl : r.shots.length = r.others.length + 1 := by simp [Recording.shots]
    have : (i + 1) * N ≤ (r.others.length + 1) * N := Nat.mul_le_mul (by omega) (le_refl _)
    have e : (i + 1) * N = i * N + N := by ring
    omega
  refine ⟨t :: ts, t, List.Forall₂.cons h2 h4, hylen, ?_⟩
  have hnoisy : noisyF R (headOf r t) noise r.codes d = .ok (fileWave R r noise d) := by
    unfold noisyF fileWave
    cases noise with
    | false => rfl
    | true =>
      have : ¬ (headOf r t).all * ((headOf r t).ff + 1) < 0 := by
        have : (headOf r t).all * ((headOf r t).ff + 1) = (r.codes.length : ℤ) := by
          rw [hcl]; simp only [Head.all, headOf]; push_cast; ring
        omega
      simp only [if_true, if_neg this]
      rfl
  have hff : (headOf r t).ff = r.others.length := rfl
  have hconv : (fileWave R r noise d).map (fileVoltF R (headOf r t) raw) = ((fileWave R r noise d).map (fileVolt R r raw)).map some := by
    rw [List.map_map]
    exact List.map_congr_left fun w _ => fileVoltF_eq R r t raw w
  have hparts : splitEqual (((fileWave R r noise d).map (fileVolt R r raw)).map some) (r.others.length + 1) =
      .ok ((List.range (r.others.length + 1)).map fun i : ℕ => ((chunk R r noise d i).map (fileVolt R r raw)).map some) := by
    unfold splitEqual chunk
    rw [List.length_map, List.length_map, hwl, if_neg (by simp [Nat.mul_mod_right]), Nat.mul_div_cancel_left _ (by omega)]
    congr 1
    apply List.map_congr_left
    intro i _
    rw [← hN, List.map_take, List.map_drop, List.map_take, List.map_drop]
  have hheads : (some r.first.tt, t) :: List.zipWith (fun (s : Shot) t => (some s.tt, t)) r.others ts =
      List.zipWith (fun (s : Shot) t => (some s.tt, t)) r.shots (t :: ts) := rfl
  have htl : (t :: ts).length = r.shots.length := by simp [Recording.shots, h4.length_eq]
  have hsl : r.shots.length = r.others.length + 1 := by simp [Recording.shots]
  have hframes : List.zipWith (fun (x : Option ℚ × ℤ) y => (⟨timesF R (headOf r t) x.1, y⟩ : Frame))
      (List.zipWith (fun (s : Shot) t => (some s.tt, t)) r.shots (t :: ts))
      ((List.range (r.others.length + 1)).map fun i : ℕ => ((chunk R r noise d i).map (fileVolt R r raw)).map some) =
      r.shots.mapIdx fun i s =>
        (⟨timesF R (headOf r t) (some s.tt), ((chunk R r noise d i).map (fileVolt R r raw)).map some⟩ : Frame) := by
    apply List.ext_getElem
    · simp only [List.length_zipWith, List.length_map, List.length_range, List.length_mapIdx, htl]; omega
    · intro i a1 a2
      simp
  have htlen : ∀ s : Shot, (timesF R (headOf r t) (some s.tt)).length = N := by
    intro s; rw [timesF_eq R r t s hpp]; simp [hN]
  have hrect : rectangular (r.shots.mapIdx fun i s =>
        (⟨timesF R (headOf r t) (some s.tt), ((chunk R r noise d i).map (fileVolt R r raw)).map some⟩ : Frame)) = .ok () := by
    unfold rectangular
    split
    · rfl
    · rename_i f fs e
      rw [if_pos]
      have hall : ∀ g ∈ (r.shots.mapIdx fun i s =>
        (⟨timesF R (headOf r t) (some s.tt), ((chunk R r noise d i).map (fileVolt R r raw)).map some⟩ : Frame)),
          g.t.length = N ∧ g.y.length = N := by
        intro g hg
        obtain ⟨i, hi, rfl⟩ := List.mem_mapIdx.1 hg
        refine ⟨htlen _, ?_⟩
        simp only [List.length_map]
        exact hylen i hi
      rw [List.all_eq_true]
      intro g hg
      have h5 := hall g hg
      have h6 := hall f (by rw [e]; simp)
      simp [h5, h6]
  unfold parseWfmF
  rw [h1]
  simp only [bind, Except.bind]
  unfold bodyF
  simp only [bind, Except.bind, buffer_holds dec data r trail h ht t, hnoisy, hconv, hff, hparts, h3]
  have htt : (headOf r t).tt = some r.first.tt := rfl
  have htime : (headOf r t).time = t := rfl
  rw [htt, htime, hheads, hframes, hrect]
  simp only [pure, Except.pure]
  congr 2
  · apply List.ext_getElem
    · simp
    · intro i a1 a2
      simp only [List.getElem_map, List.getElem_mapIdx]
      rw [trim_cut r t prepost _ _ (htlen _) (by simp [hylen i (by simpa using a2), hN]), timesF_eq R r t _ hpp]
      simp only [cut_map, hN]
  · congr 1
    apply List.ext_getElem
    · simp only [List.length_map, List.length_zipWith, htl]; omega
    · intro i a1 a2
      simp

theorem instant_near (R : Rounding) (r : Recording) (s : Shot) (k : ℤ) :
    |instantF R r s k - ((k - r.nPre + s.tt) * r.xScale + r.xOffset)| ≤ 4 * R.u * (|(k : ℚ) - r.nPre + s.tt| * |r.xScale| + |r.xOffset|) := by
  have hu := R.u_nonneg
  have hs := R.u_small
  unfold instantF
  have e : (((k - r.nPre : ℤ) : ℚ) + s.tt) = (k : ℚ) - r.nPre + s.tt := by push_cast; ring
  rw [e]
  generalize (k : ℚ) - r.nPre + s.tt = z
  obtain ⟨a, ha, ea⟩ := rel R z
  obtain ⟨b, hb, eb⟩ := rel R (R.fl z * r.xScale)
  obtain ⟨c, hc, ec⟩ := rel R (R.fl (R.fl z * r.xScale) + r.xOffset)
  rw [ec, eb, ea]
  have p1 : |(1 + a) - 1| ≤ 1 * R.u := by simpa using ha
  have p2 := step hu hs (by norm_num) p1 hb
  have p3 := step hu hs (by norm_num) p2 hc
  have q1 : |(1 + c) - 1| ≤ 1 * R.u := by simpa using hc
  have t1 := term R.u 4 (z * r.xScale) ((1 + a) * (1 + b) * (1 + c)) (p3.trans (by nlinarith))
  have t2 := term R.u 4 r.xOffset (1 + c) (q1.trans (by nlinarith))
  have key : (z * (1 + a) * r.xScale * (1 + b) + r.xOffset) * (1 + c) - (z * r.xScale + r.xOffset) =
      (z * r.xScale * ((1 + a) * (1 + b) * (1 + c)) - z * r.xScale) + (r.xOffset * (1 + c) - r.xOffset) := by ring
  rw [key]
  refine (abs_add_le _ _).trans ?_
  rw [abs_mul] at t1
  linarith

theorem instant_mono (F : Floats) (r : Recording) (s : Shot) (h0 : 0 ≤ r.xScale) (j k : ℤ) (h : j ≤ k) :
    instantF F.toRounding r s j ≤ instantF F.toRounding r s k := by
  unfold instantF
  apply F.mono
  have h1 : (((j - r.nPre : ℤ) : ℚ) + s.tt) ≤ (((k - r.nPre : ℤ) : ℚ) + s.tt) := by
    have : ((j - r.nPre : ℤ) : ℚ) ≤ ((k - r.nPre : ℤ) : ℚ) := by exact_mod_cast (by omega)
    linarith
  have := F.mono _ _ (mul_le_mul_of_nonneg_right (F.mono _ _ h1) h0)
  linarith

theorem fileVolt_near (R : Rounding) (r : Recording) (w : ℚ) :
    |fileVolt R r false w - (w * r.yScale + r.yOffset)| ≤ 6 * R.u * (|w| * |r.yScale| + |r.yOffset|) := by
  have hu := R.u_nonneg
  have hs := R.u_small
  unfold fileVolt
  rw [if_neg (by simp)]
  obtain ⟨b, hb, eb⟩ := rel R (w * r.yScale)
  obtain ⟨c, hc, ec⟩ := rel R (R.fl (w * r.yScale) + r.yOffset)
  rw [ec, eb]
  have p1 : |(1 + b) - 1| ≤ 1 * R.u := by simpa using hb
  have p2 := step hu hs (by norm_num) p1 hc
  have q1 : |(1 + c) - 1| ≤ 1 * R.u := by simpa using hc
  have t1 := term R.u 6 (w * r.yScale) ((1 + b) * (1 + c)) (p2.trans (by nlinarith))
  have t2 := term R.u 6 r.yOffset (1 + c) (q1.trans (by nlinarith))
  have key : (w * r.yScale * (1 + b) + r.yOffset) * (1 + c) - (w * r.yScale + r.yOffset) =
      (w * r.yScale * ((1 + b) * (1 + c)) - w * r.yScale) + (r.yOffset * (1 + c) - r.yOffset) := by ring
  rw [key]
  refine (abs_add_le _ _).trans ?_
  rw [abs_mul] at t1
  linarith

theorem fileVolt_mono (F : Floats) (r : Recording) (h0 : 0 ≤ r.yScale) (a b : ℚ) (h : a ≤ b) :
    fileVolt F.toRounding r false a ≤ fileVolt F.toRounding r false b := by
  unfold fileVolt
  rw [if_neg (by simp), if_neg (by simp)]
  apply F.mono
  have := F.mono _ _ (mul_le_mul_of_nonneg_right h h0)
  linarith

/-- The codes of a frame that are returned. -/
def returned (prepost : Bool) (s : Shot) : List ℤ := if prepost then s.pre ++ s.codes ++ s.post else s.codes

/-- **C101** for files, under the provisos of C37: in floats, the times and voltages of each frame are those that the file describes up to a
few roundings, in the right order and different where the difference is larger than that; the clipped samples are those beyond the reported
limits.  The counts are those of the raw file (without noise the codes as floats). -/
theorem C101_file (F : Floats) (dec : List UInt8 → Option Str) (data : List UInt8) (r : Recording) (trail : ℕ) (h : Holds dec data r 0 trail)
    (ht : r.others = [] ∨ trail = 0) (hpp : r.nPre = r.nPost) (noise prepost : Bool) (d : ℕ → ℚ) :
    ∃ raws rinfo frames info clipMin clipMax, parseWfmF F.toRounding dec data true noise prepost d = .ok (raws, rinfo) ∧
      parseWfmF F.toRounding dec data false noise prepost d = .ok (frames, info) ∧
      info.clipMin = some clipMin ∧ info.clipMax = some clipMax ∧ rinfo.clipMin = some (r.lo : ℚ) ∧ rinfo.clipMax = some (r.hi : ℚ) ∧
      (∀ i ∈ [rinfo, info], (i.top = true ↔ ∃ c ∈ r.codes, r.hi ≤ c) ∧ (i.bottom = true ↔ ∃ c ∈ r.codes, c ≤ r.lo) ∧ Times r.shots i.times) ∧
      raws.length = r.shots.length ∧ frames.length = r.shots.length ∧
      ∀ i (hi : i < r.shots.length), ∃ x w y, raws[i]? = some ⟨x.map some, w.map some⟩ ∧ frames[i]? = some ⟨x.map some, y.map some⟩ ∧
        Instants F.u (returned prepost r.shots[i]).length
          (fun k => (k - (if prepost then r.nPre else 0) + r.shots[i].tt) * r.xScale + r.xOffset)
          (fun k => |(k : ℚ) - (if prepost then r.nPre else 0) + r.shots[i].tt| * |r.xScale| + |r.xOffset|) r.xScale x ∧
        Volts F.u w (fun w => w * r.yScale + r.yOffset) (fun w => |w| * |r.yScale| + |r.yOffset|) r.yScale (F.fl r.lo) (F.fl r.hi) y
          clipMin clipMax ∧
        w.length = (returned prepost r.shots[i]).length ∧
        (noise = false → w = (returned prepost r.shots[i]).map fun c : ℤ => F.fl c) := by
  obtain ⟨times, t, g1, g2, g3⟩ := fileF_holds F.toRounding dec data r trail h ht hpp true noise prepost d
  obtain ⟨times', t', g1', -, g3'⟩ := fileF_holds F.toRounding dec data r trail h ht hpp false noise prepost d
  set N := r.nPre + r.n + r.nPost with hN
  refine ⟨_, _, _, _, fileVolt F.toRounding r false (F.fl r.lo), fileVolt F.toRounding r false (F.fl r.hi), g3, g3', ?_, ?_, by simp [fileInfoF, headOf],
    by simp [fileInfoF, headOf], ?_, by simp, by simp, ?_⟩
  · simp only [fileInfoF, Bool.false_eq_true, if_false]
    exact fileVoltF_eq F.toRounding r t' false _
  · simp only [fileInfoF, Bool.false_eq_true, if_false]
    exact fileVoltF_eq F.toRounding r t' false _
  · intro i hi
    simp only [List.mem_cons, List.not_mem_nil, or_false] at hi
    rcases hi with rfl | rfl
    · refine ⟨?_, ?_, g1⟩ <;>
      · simp only [fileInfoF, Head.info, headOf, List.any_eq_true]
        exact ⟨fun ⟨x, a, b⟩ => ⟨x, a, of_decide_eq_true b⟩, fun ⟨x, a, b⟩ => ⟨x, a, decide_eq_true b⟩⟩
    · refine ⟨?_, ?_, g1'⟩ <;>
      · simp only [fileInfoF, Head.info, headOf, List.any_eq_true]
        exact ⟨fun ⟨x, a, b⟩ => ⟨x, a, of_decide_eq_true b⟩, fun ⟨x, a, b⟩ => ⟨x, a, decide_eq_true b⟩⟩
  · intro i hi
    obtain ⟨c1, c2, c3⟩ := h.counts r.shots[i] (List.getElem_mem _)
    have hn : (returned prepost r.shots[i]).length = if prepost then N else r.n := by
      unfold returned; cases prepost <;> simp [c1, c2, c3, hN]; omega
    have hcutlen : ∀ {α : Type} (l : List α), l.length = N → (cut r prepost l).length = if prepost then N else r.n := by
      intro α l hl
      unfold cut
      cases prepost
      · simp [hl, hN]; omega
      · simp [hl]
    refine ⟨cut r prepost ((List.range N).map fun k : ℕ => instantF F.toRounding r r.shots[i] k), cut r prepost (chunk F.toRounding r noise d i),
      (cut r prepost (chunk F.toRounding r noise d i)).map (fileVolt F.toRounding r false), ?_, ?_, ?_, ?_, ?_, ?_⟩
    · rw [List.getElem?_mapIdx, List.getElem?_eq_getElem hi]
      simp [fileVolt]
    · rw [List.getElem?_mapIdx, List.getElem?_eq_getElem hi]
      rfl
    · rw [hn]
      refine instants_of F _ _ _ _ _ (fun k => instantF F.toRounding r r.shots[i] (k + (if prepost then 0 else r.nPre : ℕ) : ℤ)) ?_ ?_ ?_ ?_ ?_
      · unfold cut
        cases prepost with
        | true => simp
        | false =>
          simp only [Bool.false_eq_true, if_false]
          apply List.ext_getElem
          · simp [hN]; omega
          · intro k h1 h2
            simp only [List.getElem_take, List.getElem_drop, List.getElem_map, List.getElem_range]
            congr 1
            push_cast
            ring
      · intro k _
        have := instant_near F.toRounding r r.shots[i] (k + (if prepost then 0 else r.nPre : ℕ) : ℤ)
        have e : (((k + (if prepost then 0 else r.nPre : ℕ) : ℤ) : ℤ) : ℚ) - r.nPre = (k : ℚ) - (if prepost then r.nPre else 0) := by
          cases prepost <;> simp
        rw [e] at this
        exact this
      · intro h0 j k hjk
        exact instant_mono F r _ h0 _ _ (by omega)
      · intro j k; ring
      · intro k; positivity
    · exact volts_of F _ _ _ _ _ _ _ (fun v => fileVolt_near F.toRounding r v) (fun h0 a b hab => fileVolt_mono F r h0 a b hab)
        (fun a b => by ring)
    · rw [hcutlen _ (g2 i hi), hn]
    · intro hno
      have hch : chunk F.toRounding r noise d i = (r.shots[i].pre ++ r.shots[i].codes ++ r.shots[i].post).map fun c : ℤ => F.fl c := by
        unfold chunk fileWave
        rw [if_neg (by simp [hno]), ← List.map_drop, ← List.map_take]
        congr 1
        exact flat_chunk (fun s : Shot => s.pre ++ s.codes ++ s.post) _ r.shots (all_length dec data r 0 trail h) i hi
      rw [hch, cut_map]
      congr 1
      unfold cut returned
      cases prepost with
      | true => rfl
      | false =>
        simp only [Bool.false_eq_true, if_false]
        rw [← c1, ← c2, List.append_assoc, List.drop_left, List.take_left]

/-! ### Exact arithmetic -/

theorem ditherF_exact (lo hi : ℤ) (bits : ℕ) (codes : List ℤ) (r : ℕ → ℚ) :
    ditherF exact lo hi bits (fun c => c) codes r = dither lo hi bits codes fun k => r k - 1 / 2 := by
  unfold ditherF dither
  simp only
  congr 1
  funext k c
  unfold ditherOneF ditherOne uniformF exact
  simp only [id]
  have : (c : ℚ) + (-(2 ^ lsbLoop codes bits 0 / 2) + 2 ^ lsbLoop codes bits 0 * r k) = c + 2 ^ lsbLoop codes bits 0 * (r k - 1 / 2) := by ring
  rw [this]

/-- **C101**: without rounding the model is the one of C35, C37 and C38. -/
theorem C101_exact (dec : List UInt8 → Option Str) (data : List UInt8) (raw noise : Bool) (r : ℕ → ℚ) :
    parseQueryF exact dec data raw noise r = parseQuery dec data raw noise (fun k => r k - 1 / 2) ∧
    ∀ prepost, parseWfmF exact dec data raw noise prepost r = parseWfm dec data raw noise prepost (fun k => r k - 1 / 2) := by
  constructor
  · have hn : ∀ v, asNumF exact v = asNum v := by
      intro v; unfold asNumF exact; cases asNum v <;> rfl
    have hd : ∀ (m : ℤ) bits codes, ditherF exact (-(m : ℚ)) m bits (fun c => c) codes r = dither (-m) m bits codes fun k => r k - 1 / 2 := by
      intro m bits codes
      have := ditherF_exact (-m) m bits codes r
      push_cast at this
      exact this
    have hfl : ∀ x, exact.fl x = x := fun _ => rfl
    have hc : convertF exact = convert := by
      funext t root raw points x wave m info
      unfold convertF convert voltF
      simp only [hn, hfl]
    have hcurve : ∀ t root curve, decodeCurveF exact t root curve raw noise r = decodeCurve t root curve raw noise fun k => r k - 1 / 2 := by
      intro t root curve
      unfold decodeCurveF decodeCurve
      simp only [hn, hd, hfl, hc]
      rfl
    unfold parseQueryF parseQuery
    simp only [hcurve]
    rfl
  · intro prepost
    unfold parseWfmF parseWfm bodyF body
    have hfl : ∀ x, exact.fl x = x := fun _ => rfl
    have ht : ∀ h tt, timesF exact h tt = h.times tt := fun _ _ => rfl
    have hv : ∀ (h : Head) raw, fileVoltF exact h raw = h.conv raw := fun _ _ => rfl
    have hn : ∀ (h : Head) codes, noisyF exact h noise codes r = h.noisy noise codes fun k => r k - 1 / 2 := by
      intro h codes
      unfold noisyF Head.noisy
      simp only [hfl, ditherF_exact]
    have hi : ∀ (h : Head) codes times, fileInfoF exact h raw prepost codes times = h.info raw prepost codes times := by
      intro h codes times
      unfold fileInfoF Head.info
      simp only [hfl, hv]
      cases raw <;> simp [Head.conv]
    simp only [ht, hv, hn, hi]

/-! ### Instances -/

/-- The reply of the instance of C35 in doubles: the times are different ones, in order, and the clipped sample reads the upper limit. -/
example : ∃ raw res, parseQueryF double Wave.exDec Wave.exData true false (fun _ => 0) = .ok raw ∧
    parseQueryF double Wave.exDec Wave.exData false false (fun _ => 0) = .ok res ∧ raw.y = [-32768, 0, 258, 32512] ∧
    (∀ j k, j < k → k < 4 → res.x.getD j 0 < res.x.getD k 0) ∧ res.y.getD 3 0 = res.info.clipMax ∧ res.y.getD 2 0 < res.info.clipMax ∧
    res.info.top = true := by
  obtain ⟨raw, res, h1, h2, -, ht, hv, -, -, hl, hw, hi, -⟩ := C101_query doubles _ _ _ _ Wave.exReply false (fun _ => 0)
  have hw := hw rfl
  have hw' : raw.y = [-32768, 0, 258, 32512] := by
    rw [hw]; simp [Wave.exAcq]
  have g3 : raw.y.getD 3 0 = 32512 := by rw [hw']; rfl
  have g2 : raw.y.getD 2 0 = 258 := by rw [hw']; rfl
  have hu : doubles.u = 1 / 2 ^ 53 := rfl
  have hn : raw.y.length = 4 := by rw [hw']; rfl
  refine ⟨raw, res, h1, h2, hw', ?_, ?_, ?_, ?_⟩
  · refine ht.strict ?_
    intro k hk
    have hk4 : (k : ℚ) ≤ 4 := by
      have : k < 4 := hk
      exact_mod_cast this.le
    rw [hu]
    simp only [Wave.exAcq]
    norm_num [abs_of_pos, abs_of_neg]
    linarith
  · have := hv.clipped (by norm_num [Wave.exAcq]) 3 (by omega)
    rw [g3] at this
    have e : ((fullScale Wave.exAcq.size : ℤ) : ℚ) = 32512 := by norm_num [fullScale, Wave.exAcq]
    rw [e] at this
    exact le_antisymm (this.2.2.1 le_rfl) (this.1 le_rfl)
  · refine (hv.unclipped 2 (by omega)).1 ?_
    rw [g2, hu]
    simp only [Wave.exAcq, fullScale]
    norm_num [abs_of_pos, abs_of_neg]
  · exact ((hi res.info (by simp)).1).2 ⟨32512, by decide, by decide⟩

/-- The hypotheses of `C101_noise_partial` are met. -/
example : ∃ raw, parseQueryF double Wave.exDec (Wave.exBytes2 ++ markShort ++ (ascii "#0" ++ [0, 127])) true true (fun _ => 1 / 3) = .ok raw ∧
    Dithered (-127) 127 [0, 127] raw.y :=
  C101_noise_partial _ _ _ _ Wave.exReply2 (fun _ => 1 / 3) (fun _ => by norm_num) ⟨127, by decide, by decide⟩ (by decide)

/-- The hypotheses of `C101_file` are met by a file with two frames; the times of the frames are in order. -/
example : ∃ frames info, parseWfmF double Wave.exDec (exTwo 0 0) false false true (fun _ => 0) = .ok (frames, info) ∧ frames.length = 2 ∧
    ∀ i < 2, ∃ x y, frames[i]? = some ⟨List.map some x, List.map some y⟩ ∧ ∀ j k, j < k → k < 4 → x.getD j 0 < x.getD k 0 := by
  obtain ⟨_, _, frames, info, _, _, _, h2, _, _, _, _, _, _, hl, hf⟩ :=
    C101_file doubles _ _ _ _ (exTwo_holds 0 0 (Or.inl ⟨rfl, rfl⟩)) (Or.inr rfl) rfl false true (fun _ => 0)
  refine ⟨frames, info, h2, hl, ?_⟩
  intro i hi
  have hu : doubles.u = 1 / 2 ^ 53 := rfl
  obtain ⟨x, _, y, _, h3, ht, _⟩ := hf i (by simpa [Recording.shots, exRec] using hi)
  refine ⟨x, y, h3, ?_⟩
  have hlen : (returned true (exRec.shots[i]'(by simpa [Recording.shots, exRec] using hi))).length = 4 := by
    interval_cases i <;> rfl
  rw [hlen] at ht
  refine ht.strict ?_
  intro k hk
  rw [hu]
  interval_cases i <;> interval_cases k <;> simp only [exRec, Recording.shots] <;> norm_num [abs_of_pos, abs_of_neg]

end Verif.Props.FloatWave
