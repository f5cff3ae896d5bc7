import Verif.Props.OscHistory

/-! # C150, C151: oscillators are exactly periodic, and their waves have no DC offset -/

namespace Verif
open F32 FunctionalOscillator

/-- Specification: the number of calls after which the phase is back, for an advance of `step` units of `2^-32` turn. -/
def period (step : ℕ) : ℕ := 2 ^ 32 / Nat.gcd step (2 ^ 32)

theorem period_pos (step : ℕ) : 0 < period step :=
  Nat.div_pos (Nat.le_of_dvd (by norm_num) (Nat.gcd_dvd_right _ _)) (Nat.gcd_pos_of_pos_right _ (by norm_num))

/-- Phases reached after `m` and after `n` calls agree exactly when the calls differ by whole periods. -/
theorem phase_period (c step m n : ℕ) :
    (c + m * step) % 2 ^ 32 = (c + n * step) % 2 ^ 32 ↔ m ≡ n [MOD period step] := by
  have h1 : (c + m * step) % 2 ^ 32 = (c + n * step) % 2 ^ 32 ↔ m * step ≡ n * step [MOD 2 ^ 32] :=
    ⟨fun h => Nat.ModEq.add_left_cancel' c h, fun h => Nat.ModEq.add_left c h⟩
  rw [h1]
  constructor
  · intro h
    have := Nat.ModEq.cancel_right_div_gcd (show 0 < 2 ^ 32 by norm_num) h
    rwa [Nat.gcd_comm] at this
  · intro h
    have hg : Nat.gcd step (2 ^ 32) ∣ step := Nat.gcd_dvd_left _ _
    obtain ⟨t, ht⟩ := hg
    have := h.mul_right' (Nat.gcd step (2 ^ 32))
    rw [period, Nat.div_mul_cancel (Nat.gcd_dvd_right _ _)] at this
    have := this.mul_right t
    rwa [mul_assoc, mul_assoc, ← ht] at this

/-! ## C150 -/

/-- The accumulator after any calls. -/
theorem calls_state {a : SoftPhaseAccumulator} {sr : F32} (hc : a.counter < 2 ^ 32) (h : a.minStep = u32MaxF / sr) (l : List Bool) :
    runPhase a (callsOf l) = { a with counter := (a.counter + l.length * phaseStep a.freq sr) % 2 ^ 32 } := by
  obtain ⟨h1, h2, h3, h4⟩ := C66_counter hc h (callsOf l)
  rw [travelled_calls] at h1
  rw [inForce_calls rfl rfl] at h2 h3 h4
  cases hr : runPhase a (callsOf l) with
  | mk c f s m =>
    rw [hr] at h1 h2 h3 h4
    simp only at h1 h2 h3 h4
    rw [h1, h2, h3, h4, ← h]

/-- C150: with the settings left alone, the accumulator is back in the same state after exactly the whole periods:
`2^32 / gcd(step, 2^32)` calls, whichever of the two methods each call is. -/
theorem C150_phase {a : SoftPhaseAccumulator} {sr : F32} (hc : a.counter < 2 ^ 32) (h : a.minStep = u32MaxF / sr) (l l' : List Bool) :
    runPhase a (callsOf l) = runPhase a (callsOf l') ↔ l.length ≡ l'.length [MOD period (phaseStep a.freq sr)] := by
  rw [calls_state hc h, calls_state hc h, ← phase_period a.counter]
  constructor
  · intro e; exact congrArg SoftPhaseAccumulator.counter e
  · intro e; rw [e]

theorem toPhase_calls (n : ℕ) : (List.replicate n OscOp.next).filterMap OscOp.toPhase = callsOf (List.replicate n false) := by
  induction n with
  | zero => rfl
  | succ n ih => rw [List.replicate_succ, List.replicate_succ, callsOf, List.map_cons, ← callsOf, ← ih]; rfl

theorem waveInForce_calls (w : Waveform) (n : ℕ) : waveInForce w (List.replicate n .next) = w := by
  have : (List.replicate n OscOp.next).filterMap OscOp.wave? = [] := by
    rw [List.filterMap_eq_nil_iff]
    intro o ho
    rw [List.eq_of_mem_replicate ho]; rfl
  unfold waveInForce
  rw [this]; rfl

section
variable {checks : Bool} {floor : F32 → F32} {rem : F32 → F32 → F32}

/-- C150: so is an oscillator of any waveform; what it puts out repeats bit for bit. -/
theorem C150_functional (hrem : RemContract rem) (o : FunctionalOscillator SoftPhaseAccumulator) {sr : F32}
    (hc : o.acc.counter < 2 ^ 32) (hm : o.acc.minStep = u32MaxF / sr) (m n : ℕ) :
    runOsc checks floor rem o (List.replicate m .next) = runOsc checks floor rem o (List.replicate n .next) ↔
      m ≡ n [MOD period (phaseStep o.acc.freq sr)] := by
  rw [C96_state hrem, C96_state hrem, waveInForce_calls, waveInForce_calls, toPhase_calls, toPhase_calls]
  have := C150_phase hc hm (List.replicate m false) (List.replicate n false)
  rw [List.length_replicate, List.length_replicate] at this
  rw [← this]
  constructor
  · intro e; injection e with e; injection e
  · intro e; rw [e]
end

/-- C150: and a wavetable oscillator, as long as it has not run off its table. -/
theorem C150_wavetable {c : Cfg} {mem : Mem F32} {o o₁ o₂ : WavetableOscillator SoftPhaseAccumulator} {sr : F32}
    (hc : o.acc.counter < 2 ^ 32) (hm : o.acc.minStep = u32MaxF / sr) {m n : ℕ}
    (h1 : runWaveOps c mem o (List.replicate m .next) = .ok o₁) (h2 : runWaveOps c mem o (List.replicate n .next) = .ok o₂) :
    o₁ = o₂ ↔ m ≡ n [MOD period (phaseStep o.acc.freq sr)] := by
  rw [C98_state c mem o _ h1, C98_state c mem o _ h2, toPhase_calls, toPhase_calls]
  have := C150_phase hc hm (List.replicate m false) (List.replicate n false)
  rw [List.length_replicate, List.length_replicate] at this
  rw [← this]
  constructor
  · intro e; injection e
  · intro e; rw [e]

/-- 440 Hz at 48 kHz: the step is 4 times an odd number, so the sound repeats after `2^30` samples, more than six hours. -/
example : phaseStep (lit 440) (lit 48000) = 39370532 ∧ period 39370532 = 2 ^ 30 ∧ period (2 ^ 30) = 4 := by
  refine ⟨by decide +kernel, by decide +kernel, by decide +kernel⟩

/-! ## C151 -/

/-- Over one period the phases run once through all phases of their residue class. -/
theorem sum_phases {R : Type} [AddCommMonoid R] (c step : ℕ) (F : ℕ → R) :
    ∑ i ∈ Finset.range (period step), F ((c + i * step) % 2 ^ 32) =
      ∑ j ∈ Finset.range (period step), F (c % Nat.gcd step (2 ^ 32) + j * Nat.gcd step (2 ^ 32)) := by
  set g := Nat.gcd step (2 ^ 32) with hg
  have g0 : 0 < g := Nat.gcd_pos_of_pos_right _ (by norm_num)
  have gs : g ∣ step := Nat.gcd_dvd_left _ _
  have gN : g ∣ 2 ^ 32 := Nat.gcd_dvd_right _ _
  have hT : period step * g = 2 ^ 32 := Nat.div_mul_cancel gN
  have hmod : ∀ i, (c + i * step) % 2 ^ 32 % g = c % g := by
    intro i
    rw [Nat.mod_mod_of_dvd _ gN]
    obtain ⟨t, ht⟩ := gs
    rw [ht, show c + i * (g * t) = c + g * (i * t) by ring, Nat.add_mul_mod_self_left]
  have hval : ∀ i, (c + i * step) % 2 ^ 32 = c % g + ((c + i * step) % 2 ^ 32 / g) * g := by
    intro i
    conv_lhs => rw [← Nat.mod_add_div ((c + i * step) % 2 ^ 32) g, hmod i]
    ring
  have hmaps : ∀ i ∈ Finset.range (period step), (c + i * step) % 2 ^ 32 / g ∈ Finset.range (period step) := by
    intro i _
    rw [Finset.mem_range, Nat.div_lt_iff_lt_mul g0, hT]
    exact Nat.mod_lt _ (by norm_num)
  have hinj : Set.InjOn (fun i => (c + i * step) % 2 ^ 32 / g) (Finset.range (period step) : Set ℕ) := by
    intro i hi j hj e
    simp only [Finset.coe_range, Set.mem_Iio] at hi hj
    simp only at e
    have : (c + i * step) % 2 ^ 32 = (c + j * step) % 2 ^ 32 := by rw [hval i, hval j, e]
    have := (phase_period c step i j).1 this
    unfold Nat.ModEq at this
    rwa [Nat.mod_eq_of_lt hi, Nat.mod_eq_of_lt hj] at this
  refine Finset.sum_nbij (fun i => (c + i * step) % 2 ^ 32 / g) hmaps hinj ?_ fun i _ => by rw [← hval i]
  exact Finset.surjOn_of_injOn_of_card_le _ hmaps hinj le_rfl

theorem period_even {step : ℕ} (h0 : 0 < step) (h1 : step < 2 ^ 32) : ∃ M, period step = 2 * M ∧ M * Nat.gcd step (2 ^ 32) = 2 ^ 31 := by
  have gN : Nat.gcd step (2 ^ 32) ∣ 2 ^ 32 := Nat.gcd_dvd_right _ _
  have hT : period step * Nat.gcd step (2 ^ 32) = 2 ^ 32 := Nat.div_mul_cancel gN
  have hd : period step ∣ 2 ^ 32 := ⟨_, hT.symm⟩
  obtain ⟨k, -, hk⟩ := (Nat.dvd_prime_pow Nat.prime_two).1 hd
  rcases k with _ | k
  · exfalso
    rw [hk, pow_zero, one_mul] at hT
    have := Nat.le_of_dvd h0 (Nat.gcd_dvd_left step (2 ^ 32))
    omega
  · refine ⟨2 ^ k, by rw [hk]; ring, ?_⟩
    rw [hk, pow_succ] at hT
    rw [show (2:ℕ) ^ 32 = 2 ^ 31 * 2 by norm_num] at hT ⊢
    nlinarith

/-- A wave whose second half is the first half upside down sums to nothing over a period. -/
theorem half_wave_sum {F : ℕ → ℝ} (hF : ∀ k < 2 ^ 31, F (k + 2 ^ 31) = -F k) (c : ℕ) {step : ℕ} (h0 : 0 < step) (h1 : step < 2 ^ 32) :
    ∑ i ∈ Finset.range (period step), F ((c + i * step) % 2 ^ 32) = 0 := by
  obtain ⟨M, hM, hg⟩ := period_even h0 h1
  have g0 : 0 < Nat.gcd step (2 ^ 32) := Nat.gcd_pos_of_pos_right _ (by norm_num)
  rw [sum_phases, hM, two_mul, Finset.sum_range_add, ← Finset.sum_add_distrib]
  refine Finset.sum_eq_zero fun j hj => ?_
  have hj := Finset.mem_range.1 hj
  have hr := Nat.mod_lt c g0
  have : c % Nat.gcd step (2 ^ 32) + j * Nat.gcd step (2 ^ 32) < 2 ^ 31 := by
    rw [← hg]; nlinarith
  rw [add_mul, hg, show c % Nat.gcd step (2 ^ 32) + (2 ^ 31 + j * Nat.gcd step (2 ^ 32)) =
    c % Nat.gcd step (2 ^ 32) + j * Nat.gcd step (2 ^ 32) + 2 ^ 31 by ring, hF _ this]
  ring

/-- How many phases of a period lie in a window. -/
theorem window_count (r g T A W : ℕ) (g0 : 0 < g) :
    ((Finset.range T).filter fun j => A ≤ r + j * g ∧ r + j * g < A + W).card ≤ W / g + 1 := by
  by_cases hS : ((Finset.range T).filter fun j => A ≤ r + j * g ∧ r + j * g < A + W).Nonempty
  · have hm := Finset.min'_mem _ hS
    set j0 := Finset.min' _ hS with hj0
    have : ((Finset.range T).filter fun j => A ≤ r + j * g ∧ r + j * g < A + W) ⊆ Finset.Ico j0 (j0 + (W / g + 1)) := by
      intro j hj
      have hle : j0 ≤ j := Finset.min'_le _ _ hj
      rw [Finset.mem_filter] at hj hm
      rw [Finset.mem_Ico]
      refine ⟨hle, ?_⟩
      obtain ⟨d, rfl⟩ := Nat.exists_eq_add_of_le hle
      have : d * g < W := by nlinarith [hj.2.2, hm.2.1]
      have : d ≤ W / g := (Nat.le_div_iff_mul_le g0).2 this.le
      omega
    refine (Finset.card_le_card this).trans ?_
    rw [Nat.card_Ico, Nat.add_sub_cancel_left]
  · rw [Finset.not_nonempty_iff_eq_empty.1 hS]; simp

section
variable {checks : Bool} {floor : F32 → F32} {rem : F32 → F32 → F32}

/-- The sequence of outputs of an oscillator whose settings are left alone. -/
def Plays (checks : Bool) (floor : F32 → F32) (rem : F32 → F32 → F32) (o : FunctionalOscillator SoftPhaseAccumulator) (x : ℕ → F32) :
    Prop :=
  ∀ i, ∃ o' o'', runOsc checks floor rem o (List.replicate i .next) = .ok o' ∧ o'.next checks floor rem = .ok (o'', x i)

theorem plays (hrem : RemContract rem) (o : FunctionalOscillator SoftPhaseAccumulator) {sr : F32} (hc : o.acc.counter < 2 ^ 32)
    (hm : o.acc.minStep = u32MaxF / sr) (i : ℕ) :
    ∃ o', runOsc checks floor rem o (List.replicate i .next) = .ok o' ∧ o'.wave = o.wave ∧
      o'.acc.nextValue.2 = (o.acc.counter + phaseStep o.acc.freq sr + o.acc.shift + i * phaseStep o.acc.freq sr) % 2 ^ 32 := by
  refine ⟨_, C96_state hrem o _, waveInForce_calls _ _, ?_⟩
  have := (C66_output hc hm (callsOf (List.replicate i false))).1
  rw [toPhase_calls]
  have h2 : callsOf (List.replicate i false) ++ [PhaseOp.next] = callsOf (List.replicate i false ++ [true]) := by simp [callsOf]
  rw [h2, travelled_calls, inForce_calls rfl rfl, List.length_append, List.length_replicate] at this
  have e := PhaseOut.raw.inj this
  refine Eq.trans e ?_
  congr 1
  simp only [List.length_singleton]
  ring

/-- Sums of a sequence that follows an ideal wave. -/
theorem mean_near {x y : ℕ → ℝ} {T : ℕ} (hT : 0 < T) {e S : ℝ} (h : ∀ i < T, |x i - y i| ≤ e) (hy : |∑ i ∈ Finset.range T, y i| ≤ S) :
    |(∑ i ∈ Finset.range T, x i) / T| ≤ S / T + e := by
  have hT' : (0:ℝ) < T := by exact_mod_cast hT
  rw [abs_div, abs_of_pos hT', div_le_iff₀ hT', add_mul, div_mul_cancel₀ _ hT'.ne']
  have e1 : ∑ i ∈ Finset.range T, x i = ∑ i ∈ Finset.range T, y i + ∑ i ∈ Finset.range T, (x i - y i) := by
    rw [← Finset.sum_add_distrib]; exact Finset.sum_congr rfl fun i _ => by ring
  rw [e1]
  refine (abs_add_le _ _).trans (add_le_add hy ?_)
  refine (Finset.abs_sum_le_sum_abs _ _).trans ?_
  refine (Finset.sum_le_sum fun i hi => h i (Finset.mem_range.1 hi)).trans ?_
  rw [Finset.sum_const, Finset.card_range, nsmul_eq_mul, mul_comm]

theorem phaseStep_lt (freq sr : F32) : phaseStep freq sr < 2 ^ 32 := by
  have : phaseStep freq sr = f2u32 (freq * (u32MaxF / sr)) := (step_eq (a := SoftPhaseAccumulator.new freq sr) rfl).symm
  rw [this]; exact f2u32_lt _

/-- C151: the mean of a sawtooth over a period of `T` samples is within `1/T + 2^-22` of zero. -/
theorem C151_sawtooth (hrem : RemContract rem) (o : FunctionalOscillator SoftPhaseAccumulator) {sr : F32} (hw : o.wave = .sawtooth)
    (hc : o.acc.counter < 2 ^ 32) (hm : o.acc.minStep = u32MaxF / sr) {x : ℕ → F32} (hx : Plays checks floor rem o x) :
    |(∑ i ∈ Finset.range (period (phaseStep o.acc.freq sr)), ((x i).val : ℝ)) / period (phaseStep o.acc.freq sr)| ≤
      1 / period (phaseStep o.acc.freq sr) + 1 / 2 ^ 22 := by
  set s := phaseStep o.acc.freq sr with hs
  set c := o.acc.counter + s + o.acc.shift with hcc
  refine mean_near (period_pos s) (y := fun i => 2 * (((c + i * s) % 2 ^ 32 : ℕ) / 2 ^ 32 : ℝ) - 1) ?_ ?_
  · intro i _
    obtain ⟨o', h1, h2, h3⟩ := plays (checks := checks) (floor := floor) hrem o hc hm i
    obtain ⟨o1, o2, g1, g2⟩ := hx i
    rw [h1] at g1; cases g1
    obtain ⟨o3, y, k1, -, k2⟩ := C70_saw checks floor rem o' (h2.trans hw)
    rw [g2] at k1; cases k1
    rw [h3] at k2
    have := (Rat.cast_le (K := ℝ)).2 k2
    push_cast at this
    exact_mod_cast this
  · rw [sum_phases c s (fun k => 2 * ((k : ℝ) / 2 ^ 32) - 1)]
    set g := Nat.gcd s (2 ^ 32) with hg
    have g0 : 0 < g := Nat.gcd_pos_of_pos_right _ (by norm_num)
    have hT : period s * g = 2 ^ 32 := Nat.div_mul_cancel (Nat.gcd_dvd_right _ _)
    set T := period s with hTT
    have hTr : (T : ℝ) * g = 2 ^ 32 := by exact_mod_cast hT
    have g0' : (0:ℝ) < g := by exact_mod_cast g0
    have T0' : (0:ℝ) < T := by exact_mod_cast period_pos s
    have hsum : ∀ n : ℕ, ∑ j ∈ Finset.range n, (2 * (((c % g + j * g : ℕ) : ℝ) / 2 ^ 32) - 1) =
        (n : ℝ) * (2 * (((c % g : ℕ) : ℝ) / 2 ^ 32) - 1) + (n : ℝ) * (n - 1) * g / 2 ^ 32 := by
      intro n
      induction n with
      | zero => simp
      | succ n ih => rw [Finset.sum_range_succ, ih]; push_cast; ring
    rw [hsum T, ← hTr]
    have hr : ((c % g : ℕ) : ℝ) < g := by exact_mod_cast Nat.mod_lt c g0
    have hr0 : (0:ℝ) ≤ ((c % g : ℕ) : ℝ) := Nat.cast_nonneg _
    have : (T : ℝ) * (2 * (((c % g : ℕ) : ℝ) / (T * g)) - 1) + (T : ℝ) * (T - 1) * g / (T * g) = 2 * (((c % g : ℕ) : ℝ) / g) - 1 := by
      field_simp; ring
    rw [this]
    have h1 : ((c % g : ℕ) : ℝ) / g ≤ 1 := by rw [div_le_one g0']; exact hr.le
    have h2 : (0:ℝ) ≤ ((c % g : ℕ) : ℝ) / g := by positivity
    rw [abs_le]; constructor <;> linarith

/-- The second half of the ideal triangle is the first half upside down. -/
theorem ideal_half_wave (k : ℕ) (hk : k < 2 ^ 31) : ((idealTriangle (((k + 2 ^ 31 : ℕ) : ℚ) / 2 ^ 32) : ℚ) : ℝ) =
    -((idealTriangle ((k : ℚ) / 2 ^ 32) : ℚ) : ℝ) := by
  have hk' : (k : ℚ) < 2 ^ 31 := by exact_mod_cast hk
  rw [← Rat.cast_neg]
  congr 1
  unfold idealTriangle
  have e : ((k + 2 ^ 31 : ℕ) : ℚ) / 2 ^ 32 = k / 2 ^ 32 + 1 / 2 := by push_cast; ring
  rw [e]
  have h1 : (k : ℚ) / 2 ^ 32 ≤ 1 / 2 := by rw [div_le_iff₀ (by norm_num)]; norm_num at hk' ⊢; linarith
  rw [if_pos h1]
  split
  · rename_i h2
    have : (k : ℚ) / 2 ^ 32 = 0 := le_antisymm (by linarith) (by positivity)
    rw [this]; norm_num
  · ring

/-- C151: the mean of a triangle over a period is within `2^-20` of zero. -/
theorem C151_triangle (hrem : RemContract rem) (o : FunctionalOscillator SoftPhaseAccumulator) {sr : F32} (hw : o.wave = .triangle)
    (hc : o.acc.counter < 2 ^ 32) (hm : o.acc.minStep = u32MaxF / sr) (h0 : 0 < phaseStep o.acc.freq sr) {x : ℕ → F32}
    (hx : Plays checks floor rem o x) :
    |(∑ i ∈ Finset.range (period (phaseStep o.acc.freq sr)), ((x i).val : ℝ)) / period (phaseStep o.acc.freq sr)| ≤ 1 / 2 ^ 20 := by
  set s := phaseStep o.acc.freq sr with hs
  set c := o.acc.counter + s + o.acc.shift with hcc
  have := mean_near (period_pos s) (x := fun i => ((x i).val : ℝ)) (y := fun i => (idealTriangle (((c + i * s) % 2 ^ 32 : ℕ) / 2 ^ 32) : ℝ))
    (e := 1 / 2 ^ 20) (S := 0) ?_ ?_
  · simpa using this
  · intro i _
    obtain ⟨o', h1, h2, h3⟩ := plays (checks := checks) (floor := floor) hrem o hc hm i
    obtain ⟨o1, o2, g1, g2⟩ := hx i
    rw [h1] at g1; cases g1
    obtain ⟨o3, y, k1, k2⟩ := C70_tri checks floor rem o' (h2.trans hw)
    rw [g2] at k1; cases k1
    rw [h3] at k2
    have := (Rat.cast_le (K := ℝ)).2 k2
    push_cast at this
    exact_mod_cast this
  · rw [half_wave_sum (F := fun k => ((idealTriangle ((k : ℚ) / 2 ^ 32) : ℚ) : ℝ)) ?_ c h0 (phaseStep_lt _ _)]
    · simp
    · exact ideal_half_wave

/-- C151: the mean of a sine over a period is within 0.0004 of zero. -/
theorem C151_sine (hrem : RemContract rem) (o : FunctionalOscillator SoftPhaseAccumulator) {sr : F32} (hw : o.wave = .sine)
    (hc : o.acc.counter < 2 ^ 32) (hm : o.acc.minStep = u32MaxF / sr) (h0 : 0 < phaseStep o.acc.freq sr) {x : ℕ → F32}
    (hx : Plays checks floor rem o x) :
    |(∑ i ∈ Finset.range (period (phaseStep o.acc.freq sr)), ((x i).val : ℝ)) / period (phaseStep o.acc.freq sr)| ≤ 4 / 10 ^ 4 := by
  set s := phaseStep o.acc.freq sr with hs
  set c := o.acc.counter + s + o.acc.shift with hcc
  have := mean_near (period_pos s) (x := fun i => ((x i).val : ℝ)) (y := fun i => Real.sin (2 * Real.pi * (((c + i * s) % 2 ^ 32 : ℕ) / 2 ^ 32)))
    (e := 4 / 10 ^ 4) (S := 0) ?_ ?_
  · simpa using this
  · intro i _
    obtain ⟨o', h1, h2, h3⟩ := plays (checks := checks) (floor := floor) hrem o hc hm i
    obtain ⟨o1, o2, g1, g2⟩ := hx i
    rw [h1] at g1; cases g1
    obtain ⟨y, k1, -, -, -, k2⟩ := C95_sine_oscillator hrem checks floor o' (h2.trans hw)
    rw [g2] at k1; cases k1
    rw [h3] at k2
    exact k2
  · rw [half_wave_sum (F := fun k => Real.sin (2 * Real.pi * ((k : ℝ) / 2 ^ 32))) ?_ c h0 (phaseStep_lt _ _)]
    · simp
    · intro k hk
      rw [show 2 * Real.pi * (((k + 2 ^ 31 : ℕ) : ℝ) / 2 ^ 32) = 2 * Real.pi * ((k : ℝ) / 2 ^ 32) + Real.pi by push_cast; ring,
        Real.sin_add_pi]

/-- Where a rectangle may differ from the ideal one, by at most 2: the last 256 phases of each half of the turn. -/
noncomputable def rectEdge (k : ℕ) : ℝ := (if 2 ^ 31 - 256 ≤ k ∧ k < 2 ^ 31 - 256 + 256 then 2 else 0) +
  if 2 ^ 32 - 256 ≤ k ∧ k < 2 ^ 32 - 256 + 256 then 2 else 0

theorem rect_near (hrem : RemContract rem) (hfl : FloorContract floor) (o : FunctionalOscillator SoftPhaseAccumulator) {sr : F32}
    (hw : o.wave = .rectangle) (hc : o.acc.counter < 2 ^ 32) (hm : o.acc.minStep = u32MaxF / sr) {x : ℕ → F32}
    (hx : Plays checks floor rem o x) (i : ℕ) :
    |((x i).val : ℝ) - if (o.acc.counter + phaseStep o.acc.freq sr + o.acc.shift + i * phaseStep o.acc.freq sr) % 2 ^ 32 < 2 ^ 31
      then -1 else 1| ≤
      rectEdge ((o.acc.counter + phaseStep o.acc.freq sr + o.acc.shift + i * phaseStep o.acc.freq sr) % 2 ^ 32) := by
  set s := phaseStep o.acc.freq sr with hs
  set c := o.acc.counter + s + o.acc.shift with hcc
  set W : ℕ → ℝ := fun k => if k < 2 ^ 31 then -1 else 1 with hW
  set E : ℕ → ℝ := rectEdge with hE
  unfold rectEdge at hE
  revert i
  show ∀ i, |((x i).val : ℝ) - W ((c + i * s) % 2 ^ 32)| ≤ E ((c + i * s) % 2 ^ 32)
  intro i
  obtain ⟨o', h1, h2, h3⟩ := plays (checks := checks) (floor := floor) hrem o hc hm i
  obtain ⟨o1, o2, g1, g2⟩ := hx i
  rw [h1] at g1; cases g1
  set k := (c + i * s) % 2 ^ 32 with hk
  have h3 : o'.acc.nextValue.2 = k := h3
  have hk32 : k < 2 ^ 32 := Nat.mod_lt _ (by norm_num)
  by_cases hlast : 2 ^ 32 - 128 ≤ k
  · obtain ⟨o3, y, k1, k2⟩ := C69_actual checks rem hfl o' (h2.trans hw) (by omega)
    rw [g2] at k1; cases k1
    rw [k2]
    simp only [hW, hE]
    rw [if_neg (by omega), if_neg (by omega), if_pos (by omega)]
    norm_num
  · obtain ⟨o3, y, k1, k2, k3⟩ := C69_partial checks rem hfl o' (h2.trans hw) (by omega)
    rw [g2] at k1; cases k1
    by_cases hhi : 2 ^ 31 ≤ k
    · have := k3.2 (phase_half_ge (by omega))
      rw [this, lit1_val]
      simp only [hW, hE]
      rw [if_neg (by omega)]
      have : (0:ℝ) ≤ (if 2 ^ 31 - 256 ≤ k ∧ k < 2 ^ 31 - 256 + 256 then (2:ℝ) else 0) +
        if 2 ^ 32 - 256 ≤ k ∧ k < 2 ^ 32 - 256 + 256 then 2 else 0 := by positivity
      simpa using this
    · by_cases hed : 2 ^ 31 - 256 ≤ k
      · simp only [hW, hE]
        rw [if_pos (by omega), if_pos (by omega), if_neg (by omega)]
        rcases k2 with h | h
        · rw [h, litm1_val]; norm_num
        · rw [h, lit1_val]; norm_num
      · have hne : ¬ 1 / 2 ≤ o'.acc.nextValueNormalized.2.val := by
          intro hge
          have he := (abs_le.1 (phase_err o'.acc)).2
          rw [h3] at he
          have hkq : (k : ℚ) + 256 < 2 ^ 31 := by exact_mod_cast (by omega : k + 256 < 2 ^ 31)
          rw [div_eq_mul_inv (k : ℚ)] at he
          norm_num at he hkq hge
          linarith
        have : x i = lit (-1) := by
          rcases k2 with h | h
          · exact h
          · exact absurd (k3.1 h) hne
        rw [this, litm1_val]
        simp only [hW, hE]
        rw [if_pos (by omega), if_neg (by omega), if_neg (by omega)]
        norm_num

theorem rect_edges (c s : ℕ) : ∑ i ∈ Finset.range (period s), rectEdge ((c + i * s) % 2 ^ 32) ≤ 4 + 1 / 2 ^ 22 * period s := by
  rw [sum_phases c s rectEdge]
  set g := Nat.gcd s (2 ^ 32) with hg
  have g0 : 0 < g := Nat.gcd_pos_of_pos_right _ (by norm_num)
  have hT : period s * g = 2 ^ 32 := Nat.div_mul_cancel (Nat.gcd_dvd_right _ _)
  unfold rectEdge
  rw [Finset.sum_add_distrib, ← Finset.sum_filter, ← Finset.sum_filter, Finset.sum_const, Finset.sum_const, nsmul_eq_mul, nsmul_eq_mul]
  have w1 := window_count (c % g) g (period s) (2 ^ 31 - 256) 256 g0
  have w2 := window_count (c % g) g (period s) (2 ^ 32 - 256) 256 g0
  have hq : ((256 / g : ℕ) : ℝ) * 2 ^ 24 ≤ period s := by
    have : 256 / g * 2 ^ 24 ≤ period s := by
      have h1 : 256 / g * g ≤ 256 := Nat.div_mul_le_self _ _
      have h2 : 256 / g * 2 ^ 24 * g ≤ period s * g := by rw [hT]; nlinarith
      exact Nat.le_of_mul_le_mul_right h2 g0
    exact_mod_cast this
  have w1' := (Nat.cast_le (α := ℝ)).2 w1
  have w2' := (Nat.cast_le (α := ℝ)).2 w2
  push_cast at w1' w2'
  have : ((256 / g : ℕ) : ℝ) * 4 ≤ 1 / 2 ^ 22 * period s := by
    rw [div_mul_eq_mul_div, one_mul, le_div_iff₀ (by norm_num)]
    norm_num at hq ⊢; linarith
  linarith

/-- C151: the mean of a rectangle over a period of `T` samples is within `4/T + 2^-22` of zero. -/
theorem C151_rectangle (hrem : RemContract rem) (hfl : FloorContract floor) (o : FunctionalOscillator SoftPhaseAccumulator) {sr : F32}
    (hw : o.wave = .rectangle) (hc : o.acc.counter < 2 ^ 32) (hm : o.acc.minStep = u32MaxF / sr) (h0 : 0 < phaseStep o.acc.freq sr)
    {x : ℕ → F32} (hx : Plays checks floor rem o x) :
    |(∑ i ∈ Finset.range (period (phaseStep o.acc.freq sr)), ((x i).val : ℝ)) / period (phaseStep o.acc.freq sr)| ≤
      4 / period (phaseStep o.acc.freq sr) + 1 / 2 ^ 22 := by
  set s := phaseStep o.acc.freq sr with hs
  set c := o.acc.counter + s + o.acc.shift with hcc
  set W : ℕ → ℝ := fun k => if k < 2 ^ 31 then -1 else 1 with hW
  have hnear : ∀ i, |((x i).val : ℝ) - W ((c + i * s) % 2 ^ 32)| ≤ rectEdge ((c + i * s) % 2 ^ 32) :=
    rect_near hrem hfl o hw hc hm hx
  have T0' : (0:ℝ) < period s := by exact_mod_cast period_pos s
  have hzero := half_wave_sum (F := W) (fun k hk => by simp only [hW]; rw [if_neg (by omega), if_pos hk]; norm_num) c h0 (phaseStep_lt _ _)
  rw [abs_div, abs_of_pos T0', div_le_iff₀ T0', add_mul, div_mul_cancel₀ _ T0'.ne']
  have e1 : ∑ i ∈ Finset.range (period s), ((x i).val : ℝ) =
      ∑ i ∈ Finset.range (period s), (((x i).val : ℝ) - W ((c + i * s) % 2 ^ 32)) := by
    rw [Finset.sum_sub_distrib, hzero, sub_zero]
  rw [e1]
  refine (Finset.abs_sum_le_sum_abs _ _).trans ((Finset.sum_le_sum fun i _ => hnear i).trans (rect_edges c s))

end

/-- Playing needs nothing special: every oscillator plays some sequence. -/
theorem plays_exists {checks : Bool} {floor : F32 → F32} {rem : F32 → F32 → F32} (hrem : RemContract rem)
    (o : FunctionalOscillator SoftPhaseAccumulator) : ∃ x, Plays checks floor rem o x := by
  have : ∀ i, ∃ x, ∃ o' o'', runOsc checks floor rem o (List.replicate i .next) = .ok o' ∧ o'.next checks floor rem = .ok (o'', x) := by
    intro i
    obtain ⟨x, hx⟩ := osc_next (checks := checks) (floor := floor) hrem
      ⟨runPhase o.acc ((List.replicate i OscOp.next).filterMap OscOp.toPhase), waveInForce o.wave (List.replicate i .next)⟩
    exact ⟨x, _, _, C96_state hrem o _, hx⟩
  choose x hx using this
  exact ⟨x, hx⟩

/-- A quarter of the sample rate: the four samples of a triangle, whose mean is zero. -/
example : phaseStep (lit 12000) (lit 48000) = 2 ^ 30 ∧ period (2 ^ 30) = 4 ∧
    (([0, 1, 2, 3].map fun i => ((runOsc true mmFloor mmRem ⟨SoftPhaseAccumulator.new (lit 12000) (lit 48000), .triangle⟩
      (List.replicate i .next)).bind fun o => o.next true mmFloor mmRem).toOption.map (·.2)) =
        [some (lit 0), some (lit 1), some (lit 0), some (lit (-1))]) :=
  ⟨by decide +kernel, by decide +kernel, by decide +kernel⟩

end Verif
