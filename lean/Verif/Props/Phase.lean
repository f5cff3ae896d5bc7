import Verif.Model.Oscillator
import Verif.F32.Extra
import Verif.Props.Interpolation
import Mathlib.Algebra.BigOperators.Intervals

/-! # Phase accumulator: C65, C66, C67, C72, C73 -/

namespace Verif
open F32

/-! ## Specification vocabulary -/

/-- A call on the accumulator: the two read methods and the three setters. -/
inductive PhaseOp where
  | next
  | nextNormalized
  | setFreq (f : F32)
  | setSr (sr : F32)
  | setShift (s : Nat)
  deriving DecidableEq

namespace PhaseOp
def freq? : PhaseOp → Option F32 | setFreq f => some f | _ => none
def sr? : PhaseOp → Option F32 | setSr f => some f | _ => none
def shift? : PhaseOp → Option Nat | setShift f => some f | _ => none
def isCall : PhaseOp → Bool | next => true | nextNormalized => true | _ => false
end PhaseOp

/-- The setting in force after `ops`: the last one made, or the initial one. -/
def inForce {α : Type} (sel : PhaseOp → Option α) (init : α) (ops : List PhaseOp) : α :=
  ((ops.filterMap sel).getLast?).getD init

/-- Specification of the step: `freq * (2^32 / sr)` in float arithmetic, negatives and NaN count as 0, the rest
truncated and capped at the largest `u32`. -/
def phaseStep (freq sr : F32) : Nat :=
  let q := freq * (lit (2 ^ 32) / sr)
  if q.isNaN = true ∨ q.val < 0 then 0 else min (2 ^ 32 - 1) ⌊q.val⌋.toNat

/-- Specification of the distance travelled by a history: the sum, over its calls, of the step of the settings in force
just before the call. -/
def travelled (freq sr : F32) (ops : List PhaseOp) : Nat :=
  ∑ i ∈ Finset.range ops.length,
    if (ops[i]?.map PhaseOp.isCall) = some true then
      phaseStep (inForce PhaseOp.freq? freq (ops.take i)) (inForce PhaseOp.sr? sr (ops.take i))
    else 0

/-! ## Running the model -/

/-- What a call returns. -/
inductive PhaseOut where
  | none
  | raw (k : Nat)
  | normalized (x : F32)
  deriving DecidableEq

def applyPhase (a : SoftPhaseAccumulator) : PhaseOp → SoftPhaseAccumulator × PhaseOut
  | .next => ((a.nextValue).1, .raw (a.nextValue).2)
  | .nextNormalized => ((a.nextValueNormalized).1, .normalized (a.nextValueNormalized).2)
  | .setFreq f => (a.setFreqUnchecked f, .none)
  | .setSr f => (a.setSrUnchecked f, .none)
  | .setShift s => (a.setPhaseShift s, .none)

def runPhase (a : SoftPhaseAccumulator) (ops : List PhaseOp) : SoftPhaseAccumulator :=
  ops.foldl (fun a o => (applyPhase a o).1) a

/-! ## Helper lemmas -/

theorem u32MaxF_eq : u32MaxF = lit (2 ^ 32) := by decide +kernel
theorem u32MaxF_val : u32MaxF.val = 2 ^ 32 := by decide +kernel
theorem u32MaxF_fin : u32MaxF.isFin = true := by decide +kernel
theorem u32MaxF_neg : u32MaxF.neg = false := by decide +kernel
theorem u32MaxF_add_one : u32MaxF + lit 1 = u32MaxF := by decide +kernel

theorem f2u32_eq (q : F32) :
    f2u32 q = if q.isNaN = true ∨ q.val < 0 then 0 else min (2 ^ 32 - 1) ⌊q.val⌋.toNat := by
  unfold f2u32 toIntSat
  by_cases h : q.isNaN = true
  · simp [h]
  · by_cases h0 : q.val < 0
    · rw [if_neg h, if_pos (Or.inr h0), truncInt_neg h0]
      have : ⌈q.val⌉ ≤ 0 := Int.ceil_le.2 (by exact_mod_cast h0.le)
      omega
    · rw [if_neg h, if_neg (by tauto), truncInt_nonneg (not_lt.1 h0)]
      have := Int.floor_nonneg.2 (not_lt.1 h0)
      omega

theorem f2u32_lt (q : F32) : f2u32 q < 2 ^ 32 := by
  rw [f2u32_eq]; split <;> omega

theorem step_eq {a : SoftPhaseAccumulator} {sr : F32} (h : a.minStep = u32MaxF / sr) :
    f2u32 (a.freq * a.minStep) = phaseStep a.freq sr := by
  rw [h, f2u32_eq, u32MaxF_eq]; rfl

theorem inForce_nil {α : Type} (sel : PhaseOp → Option α) (init : α) : inForce sel init [] = init := rfl

theorem inForce_snoc {α : Type} (sel : PhaseOp → Option α) (init : α) (ops : List PhaseOp) (o : PhaseOp) :
    inForce sel init (ops ++ [o]) = (sel o).getD (inForce sel init ops) := by
  unfold inForce
  rw [List.filterMap_append]
  cases h : sel o <;> simp [h]

theorem travelled_nil (freq sr : F32) : travelled freq sr [] = 0 := rfl

theorem travelled_snoc (freq sr : F32) (ops : List PhaseOp) (o : PhaseOp) :
    travelled freq sr (ops ++ [o]) = travelled freq sr ops +
      if o.isCall then phaseStep (inForce PhaseOp.freq? freq ops) (inForce PhaseOp.sr? sr ops) else 0 := by
  unfold travelled
  rw [List.length_append, List.length_singleton, Finset.sum_range_succ]
  congr 1
  · refine Finset.sum_congr rfl fun i hi => ?_
    rw [Finset.mem_range] at hi
    rw [List.getElem?_append_left hi, List.take_append_of_le_length hi.le]
  · simp

theorem runPhase_snoc (a : SoftPhaseAccumulator) (ops : List PhaseOp) (o : PhaseOp) :
    runPhase a (ops ++ [o]) = (applyPhase (runPhase a ops) o).1 := by
  simp [runPhase]

/-! ## C66 -/

/-- C66: over any history the counter is the start plus the sum of the steps of the settings in force at each call, modulo
`2^32`; each setting is the last one made. Setters contribute nothing to the counter, and the shift appears nowhere in it. -/
theorem C66_counter {a : SoftPhaseAccumulator} {sr : F32} (hc : a.counter < 2 ^ 32) (h : a.minStep = u32MaxF / sr)
    (ops : List PhaseOp) :
    (runPhase a ops).counter = (a.counter + travelled a.freq sr ops) % 2 ^ 32 ∧
    (runPhase a ops).freq = inForce PhaseOp.freq? a.freq ops ∧
    (runPhase a ops).minStep = u32MaxF / inForce PhaseOp.sr? sr ops ∧
    (runPhase a ops).shift = inForce PhaseOp.shift? a.shift ops := by
  induction ops using List.reverseRecOn with
  | nil => exact ⟨by rw [travelled_nil, Nat.add_zero, Nat.mod_eq_of_lt hc]; rfl, rfl, h, rfl⟩
  | append_singleton ops o ih =>
    obtain ⟨i1, i2, i3, i4⟩ := ih
    rw [runPhase_snoc, travelled_snoc, inForce_snoc, inForce_snoc, inForce_snoc]
    have hs := step_eq i3
    rw [i2] at hs
    cases o with
    | next =>
      refine ⟨?_, i2, i3, i4⟩
      show ((runPhase a ops).counter + f2u32 ((runPhase a ops).freq * (runPhase a ops).minStep)) % 2 ^ 32 = _
      rw [i2, hs, i1, Nat.mod_add_mod, ← Nat.add_assoc]; rfl
    | nextNormalized =>
      refine ⟨?_, i2, i3, i4⟩
      show ((runPhase a ops).counter + f2u32 ((runPhase a ops).freq * (runPhase a ops).minStep)) % 2 ^ 32 = _
      rw [i2, hs, i1, Nat.mod_add_mod, ← Nat.add_assoc]; rfl
    | setFreq f => exact ⟨i1, rfl, i3, i4⟩
    | setSr f => exact ⟨i1, i2, rfl, i4⟩
    | setShift f => exact ⟨i1, i2, i3, rfl⟩

/-- C66: the value returned by a call after any history: position reached, including this call's step, plus the shift in
force. -/
theorem C66_output {a : SoftPhaseAccumulator} {sr : F32} (hc : a.counter < 2 ^ 32) (h : a.minStep = u32MaxF / sr)
    (ops : List PhaseOp) :
    (applyPhase (runPhase a ops) .next).2 =
      .raw ((a.counter + travelled a.freq sr (ops ++ [.next]) + inForce PhaseOp.shift? a.shift ops) % 2 ^ 32) ∧
    (applyPhase (runPhase a ops) .nextNormalized).2 =
      .normalized (ofInt ((a.counter + travelled a.freq sr (ops ++ [.next]) + inForce PhaseOp.shift? a.shift ops) % 2 ^ 32
        : Nat) / lit (2 ^ 32)) := by
  have key : wrappingAdd32 (runPhase a ops).tick.counter (runPhase a ops).tick.shift =
      (a.counter + travelled a.freq sr (ops ++ [.next]) + inForce PhaseOp.shift? a.shift ops) % 2 ^ 32 := by
    have h1 := (C66_counter hc h (ops ++ [.next])).1
    have h4 := (C66_counter hc h (ops ++ [.next])).2.2.2
    rw [runPhase_snoc] at h1 h4
    rw [show (runPhase a ops).tick = (applyPhase (runPhase a ops) .next).1 from rfl, wrappingAdd32, h1, h4, Nat.mod_add_mod,
      inForce_snoc]
    rfl
  constructor
  · show PhaseOut.raw (wrappingAdd32 (runPhase a ops).tick.counter (runPhase a ops).tick.shift) = _
    rw [key]
  · show PhaseOut.normalized (ofInt (wrappingAdd32 (runPhase a ops).tick.counter (runPhase a ops).tick.shift)
      / (u32MaxF + lit 1)) = _
    rw [key, u32MaxF_add_one, u32MaxF_eq]

/-- C66: the setters leave the counter alone, in any state; `set_phase_shift` touches nothing but the shift. -/
theorem C66_setters (a : SoftPhaseAccumulator) (f : F32) (s : Nat) :
    (a.setFreqUnchecked f).counter = a.counter ∧ (a.setSrUnchecked f).counter = a.counter ∧
    (a.setPhaseShift s).counter = a.counter ∧
    (a.setPhaseShift s).nextValue.2 = ((a.setPhaseShift 0).nextValue.2 + s) % 2 ^ 32 := by
  refine ⟨rfl, rfl, rfl, ?_⟩
  simp [SoftPhaseAccumulator.setPhaseShift, SoftPhaseAccumulator.nextValue, SoftPhaseAccumulator.tick, wrappingAdd32]

/-- A history with a frequency change half way: 100 Hz then 200 Hz at 1000 Hz; the two steps are `2^32/10` and `2^32/5`
rounded down from their float values, and the change itself moves nothing. -/
example : (runPhase (SoftPhaseAccumulator.new (lit 100) (lit 1000)) [.next, .setFreq (lit 200), .next]).counter =
      429496736 + 858993472 ∧
    phaseStep (lit 100) (lit 1000) = 429496736 ∧ phaseStep (lit 200) (lit 1000) = 858993472 := by decide +kernel

/-! ## C65 -/

/-- `n` calls, `true` for `next_value` and `false` for `next_value_normalized` -/
def callsOf (l : List Bool) : List PhaseOp := l.map fun b => if b then .next else .nextNormalized

theorem inForce_calls {α : Type} {sel : PhaseOp → Option α} (h1 : sel .next = none) (h2 : sel .nextNormalized = none)
    (init : α) (l : List Bool) : inForce sel init (callsOf l) = init := by
  have : (callsOf l).filterMap sel = [] := by
    rw [List.filterMap_eq_nil_iff]
    intro o ho
    obtain ⟨b, -, rfl⟩ := List.mem_map.1 ho
    cases b
    · exact h2
    · exact h1
  unfold inForce; rw [this]; rfl

theorem travelled_calls (freq sr : F32) (l : List Bool) : travelled freq sr (callsOf l) = l.length * phaseStep freq sr := by
  induction l using List.reverseRecOn with
  | nil => simp [callsOf, travelled_nil]
  | append_singleton l b ih =>
    rw [show callsOf (l ++ [b]) = callsOf l ++ [if b then .next else .nextNormalized] by simp [callsOf], travelled_snoc, ih,
      inForce_calls rfl rfl, inForce_calls rfl rfl]
    have : (if b = true then PhaseOp.next else PhaseOp.nextNormalized).isCall = true := by cases b <;> rfl
    rw [this]; simp [Nat.add_mul]

/-- C65: the accumulator is created, given a shift and read `n` times by any mixture of the two methods. Then the counter is
`n*step mod 2^32`, and one more call of either kind returns `(n+1)*step + shift` modulo `2^32`, as an integer or divided by
`2^32` in float arithmetic. -/
theorem C65_phase (freq sr : F32) (shift : Nat) (calls : List Bool) :
    let a := (SoftPhaseAccumulator.new freq sr).setPhaseShift shift
    let k := ((calls.length + 1) * phaseStep freq sr + shift) % 2 ^ 32
    (runPhase a (callsOf calls)).counter = (calls.length * phaseStep freq sr) % 2 ^ 32 ∧
    (runPhase a (callsOf calls)).nextValue.2 = k ∧
    (runPhase a (callsOf calls)).nextValueNormalized.2 = ofInt k / lit (2 ^ 32) := by
  intro a k
  have h := C66_counter (a := a) (sr := sr) (Nat.two_pow_pos 32) rfl (callsOf calls)
  have ho := C66_output (a := a) (sr := sr) (Nat.two_pow_pos 32) rfl (callsOf calls)
  have hk : (a.counter + travelled a.freq sr (callsOf calls ++ [.next]) + inForce PhaseOp.shift? a.shift (callsOf calls))
      % 2 ^ 32 = k := by
    rw [show callsOf calls ++ [PhaseOp.next] = callsOf (calls ++ [true]) by simp [callsOf], travelled_calls,
      inForce_calls rfl rfl]
    simp [k, a, SoftPhaseAccumulator.new, SoftPhaseAccumulator.setPhaseShift]
  rw [hk] at ho
  refine ⟨?_, PhaseOut.raw.inj ho.1, PhaseOut.normalized.inj ho.2⟩
  rw [h.1, travelled_calls]
  simp [a, SoftPhaseAccumulator.new, SoftPhaseAccumulator.setPhaseShift]

/-- C65: the two read methods leave the accumulator in the same state. -/
theorem C65_same_advance (a : SoftPhaseAccumulator) : a.nextValue.1 = a.nextValueNormalized.1 := rfl

/-- 440 Hz at 48 kHz, shifted by a quarter cycle: step 39370532, and the second read value. -/
example : phaseStep (lit 440) (lit 48000) = 39370532 ∧
    (runPhase ((SoftPhaseAccumulator.new (lit 440) (lit 48000)).setPhaseShift (2 ^ 30)) (callsOf [false])).nextValue.2 =
      2 * 39370532 + 2 ^ 30 := by decide +kernel

/-! ## C67 -/

/-- Division by `2^32` of a float that holds a nonnegative integer is exact. -/
theorem div_u32 {x : F32} (hx : x.isFin = true) (h : x.val = 0 ∨ 1 ≤ |x.val|) :
    (x / lit (2 ^ 32)).isFin = true ∧ (x / lit (2 ^ 32)).val = x.val / 2 ^ 32 := by
  have hv : (lit (2 ^ 32) : F32).val = 2 ^ 32 := by rw [← u32MaxF_eq, u32MaxF_val]
  have hf : (lit (2 ^ 32) : F32).isFin = true := by rw [← u32MaxF_eq, u32MaxF_fin]
  have hr : Rep (x.val / (lit (2 ^ 32) : F32).val) := by
    rw [hv]
    rcases h with h | h
    · rw [h, zero_div]; exact rep_zero
    · obtain ⟨m, k, hm, hk, he⟩ := fin_decomp hx
      have hk32 : 32 ≤ k := by
        by_contra hc
        have h1 : |x.val * unit| < unit := by
          rw [he, abs_mul]
          have e1 : |((m : Int) : ℚ)| < 2 ^ 24 := by exact_mod_cast hm
          have e2 : |(2:ℚ) ^ k| ≤ 2 ^ 32 := by
            rw [abs_of_pos (by positivity)]
            exact pow_le_pow_right₀ (by norm_num) (by omega)
          calc |(m : ℚ)| * |(2:ℚ) ^ k| ≤ 2 ^ 24 * 2 ^ 32 :=
                mul_le_mul e1.le e2 (abs_nonneg _) (by norm_num)
            _ < unit := by unfold unit; norm_num
        rw [abs_mul, abs_of_pos (a := unit) (by unfold unit; positivity)] at h1
        have hu : (0:ℚ) < unit := by unfold unit; positivity
        nlinarith
      refine rep_of_int_pow (m := m) (k := k - 32) hm.le ?_ ?_
      · rw [div_mul_eq_mul_div, he, div_eq_iff (by norm_num), mul_assoc, ← pow_add, Nat.sub_add_cancel hk32]
      · have := fin_le_max hx
        rw [abs_div, abs_of_pos (a := (2:ℚ) ^ 32) (by norm_num), div_lt_iff₀ (by norm_num)]
        refine lt_of_le_of_lt this (by norm_num)
  have := div_exact hx hf (by rw [hv]; norm_num) hr
  rw [hv] at this
  exact this

theorem ofInt_u32 {k : Nat} (hk : k < 2 ^ 32) : (ofInt k).isFin = true ∧ 0 ≤ (ofInt k).val ∧ (ofInt k).val ≤ 2 ^ 32 ∧
    ((ofInt k).val = 0 ∨ 1 ≤ |(ofInt k).val|) := by
  have hkq : ((k : Int) : ℚ) < 2 ^ 32 := by exact_mod_cast hk
  have hk0 : (0:ℚ) ≤ ((k : Int) : ℚ) := by positivity
  have hb := rnd_pow_bound (s := false) (k := 32) (by norm_num)
    (by rw [abs_of_nonneg hk0]; exact hkq.le : |((k : Int) : ℚ)| ≤ 2 ^ 32)
  refine ⟨hb.1, rnd_val_nonneg hk0, (le_abs_self _).trans hb.2, ?_⟩
  rcases Nat.eq_zero_or_pos k with h | h
  · left; subst h; exact rnd_val_zero _
  · right
    refine le_trans ?_ (le_abs_self _)
    have h1 : (lit 1 : F32).val ≤ ((k : Int) : ℚ) := by rw [lit1_val]; exact_mod_cast h
    have := le_rnd (s := false) (isFin.not_nan lit1_fin) h1
    rw [lit1_val] at this; exact this

/-- The phase as a number: the integer phase rounded to a float, over `2^32`. -/
theorem normalized_val {k : Nat} (hk : k < 2 ^ 32) :
    (ofInt k / lit (2 ^ 32)).isFin = true ∧ (ofInt k / lit (2 ^ 32)).val = (ofInt k).val / 2 ^ 32 ∧
    0 ≤ (ofInt k / lit (2 ^ 32)).val ∧ (ofInt k / lit (2 ^ 32)).val ≤ 1 := by
  obtain ⟨h1, h2, h3, h4⟩ := ofInt_u32 hk
  obtain ⟨e1, e2⟩ := div_u32 h1 h4
  refine ⟨e1, e2, ?_, ?_⟩
  · rw [e2]; positivity
  · rw [e2, div_le_one (by norm_num)]; exact h3

/-- the integer phase a call is about to report -/
def phaseAfter (a : SoftPhaseAccumulator) : Nat := a.nextValue.2

theorem phaseAfter_lt (a : SoftPhaseAccumulator) : phaseAfter a < 2 ^ 32 := Nat.mod_lt _ (Nat.two_pow_pos 32)

theorem nextNormalized_eq (a : SoftPhaseAccumulator) :
    a.nextValueNormalized.2 = ofInt (phaseAfter a) / lit (2 ^ 32) := by
  show ofInt (phaseAfter a) / (u32MaxF + lit 1) = _
  rw [u32MaxF_add_one, u32MaxF_eq]

/-- The phase returned is always a finite number in [0,1]. -/
theorem phase_range (a : SoftPhaseAccumulator) :
    a.nextValueNormalized.2.isFin = true ∧ 0 ≤ a.nextValueNormalized.2.val ∧ a.nextValueNormalized.2.val ≤ 1 := by
  rw [nextNormalized_eq]
  obtain ⟨h1, -, h2, h3⟩ := normalized_val (phaseAfter_lt a)
  exact ⟨h1, h2, h3⟩

/-- C67 in full: the normalized phase is in [0,1), in every state. -/
def C67_Full : Prop := ∀ a : SoftPhaseAccumulator, a.counter < 2 ^ 32 → a.shift < 2 ^ 32 →
  0 ≤ a.nextValueNormalized.2.val ∧ a.nextValueNormalized.2.val < 1

/-- C67 fails: with frequency 0 and the largest shift the phase is exactly 1.0. -/
theorem C67_refuted : ¬ C67_Full := by
  intro h
  have := (h ((SoftPhaseAccumulator.new (lit 0) (lit 1)).setPhaseShift (2 ^ 32 - 1)) (by decide) (by decide)).2
  revert this
  decide +kernel

/-- C67, what holds: the value is finite, in [0,1], within `2^-24` of the exact `k / 2^32`, and below 1 exactly when the
integer phase `k` is below `2^32 - 128`. Missing: `< 1` for the 128 largest integer phases, where 1.0 is returned. -/
theorem C67_partial (a : SoftPhaseAccumulator) :
    a.nextValueNormalized.2.isFin = true ∧ 0 ≤ a.nextValueNormalized.2.val ∧ a.nextValueNormalized.2.val ≤ 1 ∧
    |a.nextValueNormalized.2.val - (a.nextValue.2 : ℚ) / 2 ^ 32| ≤ 1 / 2 ^ 24 ∧
    (a.nextValueNormalized.2.val < 1 ↔ a.nextValue.2 < 2 ^ 32 - 128) ∧
    (2 ^ 32 - 128 ≤ a.nextValue.2 → a.nextValueNormalized.2 = lit 1) := by
  obtain ⟨h1, h2, h3⟩ := phase_range a
  have hk := phaseAfter_lt a
  have hval : a.nextValueNormalized.2.val = (ofInt (phaseAfter a)).val / 2 ^ 32 := by
    rw [nextNormalized_eq]; exact (normalized_val hk).2.1
  change _ ∧ _ ∧ _ ∧ |_ - ((phaseAfter a : Nat) : ℚ) / 2 ^ 32| ≤ _ ∧ (_ ↔ phaseAfter a < _) ∧ (_ ≤ phaseAfter a → _)
  have hbig : 2 ^ 32 - 128 ≤ phaseAfter a → a.nextValueNormalized.2.val = 1 := by
    intro h
    refine le_antisymm h3 ?_
    rw [hval, le_div_iff₀ (by norm_num), one_mul]
    have e : (ofInt (2 ^ 32 - 128)).val = 2 ^ 32 := by decide +kernel
    rw [← e]
    refine rnd_mono ?_
    have : (2:Int) ^ 32 - 128 ≤ (phaseAfter a : Int) := by omega
    exact_mod_cast this
  have hsmall : phaseAfter a < 2 ^ 32 - 128 → a.nextValueNormalized.2.val < 1 := by
    intro h
    rw [hval, div_lt_one (by norm_num)]
    have e : (ofInt (2 ^ 32 - 129)).val < 2 ^ 32 := by decide +kernel
    refine lt_of_le_of_lt (rnd_mono ?_) e
    have : (phaseAfter a : Int) ≤ (2:Int) ^ 32 - 129 := by omega
    exact_mod_cast this
  refine ⟨h1, h2, h3, ?_, ⟨fun h => ?_, hsmall⟩, fun h => ?_⟩
  · have hq : |(ofInt (phaseAfter a)).val - ((phaseAfter a : Int) : ℚ)| ≤ 2 ^ 8 := by
      have hk' : ((phaseAfter a : Int) : ℚ) ≤ 2 ^ 32 := by exact_mod_cast hk.le
      have hk0 : (0:ℚ) ≤ ((phaseAfter a : Int) : ℚ) := by positivity
      rcases Nat.eq_zero_or_pos (phaseAfter a) with h | h
      · rw [h]; norm_num [ofInt, ofRat, rnd_val_zero]
      · have hp : (1:ℚ) ≤ ((phaseAfter a : Int) : ℚ) := by exact_mod_cast h
        have := rnd_rel_error (s := false) (q := ((phaseAfter a : Int) : ℚ)) (ofInt_u32 hk).1
          (by rw [abs_of_nonneg hk0]; exact le_trans (by norm_num) hp)
        rw [abs_of_nonneg hk0] at this
        refine this.trans ?_
        rw [div_le_iff₀ (by norm_num)]
        exact hk'.trans (by norm_num)
    rw [hval, ← sub_div, abs_div, abs_of_pos (a := (2:ℚ) ^ 32) (by norm_num), div_le_iff₀ (by norm_num)]
    refine le_trans ?_ (le_trans hq (by norm_num))
    simp
  · by_contra hc
    rw [hbig (by omega)] at h
    exact absurd h (by norm_num)
  · have hv := hbig h
    exact eq_of_val_eq (by rw [hv, lit1_val]) (by rw [hv]; norm_num)

/-- C67: the bad value is not an artefact of the shift. Whenever the step is odd, an unshifted accumulator returns 1.0
after some number of calls. -/
theorem C67_actual_reached {freq sr : F32} (hodd : phaseStep freq sr % 2 = 1) :
    ∃ n : Nat, (runPhase (SoftPhaseAccumulator.new freq sr) (callsOf (List.replicate n true))).nextValueNormalized.2 =
      lit 1 := by
  obtain ⟨m, hm⟩ : ∃ m : Nat, m * phaseStep freq sr % 2 ^ 32 = 2 ^ 32 - 1 := by
    have hco : Nat.Coprime (phaseStep freq sr) (2 ^ 32) :=
      Nat.Coprime.pow_right 32 ((Nat.coprime_two_right).2 (Nat.odd_iff.2 hodd))
    obtain ⟨i, hi⟩ := Nat.exists_mul_mod_eq_one_of_coprime hco (by norm_num)
    refine ⟨i * (2 ^ 32 - 1), ?_⟩
    rw [show i * (2 ^ 32 - 1) * phaseStep freq sr = phaseStep freq sr * i * (2 ^ 32 - 1) by ring, Nat.mul_mod, hi.2]
    norm_num
  have hm0 : m ≠ 0 := by rintro rfl; simp at hm
  refine ⟨m - 1, ?_⟩
  have h := (C65_phase freq sr 0 (List.replicate (m - 1) true)).2.1
  rw [List.length_replicate, Nat.sub_add_cancel (Nat.pos_of_ne_zero hm0), Nat.add_zero, hm] at h
  exact (C67_partial _).2.2.2.2.2 (le_trans (by norm_num) (le_of_eq h.symm))

/-- 1 Hz at 131072 Hz has step 32768, 3 Hz at 2^32 Hz an odd step -/
example : phaseStep (lit 1) (lit 131072) = 32768 ∧ phaseStep (lit 3) (lit (2 ^ 32)) % 2 = 1 := by decide +kernel

/-- a half-cycle phase, well inside the good range -/
example : ((SoftPhaseAccumulator.new (lit 0) (lit 1)).setPhaseShift (2 ^ 31)).nextValueNormalized.2 = lit (1 / 2) := by
  decide +kernel

/-! ## C72 -/

/-- C72 in full: the two documented errors, and an error for NaN. (That the new frequency takes effect cannot even be
stated: `set_freq` consumes the accumulator.) -/
def C72_Full : Prop := ∀ (a : SoftPhaseAccumulator) (freq : F32),
  (a.setFreq freq = .error .zero ↔ freq.isNaN = false ∧ freq.val = 0) ∧
  (a.setFreq freq = .error .negative ↔ freq.isNaN = false ∧ freq.val < 0) ∧
  (freq.isNaN = true → ∃ e, a.setFreq freq = .error e) ∧
  (∀ sr : F32, a.minStep = u32MaxF / sr → sr.isFin = true → 0 < sr.val → freq.isNaN = false → sr.val / 2 < freq.val →
    ∃ e, a.setFreq freq = .error e)

/-- C72 fails: NaN is accepted. -/
theorem C72_refuted : ¬ C72_Full := by
  intro h
  obtain ⟨e, he⟩ := (h (SoftPhaseAccumulator.new (lit 440) (lit 48000)) nan).2.2.1 (by decide +kernel)
  have : (SoftPhaseAccumulator.new (lit 440) (lit 48000)).setFreq nan = .ok () := by decide +kernel
  rw [this] at he; cases he

/-- C72, what holds: the `Zero` and `Negative` errors. Missing: NaN and frequencies above Nyquist (accepted, see
`C72_actual`). -/
theorem C72_partial (a : SoftPhaseAccumulator) (freq : F32) :
    (a.setFreq freq = .error .zero ↔ freq.isNaN = false ∧ freq.val = 0) ∧
    (a.setFreq freq = .error .negative ↔ freq.isNaN = false ∧ freq.val < 0) := by
  unfold SoftPhaseAccumulator.setFreq
  have e0 := feq_iff (x := freq) (y := lit 0)
  have e1 := lt_iff (x := freq) (y := lit 0)
  rw [lit0_val] at e0 e1
  have hl : (lit 0 : F32).isNaN = false := isFin.not_nan lit0_fin
  cases hn : freq.isNaN with
  | true =>
    have h0 : feq freq (lit 0) = false := by rw [Bool.eq_false_iff]; intro h; simp [e0, hn] at h
    have h1 : lt freq (lit 0) = false := by rw [Bool.eq_false_iff]; intro h; simp [e1, hn] at h
    simp [h0, h1]
  | false =>
    rcases lt_trichotomy freq.val 0 with h | h | h
    · have h0 : feq freq (lit 0) = false := by rw [Bool.eq_false_iff]; intro h'; simp [e0, hn] at h'; linarith [h'.2]
      have h1 : lt freq (lit 0) = true := e1.2 ⟨hn, hl, h⟩
      simp [h0, h1, h, h.ne]
    · have h0 : feq freq (lit 0) = true := e0.2 ⟨hn, hl, h⟩
      simp [h0, h]
    · have h0 : feq freq (lit 0) = false := by rw [Bool.eq_false_iff]; intro h'; simp [e0, hn] at h'; linarith [h'.2]
      have h1 : lt freq (lit 0) = false := by rw [Bool.eq_false_iff]; intro h'; simp [e1, hn] at h'; linarith [h'.2]
      simp [h0, h1, h.ne', h.le]

/-- C72, what the code does: every other frequency is accepted — NaN, infinity, anything above Nyquist — and
`BiggerThanNyquist` is never reported. -/
theorem C72_actual (a : SoftPhaseAccumulator) (freq : F32) :
    (a.setFreq freq = .ok () ↔ freq.isNaN = true ∨ 0 < freq.val) ∧ a.setFreq freq ≠ .error .biggerThanNyquist := by
  obtain ⟨h1, h2⟩ := C72_partial a freq
  have h3 : a.setFreq freq ≠ .error .biggerThanNyquist := by
    unfold SoftPhaseAccumulator.setFreq
    split
    · simp
    · split <;> simp
  refine ⟨⟨fun h => ?_, fun h => ?_⟩, h3⟩
  · by_contra hc
    rw [not_or] at hc
    have hn : freq.isNaN = false := by simpa using hc.1
    rcases lt_or_eq_of_le (not_lt.1 hc.2) with h' | h'
    · have := h2.2 ⟨hn, h'⟩; rw [h] at this; cases this
    · have := h1.2 ⟨hn, h'⟩; rw [h] at this; cases this
  · rcases hr : a.setFreq freq with e | u
    · exfalso
      cases e with
      | zero => obtain ⟨a1, a2⟩ := h1.1 hr; rcases h with h | h; · simp [h] at a1
                linarith
      | negative => obtain ⟨a1, a2⟩ := h2.1 hr; rcases h with h | h; · simp [h] at a1
                    linarith
      | biggerThanNyquist => exact h3 hr
    · rfl

example : (SoftPhaseAccumulator.new (lit 440) (lit 48000)).setFreq (lit (-1)) = .error .negative ∧
    (SoftPhaseAccumulator.new (lit 440) (lit 48000)).setFreq (lit 1000000) = .ok () := by decide +kernel

/-! ## C73 -/

/-- Below Nyquist and with the sample rate in the normal range, the step differs from the ideal `freq*2^32/sr` by less
than 1 plus a relative error of `2^-22`, and it is not capped. -/
theorem phaseStep_near {freq sr : F32} (hf : freq.isFin = true) (hs : sr.isFin = true) (hs0 : 1 / 2 ^ 90 ≤ sr.val)
    (hs1 : sr.val ≤ 2 ^ 120) (h0 : 0 < freq.val) (h1 : freq.val < sr.val / 2) :
    |(phaseStep freq sr : ℚ) - freq.val * 2 ^ 32 / sr.val| < 1 + freq.val * 2 ^ 32 / sr.val / 2 ^ 22 := by
  have hsp : 0 < sr.val := lt_of_lt_of_le (by norm_num) hs0
  have hv : (lit (2 ^ 32) : F32).val = 2 ^ 32 := by rw [← u32MaxF_eq, u32MaxF_val]
  have hlf : (lit (2 ^ 32) : F32).isFin = true := by rw [← u32MaxF_eq, u32MaxF_fin]
  have hq0 : (0:ℚ) < 2 ^ 32 / sr.val := by positivity
  obtain ⟨m1, δ, hδ, e1⟩ := rnd_rel (s := (lit (2 ^ 32) : F32).neg != sr.neg) (q := 2 ^ 32 / sr.val)
    (by rw [abs_of_pos hq0, le_div_iff₀ hsp]; exact (mul_le_mul_of_nonneg_left hs1 (by norm_num)).trans (by norm_num))
    (by rw [abs_of_pos hq0, div_le_iff₀ hsp]
        exact le_trans (by norm_num) (mul_le_mul_of_nonneg_left hs0 (by norm_num : (0:ℚ) ≤ 2 ^ 127)))
  have hd := div_fin hlf hs hsp.ne'
  rw [hv] at hd
  rw [← hd] at m1 e1
  have hδ' := abs_le.1 hδ
  obtain ⟨I, hI⟩ : ∃ I, I = freq.val * 2 ^ 32 / sr.val := ⟨_, rfl⟩
  have hI0 : 0 < I := by rw [hI]; positivity
  have hI1 : I < 2 ^ 31 := by
    rw [hI, div_lt_iff₀ hsp]; nlinarith
  have hprod : freq.val * (lit (2 ^ 32) / sr).val = I * (1 + δ) := by rw [e1, hI]; ring
  rw [← hI]
  have hp0 : 0 < I * (1 + δ) := mul_pos hI0 (by linarith)
  have hpb : I * (1 + δ) ≤ 2 * I := by nlinarith
  have hr := rnd_pow_bound (s := freq.neg != (lit (2 ^ 32) / sr).neg) (k := 32) (q := I * (1 + δ)) (by norm_num)
    (by rw [abs_of_pos hp0]; linarith)
  have hr0 := rnd_val_nonneg (s := freq.neg != (lit (2 ^ 32) / sr).neg) hp0.le
  have hmul := mul_fin hf m1
  rw [hprod] at hmul
  rw [← hmul] at hr hr0
  have hstep : phaseStep freq sr = min (2 ^ 32 - 1) ⌊(freq * (lit (2 ^ 32) / sr)).val⌋.toNat := by
    show (if _ then _ else _) = _
    rw [if_neg (by rw [isFin.not_nan hr.1]; simpa using hr0)]
  by_cases hsm : I ≤ 1 / 4
  · have : phaseStep freq sr = 0 := by
      have h2 : (freq * (lit (2 ^ 32) / sr)).val ≤ 1 / 2 := by
        rw [hmul]
        have := rnd_le (s := freq.neg != (lit (2 ^ 32) / sr).neg) (y := lit (1 / 2)) (q := I * (1 + δ))
          (isFin.not_nan lithalf_fin) (by rw [lithalf_val]; linarith)
        rwa [lithalf_val] at this
      have : ⌊(freq * (lit (2 ^ 32) / sr)).val⌋ = 0 := Int.floor_eq_iff.2 ⟨by simpa using hr0, by push_cast; linarith⟩
      rw [hstep, this]; rfl
    rw [this, Nat.cast_zero, zero_sub, abs_neg, abs_of_pos hI0]
    linarith
  · rw [not_le] at hsm
    obtain ⟨-, γ, hγ, e2⟩ := rnd_rel (s := freq.neg != (lit (2 ^ 32) / sr).neg) (q := I * (1 + δ))
      (by rw [abs_of_pos hp0]; refine le_trans ?_ (mul_le_mul_of_nonneg_left (by linarith : (1:ℚ) / 2 ≤ 1 + δ) hI0.le)
          refine le_trans (by norm_num) (mul_le_mul_of_nonneg_right hsm.le (by norm_num : (0:ℚ) ≤ 1 / 2)))
      (by rw [abs_of_pos hp0]; linarith)
    rw [← hmul] at e2
    have hγ' := abs_le.1 hγ
    have hlt : (freq * (lit (2 ^ 32) / sr)).val < 2 ^ 32 := by
      rw [e2]; nlinarith [mul_nonneg hI0.le (by linarith : (0:ℚ) ≤ 1 + δ)]
    have hfl := Int.floor_le (freq * (lit (2 ^ 32) / sr)).val
    have hfl2 := Int.lt_floor_add_one (freq * (lit (2 ^ 32) / sr)).val
    have hfl0 := Int.floor_nonneg.2 hr0
    have hfl3 : ⌊(freq * (lit (2 ^ 32) / sr)).val⌋ < 2 ^ 32 := Int.floor_lt.2 (by exact_mod_cast hlt)
    have hcast : ((phaseStep freq sr : Nat) : ℚ) = (⌊(freq * (lit (2 ^ 32) / sr)).val⌋ : ℚ) := by
      have : ((phaseStep freq sr : Nat) : Int) = ⌊(freq * (lit (2 ^ 32) / sr)).val⌋ := by rw [hstep]; omega
      exact_mod_cast this
    rw [hcast]
    have hb : |(freq * (lit (2 ^ 32) / sr)).val - I| ≤ I * (1 / 2 ^ 24 + 1 / 2 ^ 24 + 1 / 2 ^ 24 * (1 / 2 ^ 24)) := by
      rw [e2, show I * (1 + δ) * (1 + γ) - I = I * ((1 + δ) * (1 + γ) - 1) by ring, abs_mul, abs_of_pos hI0]
      exact mul_le_mul_of_nonneg_left (one_add_mul hδ hγ) hI0.le
    have hb' := abs_le.1 hb
    rw [abs_lt]
    constructor <;> norm_num at hb' ⊢ <;> linarith [hb'.1, hb'.2]

/-- Outside that range: a product of `2^32` or more gives the largest step, a negative or NaN one freezes the phase. -/
theorem phaseStep_saturation (freq sr : F32) :
    ((freq * (lit (2 ^ 32) / sr)).isNaN = false → 2 ^ 32 ≤ (freq * (lit (2 ^ 32) / sr)).val →
      phaseStep freq sr = 2 ^ 32 - 1) ∧
    ((freq * (lit (2 ^ 32) / sr)).isNaN = true ∨ (freq * (lit (2 ^ 32) / sr)).val < 1 → phaseStep freq sr = 0) := by
  constructor
  · intro hn h
    show (if _ then _ else _) = _
    rw [if_neg (by rw [hn]; simp; exact le_trans (by norm_num) h)]
    have : 2 ^ 32 ≤ ⌊(freq * (lit (2 ^ 32) / sr)).val⌋ := Int.le_floor.2 (by exact_mod_cast h)
    omega
  · intro h
    show (if _ then _ else _) = _
    split
    · rfl
    · rename_i hc
      rw [not_or, not_lt] at hc
      have h1 : (freq * (lit (2 ^ 32) / sr)).val < 1 := by tauto
      have : ⌊(freq * (lit (2 ^ 32) / sr)).val⌋ = 0 := Int.floor_eq_iff.2 ⟨by simpa using hc.2, by simpa using h1⟩
      rw [this]; rfl

/-- An accumulator set up for a frequency and a sample rate in any of the ways the crate offers. -/
inductive TunedTo (freq sr : F32) : SoftPhaseAccumulator → Prop
  | new : TunedTo freq sr (SoftPhaseAccumulator.new freq sr)
  | freqLast (a : SoftPhaseAccumulator) : TunedTo freq sr ((a.setSrUnchecked sr).setFreqUnchecked freq)
  | srLast (a : SoftPhaseAccumulator) : TunedTo freq sr ((a.setFreqUnchecked freq).setSrUnchecked sr)

theorem TunedTo.tick {freq sr : F32} {a : SoftPhaseAccumulator} (h : TunedTo freq sr a) :
    a.tick.counter = (a.counter + phaseStep freq sr) % 2 ^ 32 := by
  have key : ∀ b : SoftPhaseAccumulator, b.freq = freq → b.minStep = u32MaxF / sr →
      b.tick.counter = (b.counter + phaseStep freq sr) % 2 ^ 32 := by
    intro b h1 h2
    rw [← h1, ← step_eq h2]; rfl
  cases h <;> exact key _ rfl rfl

/-- C73: below Nyquist and with the sample rate in the normal range, a tick advances the counter by the ideal
`freq*2^32/sr` up to less than 1 plus a relative error of `2^-22`. -/
theorem C73_step {freq sr : F32} (hf : freq.isFin = true) (hs : sr.isFin = true) (hs0 : 1 / 2 ^ 90 ≤ sr.val)
    (hs1 : sr.val ≤ 2 ^ 120) (h0 : 0 < freq.val) (h1 : freq.val < sr.val / 2) :
    ∃ step : ℕ, |(step : ℚ) - freq.val * 2 ^ 32 / sr.val| < 1 + freq.val * 2 ^ 32 / sr.val / 2 ^ 22 ∧
      ∀ a, TunedTo freq sr a → a.tick.counter = (a.counter + step) % 2 ^ 32 :=
  ⟨phaseStep freq sr, phaseStep_near hf hs hs0 hs1 h0 h1, fun _ h => h.tick⟩

/-- C73: outside that range: a product of `2^32` or more moves the counter back by one, a negative or NaN one freezes it. -/
theorem C73_saturation (freq sr : F32) {a : SoftPhaseAccumulator} (h : TunedTo freq sr a) (hc : a.counter < 2 ^ 32) :
    ((freq * (lit (2 ^ 32) / sr)).isNaN = false → 2 ^ 32 ≤ (freq * (lit (2 ^ 32) / sr)).val →
      a.tick.counter = (a.counter + (2 ^ 32 - 1)) % 2 ^ 32) ∧
    ((freq * (lit (2 ^ 32) / sr)).isNaN = true ∨ (freq * (lit (2 ^ 32) / sr)).val < 1 → a.tick.counter = a.counter) := by
  obtain ⟨s1, s2⟩ := phaseStep_saturation freq sr
  refine ⟨fun hn hv => ?_, fun hv => ?_⟩
  · rw [h.tick, s1 hn hv]
  · rw [h.tick, s2 hv, Nat.add_zero, Nat.mod_eq_of_lt hc]

/-- 440 Hz at 48 kHz meets the hypotheses; twice the sample rate saturates; -5 Hz freezes. -/
example : (1 / 2 ^ 90 ≤ (lit 48000 : F32).val ∧ (lit 48000 : F32).val ≤ 2 ^ 120 ∧ 0 < (lit 440 : F32).val ∧
      (lit 440 : F32).val < (lit 48000 : F32).val / 2) ∧
    phaseStep (lit 2000) (lit 1000) = 2 ^ 32 - 1 ∧ phaseStep (lit (-5)) (lit 1000) = 0 := by decide +kernel

end Verif
