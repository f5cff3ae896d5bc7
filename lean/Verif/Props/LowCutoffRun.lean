import Verif.F32.Scale
import Verif.Spec.Filter
import Verif.Props.DesignGain
import Verif.Props.PeriodicInput

/-! # C195: a low-pass with a very low cutoff, sample by sample

The float filter of 0.9 Hz, q = 0.6, 44.1 kHz is followed after a single click. Its state is kept as two integers in units of a power of two;
the kernel computes 18120 samples of silence, after which the state has exactly doubled once, and doubling commutes with rounding. -/

set_option exponentiation.threshold 300

namespace Verif
open F32 Butterworth

/-- `P / 2^j` rounded to 24 significant bits, ties to even (for `P ≥ 2^(j+23)`). -/
def round24 (P j : ℕ) : ℕ :=
  (P / 2 ^ (P.log2 - 23) + (bif Nat.blt (2 * (P - P / 2 ^ (P.log2 - 23) * 2 ^ (P.log2 - 23))) (2 ^ (P.log2 - 23)) then 0
    else bif Nat.blt (2 ^ (P.log2 - 23)) (2 * (P - P / 2 ^ (P.log2 - 23) * 2 ^ (P.log2 - 23))) then 1
    else P / 2 ^ (P.log2 - 23) % 2)) * 2 ^ (P.log2 - 23 - j)

theorem blt_of_le {a b : ℕ} (h : b ≤ a) : Nat.blt a b = false := by
  rw [Bool.eq_false_iff]; intro h'; rw [Nat.blt_eq] at h'; omega

theorem round24_spec {P j : ℕ} (h : 2 ^ (j + 23) ≤ P) : magInt (roundIdx ((P : ℚ) / 2 ^ j)) = round24 P j := by
  have hP : P ≠ 0 := by intro h0; subst h0; have : 0 < 2 ^ (j + 23) := by positivity
                        omega
  have l1 : 2 ^ P.log2 ≤ P := Nat.log2_self_le hP
  have l2 : P < 2 ^ (P.log2 + 1) := Nat.lt_log2_self
  have l3 : j + 23 ≤ P.log2 := by rw [Nat.le_log2 hP]; exact h
  obtain ⟨t, ht⟩ : ∃ t, P.log2 = j + t + 23 := ⟨P.log2 - 23 - j, by omega⟩
  unfold round24
  rw [ht] at l1 l2 ⊢
  rw [Nat.add_sub_cancel, Nat.add_sub_cancel_left]
  clear ht l3 h hP
  obtain ⟨q, r, hq, hr, e⟩ : ∃ q r, P / 2 ^ (j + t) = q ∧ r < 2 ^ (j + t) ∧ P = q * 2 ^ (j + t) + r :=
    ⟨_, P % 2 ^ (j + t), rfl, Nat.mod_lt _ (by positivity), by rw [mul_comm]; exact (Nat.div_add_mod _ _).symm⟩
  rw [hq]
  have q0 : 2 ^ 23 ≤ q := by rw [← hq, Nat.le_div_iff_mul_le (by positivity), ← pow_add]; rw [show 23 + (j + t) = j + t + 23 by omega]; exact l1
  have q1 : q < 2 ^ 24 := by rw [← hq, Nat.div_lt_iff_lt_mul (by positivity), ← pow_add]; rw [show 24 + (j + t) = j + t + 23 + 1 by omega]; exact l2
  have er : P - q * 2 ^ (j + t) = r := by omega
  rw [er]
  obtain ⟨m, hm⟩ : ∃ m, q = 2 ^ 23 + m := ⟨q - 2 ^ 23, by omega⟩
  have hm' : m < 2 ^ 23 := by omega
  obtain ⟨N, hN⟩ : ∃ N, N = (t + 1) * 2 ^ 23 + m := ⟨_, rfl⟩
  have N1 : N / 2 ^ 23 = t + 1 := by omega
  have N2 : N % 2 ^ 23 = m := by omega
  have mN : magInt N = q * 2 ^ t := by
    unfold magInt; rw [if_neg (by omega), N1, N2, hm, Nat.add_sub_cancel]
  have gN : gap N = 2 ^ t := by unfold gap; rw [N1, Nat.add_sub_cancel]
  have mN1 : magInt (N + 1) = q * 2 ^ t + 2 ^ t := by rw [magInt_succ, mN, gN]
  have eQ : (P : ℚ) / 2 ^ j = q * 2 ^ t + r / 2 ^ j := by
    rw [e]; push_cast; rw [pow_add]; field_simp
  have r0 : (0:ℚ) ≤ r / 2 ^ j := div_nonneg (Nat.cast_nonneg _) (pow_nonneg (by norm_num) _)
  have r1 : (r:ℚ) / 2 ^ j < 2 ^ t := by rw [div_lt_iff₀ (pow_pos (by norm_num) _), ← pow_add, add_comm t j]; exact_mod_cast hr
  obtain ⟨n, a1, a2, a3⟩ := roundIdx_cases (Q := (P:ℚ) / 2 ^ j) (div_nonneg (Nat.cast_nonneg _) (pow_nonneg (by norm_num) _))
  have hn : N = n := floorIdx_of_between (Q := (P:ℚ) / 2 ^ j) (by rw [mN, eQ]; push_cast; linarith) (by rw [mN1, eQ]; push_cast; linarith) a1 a2
  subst hn
  rw [mN, gN, eQ] at a3
  push_cast at a3
  have par : N % 2 = q % 2 := by omega
  have cmp : ∀ x : ℚ, x = 2 * (r:ℚ) / 2 ^ j → ((x ≤ 2 ^ t ↔ 2 * r ≤ 2 ^ (j + t)) ∧ (2 ^ t ≤ x ↔ 2 ^ (j + t) ≤ 2 * r) ∧ (x = 2 ^ t ↔ 2 * r = 2 ^ (j + t))) := by
    rintro x rfl
    have hj : (0:ℚ) < 2 ^ j := pow_pos (by norm_num) _
    refine ⟨?_, ?_, ?_⟩
    · rw [div_le_iff₀ hj, ← pow_add, add_comm t j]; exact_mod_cast Iff.rfl
    · rw [le_div_iff₀ hj, ← pow_add, add_comm t j]; exact_mod_cast Iff.rfl
    · rw [div_eq_iff hj.ne', ← pow_add, add_comm t j]; exact_mod_cast Iff.rfl
  obtain ⟨c1, c2, c3⟩ := cmp (2 * ((q:ℚ) * 2 ^ t + r / 2 ^ j - q * 2 ^ t)) (by ring)
  rw [c1, c2, c3] at a3
  rcases a3 with ⟨i1, i2, i3⟩ | ⟨i1, i2, i3⟩
  · rw [eQ, i1, mN]
    rcases i2.lt_or_eq with i | i
    · rw [show Nat.blt (2 * r) (2 ^ (j + t)) = true by simpa [Nat.blt_eq] using i]; simp
    · rw [blt_of_le (by omega), blt_of_le (by omega)]
      simp only [cond_false]
      have := i3 i
      rw [show q % 2 = 0 by omega, Nat.add_zero]
  · rw [eQ, i1, mN1]
    rcases i2.lt_or_eq with i | i
    · rw [blt_of_le (a := 2 * r) i2, show Nat.blt (2 ^ (j + t)) (2 * r) = true by simpa [Nat.blt_eq] using i]
      simp only [cond_false, cond_true]; ring
    · rw [blt_of_le (by omega), blt_of_le (by omega)]
      simp only [cond_false]
      have := i3 i.symm
      rw [show q % 2 = 1 by omega]; ring

theorem roundIdx_pow_two {Q : ℚ} (h : 2 ^ 23 ≤ Q) (e : ℕ) : magInt (roundIdx (2 ^ e * Q)) = 2 ^ e * magInt (roundIdx Q) := by
  have hr : ∀ {Q : ℚ}, 2 ^ 23 ≤ Q → 2 ^ 23 ≤ roundIdx Q := fun {Q} h => le_roundIdx_of_le (le_trans (by norm_num) h) (by
    have e : magInt (2 ^ 23) = 2 ^ 23 := by decide
    rw [e]; exact_mod_cast h)
  induction e with
  | zero => simp
  | succ e ih =>
    have h2 : 2 ^ 23 ≤ 2 ^ e * Q := h.trans (le_mul_of_one_le_left (le_trans (by norm_num) h) (one_le_pow₀ (by norm_num)))
    rw [show (2:ℚ) ^ (e + 1) * Q = 2 * (2 ^ e * Q) by ring, roundIdx_times_two h2, magInt_times_two (hr h2), ih]; ring

/-- A positive number that is `P / 2^j` in units of `2^(e-149)` is rounded to `round24 P j` such units. -/
theorem rnd_units {s : Bool} {q : ℚ} {P j e : ℕ} (h : 2 ^ (j + 23) ≤ P) (hq : q * unit = 2 ^ e * ((P:ℚ) / 2 ^ j))
    (hb : round24 P j * 2 ^ e < 2 ^ 277) : (rnd s q).isFin = true ∧ (rnd s q).val * unit = round24 P j * 2 ^ e := by
  have hQ : (2:ℚ) ^ 23 ≤ (P:ℚ) / 2 ^ j := by rw [le_div_iff₀ (by positivity), ← pow_add, add_comm]; exact_mod_cast h
  have hp : 0 < q := by
    have : 0 < q * unit := by rw [hq]; exact mul_pos (by positivity) (lt_of_lt_of_le (by norm_num) hQ)
    exact (mul_pos_iff_of_pos_right unit_pos).1 this
  have key : magInt (roundIdx (q * unit)) = round24 P j * 2 ^ e := by rw [hq, roundIdx_pow_two hQ, round24_spec h, mul_comm]
  have hlt : roundIdx (q * unit) < infMag := by
    rw [← magInt_lt, key]
    have : magInt infMag = 2 ^ 277 := by decide +kernel
    rw [this]; exact hb
  have hm : (rnd s q).mag = roundIdx (q * unit) := by rw [rnd_mag, abs_of_pos hp, min_eq_left hlt.le]
  refine ⟨isFin_iff.2 (hm ▸ hlt), ?_⟩
  rw [val_of_pos (rnd_neg_of_nonneg hp), hm]
  unfold magVal
  rw [key, div_mul_cancel₀ _ unit_pos.ne']; push_cast; rfl

/-- The coefficients of the low-pass at 0.9 Hz, q = 0.6, 44.1 kHz: values. -/
structure LowCo (co : BiquadCoeffs F32) : Prop where
  f0 : co.b0.isFin = true
  f1 : co.b1.isFin = true
  f2 : co.b2.isFin = true
  f3 : co.a1.isFin = true
  f4 : co.a2.isFin = true
  a1 : co.a1.val = -65529 / 2 ^ 15
  a2 : co.a2.val = 16773631 / 2 ^ 24

/-- The state of the filter, in units of `2^(e-149)`: `z1` is `z` of them, `z2` is `-w`. -/
structure InUnits (s : Biquad F32) (e z w : ℕ) : Prop where
  co : LowCo s.coeffs
  f1 : s.z1.isFin = true
  f2 : s.z2.isFin = true
  v1 : s.z1.val * unit = z * 2 ^ e
  v2 : s.z2.val * unit = -(w * 2 ^ e)

/-- The numbers for which one step of silence is read off the integers. -/
def stepOk (z w : ℕ) : Prop :=
  2 ^ 23 + 2 ^ 12 ≤ z ∧ z ≤ round24 (round24 (65529 * z) 15 - w) 0 ∧ w + 2 ^ 23 ≤ round24 (65529 * z) 15 ∧
    round24 (65529 * z) 15 ≤ 2 * z ∧ round24 (16773631 * z) 24 ≤ z ∧ 1 ≤ w

theorem mul_lit0 {b : F32} (hb : b.isFin = true) : (b * lit 0 : F32).isFin = true ∧ (b * lit 0 : F32).val = 0 := by
  rw [mul_fin hb lit0_fin, lit0_val, mul_zero]
  exact ⟨by rw [isFin_iff, rnd_zero, mag_pack]; decide, rnd_val_zero _⟩

theorem zero_add_fin {b z : F32} (hb : b.isFin = true) (hz : z.isFin = true) (h : z.val ≠ 0) : (b * lit 0 + z) = z := by
  rw [add_fin (mul_lit0 hb).1 hz, (mul_lit0 hb).2, zero_add, rnd_eq_self (isFin.not_nan hz) h]

theorem rnd_neg_fin {s : Bool} {q : ℚ} (h : (rnd false q).isFin = true) :
    (rnd s (-q)).isFin = true ∧ (rnd s (-q)).val = -(rnd false q).val := by
  refine ⟨?_, rnd_val_odd _ _ _⟩
  rw [isFin_iff, rnd_mag] at h ⊢
  rwa [abs_neg]

/-- One sample of silence. -/
theorem quiet_step {s : Biquad F32} {e z w : ℕ} (h : InUnits s e z w) (ok : stepOk z w)
    (hb : round24 (round24 (65529 * z) 15 - w) 0 * 2 ^ e < 2 ^ 275) :
    InUnits (s.process (lit 0)).1 e (round24 (round24 (65529 * z) 15 - w) 0) (round24 (16773631 * z) 24) ∧ (s.process (lit 0)).2 = s.z1 := by
  obtain ⟨o1, o2, o3, o4, o5, o6⟩ := ok
  obtain ⟨hc, f1, f2, v1, v2⟩ := h
  obtain ⟨u, hu⟩ : ∃ u, u = round24 (65529 * z) 15 := ⟨_, rfl⟩
  obtain ⟨z', hz'⟩ : ∃ z', z' = round24 (u - w) 0 := ⟨_, rfl⟩
  obtain ⟨w', hw'⟩ : ∃ w', w' = round24 (16773631 * z) 24 := ⟨_, rfl⟩
  rw [← hu] at hb o2 o3 o4 ⊢
  rw [← hz'] at hb o2 ⊢
  rw [← hw'] at o5 ⊢
  have up := unit_pos
  have pe : (0:ℚ) < 2 ^ e := by positivity
  have pe' : 0 < 2 ^ e := by positivity
  have zb : z * 2 ^ e < 2 ^ 275 := lt_of_le_of_lt (Nat.mul_le_mul_right _ o2) hb
  have ub : u * 2 ^ e < 2 ^ 277 := by
    have : u * 2 ^ e ≤ 2 * z * 2 ^ e := Nat.mul_le_mul_right _ o4
    rw [mul_assoc] at this
    calc _ ≤ _ := this
      _ < 2 * 2 ^ 275 := by omega
      _ ≤ _ := by exact (pow_succ' 2 275).ge.trans (Nat.pow_le_pow_right (by norm_num) (by norm_num))
  have wb : w' * 2 ^ e < 2 ^ 277 := lt_of_le_of_lt (Nat.mul_le_mul_right _ o5) (zb.trans (Nat.pow_lt_pow_right (by norm_num) (by norm_num)))
  have z0 : s.z1.val ≠ 0 := by
    intro h0; rw [h0, zero_mul] at v1
    have : (0:ℚ) < z * 2 ^ e := mul_pos (by exact_mod_cast (by omega : 0 < z)) pe
    linarith
  have w0 : s.z2.val ≠ 0 := by
    intro h0; rw [h0, zero_mul] at v2
    have : (0:ℚ) < w * 2 ^ e := mul_pos (by exact_mod_cast (by omega : 0 < w)) pe
    linarith
  have out : (s.process (lit 0)).2 = s.z1 := zero_add_fin hc.f0 f1 z0
  have e1 : (s.process (lit 0)).1.z1 = s.z2 - s.coeffs.a1 * s.z1 := by
    change s.coeffs.b1 * lit 0 + s.z2 - s.coeffs.a1 * (s.process (lit 0)).2 = _
    rw [out, zero_add_fin hc.f1 f2 w0]
  have e2 : (s.process (lit 0)).1.z2 = s.coeffs.b2 * lit 0 - s.coeffs.a2 * s.z1 := by
    change s.coeffs.b2 * lit 0 - s.coeffs.a2 * (s.process (lit 0)).2 = _
    rw [out]
  have pu : (s.coeffs.a1 * s.z1).isFin = true ∧ (s.coeffs.a1 * s.z1).val * unit = -(u * 2 ^ e) := by
    obtain ⟨r1, r2⟩ := rnd_units (s := false) (q := 65529 / 2 ^ 15 * s.z1.val) (P := 65529 * z) (j := 15) (e := e) (by norm_num at o1 ⊢; omega)
      (by rw [mul_assoc, v1]; push_cast; ring) (by rw [← hu]; exact ub)
    obtain ⟨n1, n2⟩ := rnd_neg_fin (s := s.coeffs.a1.neg != s.z1.neg) r1
    rw [mul_fin hc.f3 f1, hc.a1, show (-65529 / 2 ^ 15 : ℚ) * s.z1.val = -(65529 / 2 ^ 15 * s.z1.val) by ring]
    exact ⟨n1, by rw [n2, neg_mul, r2, ← hu]⟩
  have pw : (s.coeffs.a2 * s.z1).isFin = true ∧ (s.coeffs.a2 * s.z1).val * unit = w' * 2 ^ e := by
    rw [mul_fin hc.f4 f1, hc.a2]
    rw [hw']
    exact rnd_units (by norm_num at o1 ⊢; omega) (by rw [mul_assoc, v1]; push_cast; ring) (by rw [← hw']; exact wb)
  have nz : (s.z2 - s.coeffs.a1 * s.z1).isFin = true ∧ (s.z2 - s.coeffs.a1 * s.z1).val * unit = z' * 2 ^ e := by
    rw [sub_fin f2 pu.1, hz']
    refine rnd_units (by norm_num at o3 ⊢; omega) ?_ (by rw [← hz']; exact hb.trans (Nat.pow_lt_pow_right (by norm_num) (by norm_num)))
    rw [sub_mul, v2, pu.2, Nat.cast_sub (by omega)]; ring
  have nw : (s.coeffs.b2 * lit 0 - s.coeffs.a2 * s.z1).isFin = true ∧ (s.coeffs.b2 * lit 0 - s.coeffs.a2 * s.z1).val * unit = -(w' * 2 ^ e) := by
    have hs := rnd_val_self (s := false) (isFin.not_nan pw.1)
    have hf : (rnd false (s.coeffs.a2 * s.z1).val).isFin = true := by
      rw [isFin_iff, rnd_mag, abs_val]
      refine lt_of_le_of_lt (min_le_left _ _) ?_
      have : magVal (s.coeffs.a2 * s.z1).mag * unit = magInt (s.coeffs.a2 * s.z1).mag := by
        unfold magVal; rw [div_mul_cancel₀ _ up.ne']
      rw [this, roundIdx_exact]; exact isFin_iff.1 pw.1
    rw [sub_fin (mul_lit0 hc.f2).1 pw.1, (mul_lit0 hc.f2).2, zero_sub]
    obtain ⟨n1, n2⟩ := rnd_neg_fin (s := (s.coeffs.b2 * lit 0 : F32).neg && !(s.coeffs.a2 * s.z1).neg) hf
    exact ⟨n1, by rw [n2, hs, neg_mul, pw.2]⟩
  exact ⟨⟨hc, e1 ▸ nz.1, e2 ▸ nw.1, e1 ▸ nz.2, e2 ▸ nw.2⟩, out⟩

/-- Forces an argument before it is used. -/
def forced {α : Type} (t : ℕ) (f : ℕ → α) : α := Nat.rec (motive := fun _ => α) (f 0) (fun k _ => f (Nat.succ k)) t

theorem forced_eq {α : Type} (t : ℕ) (f : ℕ → α) : forced t f = f t := by cases t <;> rfl

/-- `k (round24 P j)`, written so that the kernel computes every intermediate number once. -/
def with24 {α : Type} (P j : ℕ) (k : ℕ → α) : α :=
  forced P fun P =>
  forced (Nat.sub (Nat.log2 P) 23) fun s =>
  forced (Nat.pow 2 s) fun p =>
  forced (Nat.div P p) fun q =>
  forced (Nat.mul 2 (Nat.sub P (Nat.mul q p))) fun d =>
  forced (Nat.add q (bif Nat.blt d p then 0 else bif Nat.blt p d then 1 else Nat.mod q 2)) fun q' =>
  forced (Nat.mul q' (Nat.pow 2 (Nat.sub s j))) k

theorem with24_eq {α : Type} (P j : ℕ) (k : ℕ → α) : with24 P j k = k (round24 P j) := by
  unfold with24
  simp only [forced_eq]
  rfl

/-- `n` samples of silence lead from `(z, w)` to `(Z, W)`, every step in the scope of `quiet_step`. -/
def leadsTo (Z W n : ℕ) : ℕ → ℕ → Bool :=
  Nat.rec (motive := fun _ => ℕ → ℕ → Bool) (fun z w => bif Nat.beq z Z then Nat.beq w W else false) (fun _ ih z w =>
    with24 (Nat.mul 65529 z) 15 fun u =>
    with24 (Nat.sub u w) 0 fun z' =>
    with24 (Nat.mul 16773631 z) 24 fun w' =>
    bif Nat.ble z z' then bif Nat.ble (Nat.add w 8388608) u then bif Nat.ble u (Nat.mul 2 z) then bif Nat.ble w' z then
      bif Nat.ble 1 w' then ih z' w' else false else false else false else false else false) n

theorem leadsTo_succ (Z W n z w : ℕ) : leadsTo Z W (n + 1) z w = true →
    z ≤ round24 (round24 (65529 * z) 15 - w) 0 ∧ w + 2 ^ 23 ≤ round24 (65529 * z) 15 ∧ round24 (65529 * z) 15 ≤ 2 * z ∧
    round24 (16773631 * z) 24 ≤ z ∧ 1 ≤ round24 (16773631 * z) 24 ∧
    leadsTo Z W n (round24 (round24 (65529 * z) 15 - w) 0) (round24 (16773631 * z) 24) = true := by
  intro h
  change with24 (65529 * z) 15 (fun u => with24 (u - w) 0 (fun z' => with24 (16773631 * z) 24 (fun w' =>
    bif Nat.ble z z' then bif Nat.ble (w + 8388608) u then bif Nat.ble u (2 * z) then bif Nat.ble w' z then
      bif Nat.ble 1 w' then leadsTo Z W n z' w' else false else false else false else false else false))) = true at h
  rw [with24_eq, with24_eq, with24_eq] at h
  simp only [cond_eq_ite, Nat.ble_eq] at h
  split_ifs at h with c1 c2 c3 c4 c5
  exact ⟨c1, by norm_num; exact c2, c3, c4, c5, h⟩

/-- A whole stretch of silence. -/
theorem quiet_run {Z W : ℕ} : ∀ (n : ℕ) {z w : ℕ}, leadsTo Z W n z w = true → 2 ^ 23 + 2 ^ 12 ≤ z → 1 ≤ w →
    z ≤ Z ∧ ∀ {s : Biquad F32} {e : ℕ}, InUnits s e z w → Z * 2 ^ e < 2 ^ 275 →
      InUnits (s.stateAt (fun _ => lit 0) n) e Z W ∧ ∀ k < n, (s.outAt (fun _ => lit 0) k).isFin = true := by
  intro n
  induction n with
  | zero =>
    intro z w h _ _
    change (bif Nat.beq z Z then Nat.beq w W else false) = true at h
    simp only [cond_eq_ite, Nat.beq_eq] at h
    split_ifs at h with c1
    rw [Nat.beq_eq] at h
    subst c1 h
    exact ⟨le_rfl, fun hs _ => ⟨hs, fun k hk => by omega⟩⟩
  | succ n ih =>
    intro z w h z0 w0
    obtain ⟨c1, c2, c3, c4, c5, h'⟩ := leadsTo_succ Z W n z w h
    obtain ⟨i1, i2⟩ := ih h' (z0.trans c1) c5
    refine ⟨c1.trans i1, fun {s e} hs hb => ?_⟩
    have hb' := lt_of_le_of_lt (Nat.mul_le_mul_right (2 ^ e) i1) hb
    obtain ⟨j1, j2⟩ := quiet_step hs ⟨z0, c1, c2, c3, c4, w0⟩ hb'
    obtain ⟨k1, k2⟩ := i2 j1 hb
    refine ⟨?_, ?_⟩
    · rw [stateAt_later s (fun _ => lit 0) 1 n]; exact k1
    · intro k hk
      rcases k with _ | k
      · change (s.process (lit 0)).2.isFin = true
        rw [j2]; exact hs.f1
      · rw [outAt_later s (fun _ => lit 0) 1 k]; exact k2 k (by omega)

/-- `π fc / sr` for 0.9 Hz at 44.1 kHz. -/
def tinyArg : F32 := lit FMath.piQ * lit (9 / 10) / lit 44100

theorem tiny_val : tinyArg.val = 8811780 / 2 ^ 37 := by decide +kernel

theorem tiny_absorbs {t : F32} (ht : t.isFin = true) (h : |t.val| ≤ 1 / 2 ^ 39) : tinyArg + t = tinyArg := by
  obtain ⟨h1, h2⟩ := abs_le.1 h
  have xf : tinyArg.isFin = true := by decide +kernel
  rw [add_fin xf ht]
  have key : (rnd (tinyArg.neg && t.neg) (tinyArg.val + t.val)).val = tinyArg.val := by
    have e1 : (rnd false (tinyArg.val - 1 / 2 ^ 39)).val = tinyArg.val := by rw [tiny_val]; decide +kernel
    have e2 : (rnd false (tinyArg.val + 1 / 2 ^ 39)).val = tinyArg.val := by rw [tiny_val]; decide +kernel
    refine le_antisymm ?_ ?_
    · rw [← e2]; exact rnd_mono (by linarith)
    · rw [← e1]; exact rnd_mono (by linarith)
  exact eq_of_val_eq key (by rw [key, tiny_val]; norm_num)

/-- The series adds nothing to so small an argument, whatever `powi`. -/
theorem tiny_tan {powi : F32 → ℕ → F32} (hp : PowiNear powi) : FMath.fastTan powi tinyArg = tinyArg := by
  have x0 : 0 ≤ tinyArg.val := by rw [tiny_val]; norm_num
  have x1 : tinyArg.val ≤ 1 := by rw [tiny_val]; norm_num
  have z : (lit 0 + tinyArg : F32) = tinyArg := by decide +kernel
  have t : ∀ {c : F32} {v : ℚ} {n : ℕ}, 0 ≤ v → v ≤ 1 / 3 → Near c v (2 * v / 2 ^ 24) → 3 ≤ n → n ≤ 15 → tinyArg + c * powi tinyArg n = tinyArg := by
    intro c v n v0 v1 hc n0 hn
    obtain ⟨h1, h2⟩ := hp tinyArg n x0 x1 hn
    have p3 : tinyArg.val ^ n ≤ tinyArg.val ^ 3 := pow_le_pow_of_le_one x0 x1 n0
    have p0 : 0 ≤ tinyArg.val ^ n := pow_nonneg x0 _
    have p4 : tinyArg.val ^ 3 ≤ 1 / 2 ^ 41 := by rw [tiny_val]; norm_num
    have hP : |(powi tinyArg n).val| ≤ 1 / 2 ^ 40 := by
      have := abs_le.1 h2
      norm_num at this p4 ⊢
      rw [abs_le]; constructor <;> linarith
    have hC : |c.val| ≤ 1 / 2 := by
      have := abs_le.1 hc.2
      norm_num at this ⊢
      rw [abs_le]; constructor <;> linarith
    have hm : |c.val * (powi tinyArg n).val| ≤ 1 / 2 * (1 / 2 ^ 40) := by
      rw [abs_mul]; exact mul_le_mul hC hP (abs_nonneg _) (by norm_num)
    obtain ⟨g1, g2⟩ := mul_near hc.1 h1 hm (by norm_num)
    refine tiny_absorbs g1 ?_
    have a := abs_le.1 g2
    have b := abs_le.1 hm
    norm_num at a b ⊢
    rw [abs_le]; constructor <;> linarith
  unfold FMath.fastTan
  simp only [z]
  rw [t (v := 1 / 3) (by norm_num) (by norm_num) (by unfold Near; decide +kernel) (by norm_num) (by norm_num),
    t (v := 2 / 15) (by norm_num) (by norm_num) (by unfold Near; decide +kernel) (by norm_num) (by norm_num),
    t (v := 17 / 315) (by norm_num) (by norm_num) (by unfold Near; decide +kernel) (by norm_num) (by norm_num),
    t (v := 62 / 2835) (by norm_num) (by norm_num) (by unfold Near; decide +kernel) (by norm_num) (by norm_num),
    t (v := 1382 / 155925) (by norm_num) (by norm_num) (by unfold Near; decide +kernel) (by norm_num) (by norm_num),
    t (v := 21844 / 6081075) (by norm_num) (by norm_num) (by unfold Near; decide +kernel) (by norm_num) (by norm_num),
    t (v := 929569 / 638512875) (by norm_num) (by norm_num) (by unfold Near; decide +kernel) (by norm_num) (by norm_num)]

theorem tiny_lowpass {powi : F32 → ℕ → F32} (hp : PowiNear powi) :
    lowpass powi (lit (9 / 10)) (lit (3 / 5)) (lit 44100) = lowpassOf (tinyArg * tinyArg) (tinyArg / lit (3 / 5)) := by
  unfold lowpass setupCoeffs
  have := tiny_tan hp
  unfold tinyArg at this
  simp only [this]
  rfl

/-- A click: one sample of 1, then silence. -/
def click (n : ℕ) : F32 := if n = 0 then lit 1 else lit 0

theorem tiny_start {powi : F32 → ℕ → F32} (hp : PowiNear powi) :
    InUnits ((Biquad.new (lowpass powi (lit (9 / 10)) (lit (3 / 5)) (lit 44100))).stateAt click 2) 101 9254074 4626419 := by
  rw [tiny_lowpass hp]
  refine ⟨⟨?_, ?_, ?_, ?_, ?_, ?_, ?_⟩, ?_, ?_, ?_, ?_⟩ <;> decide +kernel

theorem tiny_path1 : leadsTo 12693484544 12687468544 3453 9254074 4626419 = true := by decide +kernel
theorem tiny_path2 : leadsTo 25508696064 25498824704 3453 12693484544 12687468544 = true := by decide +kernel
theorem tiny_path3 : leadsTo 45229174784 45212180480 3453 25508696064 25498824704 = true := by decide +kernel
theorem tiny_path4 : leadsTo 78968225792 78938644480 3453 45229174784 45212180480 = true := by decide +kernel

theorem tiny_cycle : leadsTo (2 * 78968225792) (2 * 78938644480) 4308 78968225792 78938644480 = true := by decide +kernel

/-- The state after the click and 13812 samples of silence. -/
theorem tiny_first {s : Biquad F32} (h : InUnits s 101 9254074 4626419) :
    InUnits (s.stateAt (fun _ => lit 0) 13812) 101 78968225792 78938644480 := by
  have b : ∀ Z : ℕ, Z ≤ 2 ^ 37 → Z * 2 ^ 101 < 2 ^ 275 := fun Z hZ =>
    lt_of_le_of_lt (Nat.mul_le_mul_right _ hZ) (by rw [← pow_add]; exact Nat.pow_lt_pow_right (by norm_num) (by norm_num))
  have h1 := ((quiet_run 3453 tiny_path1 (by norm_num) (by norm_num)).2 h (b _ (by norm_num))).1
  have h2 := ((quiet_run 3453 tiny_path2 (by norm_num) (by norm_num)).2 h1 (b _ (by norm_num))).1
  have h3 := ((quiet_run 3453 tiny_path3 (by norm_num) (by norm_num)).2 h2 (b _ (by norm_num))).1
  have h4 := ((quiet_run 3453 tiny_path4 (by norm_num) (by norm_num)).2 h3 (b _ (by norm_num))).1
  have e : ∀ a c : ℕ, s.stateAt (fun _ => lit 0) (a + c) = (s.stateAt (fun _ => lit 0) c).stateAt (fun _ => lit 0) a := fun a c =>
    stateAt_later s (fun _ => lit 0) c a
  rw [show 13812 = 3453 + (3453 + (3453 + 3453)) by norm_num, e, e, e]
  exact h4

/-- From then on the state doubles every 4308 samples. -/
theorem tiny_later {s : Biquad F32} (h : InUnits s 101 78968225792 78938644480) : ∀ j : ℕ, j ≤ 136 →
    InUnits (s.stateAt (fun _ => lit 0) (4308 * j)) (101 + j) 78968225792 78938644480
  | 0, _ => h
  | j + 1, hj => by
    have ih := tiny_later h j (by omega)
    have hb : 2 * 78968225792 * 2 ^ (101 + j) < 2 ^ 275 := by
      calc 2 * 78968225792 * 2 ^ (101 + j) ≤ 2 ^ 38 * 2 ^ (101 + j) := Nat.mul_le_mul_right _ (by norm_num)
        _ < 2 ^ 275 := by rw [← pow_add]; exact Nat.pow_lt_pow_right (by norm_num) (by omega)
    have hn := ((quiet_run 4308 tiny_cycle (by norm_num) (by norm_num)).2 ih hb).1
    rw [← stateAt_later s (fun _ => lit 0) (4308 * j) 4308] at hn
    rw [show 4308 * (j + 1) = 4308 + 4308 * j by ring]
    refine ⟨hn.co, hn.f1, hn.f2, ?_, ?_⟩
    · rw [hn.v1]; push_cast; ring
    · rw [hn.v2]; push_cast; ring

/-- C195: the low-pass at 0.9 Hz, q = 0.6, 44.1 kHz, in floats. Fed one sample of 1 and then silence it does not ring down: from sample
13814 on, its output doubles every 4308 samples, exactly, through 136 doublings. -/
theorem C195_doubles {powi : F32 → ℕ → F32} (hp : PowiNear powi) {j : ℕ} (hj : j ≤ 136) :
    ((Biquad.new (lowpass powi (lit (9 / 10)) (lit (3 / 5)) (lit 44100))).outAt click (13814 + 4308 * j)).isFin = true ∧
    ((Biquad.new (lowpass powi (lit (9 / 10)) (lit (3 / 5)) (lit 44100))).outAt click (13814 + 4308 * j)).val = 2 ^ j * (78968225792 / 2 ^ 48) := by
  have h0 := tiny_start hp
  generalize Biquad.new (lowpass powi (lit (9 / 10)) (lit (3 / 5)) (lit 44100)) = f at *
  have hx : (fun m => click (m + 2)) = fun _ => lit 0 := by funext m; simp [click]
  have e : f.outAt click (13814 + 4308 * j) =
      (((f.stateAt click 2).stateAt (fun _ => lit 0) 13812).stateAt (fun _ => lit 0) (4308 * j)).outAt (fun _ => lit 0) 0 := by
    rw [show 13814 + 4308 * j = (0 + 4308 * j + 13812) + 2 by ring, outAt_later, hx, outAt_later, outAt_later]
  have h := tiny_later (tiny_first h0) j hj
  rw [e]
  generalize ((f.stateAt click 2).stateAt (fun _ => lit 0) 13812).stateAt (fun _ => lit 0) (4308 * j) = s at *
  have hv : s.z1.val = 2 ^ j * (78968225792 / 2 ^ 48) := by
    have := h.v1
    rw [← eq_div_iff unit_pos.ne'] at this
    rw [this]
    unfold unit
    rw [pow_add]; push_cast; field_simp
  have out : s.outAt (fun _ => lit 0) 0 = s.z1 :=
    zero_add_fin h.co.f0 h.f1 (show s.z1.val ≠ 0 by rw [hv]; positivity)
  rw [out]
  exact ⟨h.f1, hv⟩

/-- C195 in full: however low its cutoff, a low-pass of moderate q has a gain of about 1 on constants and answers a click with a bounded ring
(never above 1000). -/
def C195_full (powi : F32 → ℕ → F32) : Prop :=
  ∀ fc q sr : F32, 1 ≤ sr.val → sr.val ≤ 2 ^ 30 → 0 < fc.val → fc.val / sr.val ≤ 318 / 1000 → 1 / 2 ≤ q.val → q.val ≤ 2 →
    |dcGain (lowpass powi fc q sr) - 1| ≤ 1 / 4 ∧
    ∀ n, ((Biquad.new (lowpass powi fc q sr)).outAt click n).isFin = true ∧ |((Biquad.new (lowpass powi fc q sr)).outAt click n).val| ≤ 1000

/-- C195 fails, whatever `powi`: at 0.9 Hz and 44.1 kHz the output passes 1000 within three seconds of the click, and `10^36` later. -/
theorem C195_refuted {powi : F32 → ℕ → F32} (hp : PowiNear powi) : ¬ C195_full powi := by
  intro h
  have := ((h (lit (9 / 10)) (lit (3 / 5)) (lit 44100) (by decide +kernel) (by decide +kernel) (by decide +kernel) (by decide +kernel)
    (by decide +kernel) (by decide +kernel)).2 (13814 + 4308 * 22)).2
  rw [(C195_doubles hp (j := 22) (by norm_num)).2, abs_of_pos (by positivity)] at this
  norm_num at this

example : ((13814 + 4308 * 22 : ℕ) : ℚ) / 44100 < 3 ∧ (10:ℚ) ^ 36 < 2 ^ 136 * (78968225792 / 2 ^ 48) := by norm_num

end Verif
