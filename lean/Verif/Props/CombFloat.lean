import Verif.Props.Modulation
import Verif.Props.Si

/-! # C122-C125: comb and all-pass in float arithmetic, over infinitely many samples -/

namespace Verif
open F32

/-! ## C122 -/

/-- A factor of size at most 1 keeps its share of a power of two, rounding included. -/
theorem share_pow2 {a s : F32} {k : ℕ} (hk : k ≤ 126) (ha : a.isFin = true) (ha' : |a.val| ≤ 2 ^ k) (hs : s.isFin = true)
    (hs1 : |s.val| ≤ 1) : (a * s).isFin = true ∧ |(a * s).val| ≤ 2 ^ k * |s.val| := by
  have hp : (0:ℚ) < 2 ^ k := by positivity
  obtain ⟨z, zf, zv⟩ := rep_scale hs k (by
    rw [abs_mul, abs_of_pos hp]
    have h1 : (2:ℚ) ^ k ≤ 2 ^ 126 := pow_le_pow_right₀ (by norm_num) hk
    have : |s.val| * 2 ^ k ≤ 1 * 2 ^ 126 := mul_le_mul hs1 h1 hp.le (by norm_num)
    exact lt_of_le_of_lt this (by norm_num))
  have hz : |a.val * s.val| ≤ |z.val| := by
    rw [zv, abs_mul, abs_mul, abs_of_pos hp, mul_comm]
    exact mul_le_mul_of_nonneg_left ha' (abs_nonneg _)
  rw [mul_fin ha hs]
  refine ⟨rnd_fin zf hz, ?_⟩
  have := rnd_abs_le (s := a.neg != s.neg) hz
  rwa [zv, abs_mul s.val, abs_of_pos hp, mul_comm |s.val|] at this

/-- `1 - d`, rounded, for a dampening in [0, 1]. -/
theorem one_sub_damp {d : F32} (hd : d.isFin = true) (h0 : 0 ≤ d.val) (h1 : d.val ≤ 1) :
    (lit 1 - d).isFin = true ∧ 0 ≤ (lit 1 - d).val ∧ |(lit 1 - d).val - (1 - d.val)| ≤ 1 / 2 ^ 25 := by
  rw [sub_fin lit1_fin hd, lit1_val]
  have ha : |1 - d.val| ≤ 1 := by rw [abs_le]; constructor <;> linarith
  exact ⟨rnd_fin_of_lt (lt_of_le_of_lt ha (by norm_num)), rnd_val_nonneg (by linarith), rnd_error_unit ha⟩

/-- The sequences of a float comb stay within `2^e`. -/
theorem comb_seq_bounded {q : List F32} (hne : q ≠ []) {w f fb damp inp : ℕ → F32} {e : ℕ} (he : e ≤ 126)
    (hw0 : ∀ n (hn : n < q.length), w n = q[n]) (hf : ∀ n, f (n + 1) = w n * (lit 1 - damp n) + f n * damp n)
    (hw : ∀ n, w (n + q.length) = inp n + f (n + 1) * fb n) (hq : ∀ x ∈ q, x.isFin = true ∧ |x.val| ≤ 2 ^ e)
    (hs : (f 0).isFin = true ∧ |(f 0).val| ≤ 2 ^ e)
    (hd : ∀ n, (damp n).isFin = true ∧ 0 ≤ (damp n).val ∧ (damp n).val ≤ 1)
    (hfb : ∀ n, (fb n).isFin = true) (hin : ∀ n, (inp n).isFin = true)
    (hroom : ∀ n, |(inp n).val| + 2 ^ e * |(fb n).val| ≤ 2 ^ e) (n : ℕ) :
    ((f n).isFin = true ∧ |(f n).val| ≤ 2 ^ e) ∧ ((w n).isFin = true ∧ |(w n).val| ≤ 2 ^ e) ∧ |(fb n).val| ≤ 1 := by
  have hp : (0:ℚ) < 2 ^ e := by positivity
  have hpos : 0 < q.length := List.length_pos_iff.2 hne
  have hfb1 : ∀ n, |(fb n).val| ≤ 1 := by
    intro n
    have := hroom n
    have h0 := abs_nonneg (inp n).val
    by_contra hc
    push Not at hc
    have := mul_lt_mul_of_pos_left hc hp
    linarith
  have key : ∀ n, ((f n).isFin = true ∧ |(f n).val| ≤ 2 ^ e) ∧
      ∀ m < n + q.length, (w m).isFin = true ∧ |(w m).val| ≤ 2 ^ e := by
    intro n
    induction n with
    | zero =>
      refine ⟨hs, fun m hm => ?_⟩
      rw [hw0 m (by omega)]; exact hq _ (List.getElem_mem _)
    | succ n ih =>
      obtain ⟨⟨f1, f2⟩, hwm⟩ := ih
      obtain ⟨w1, w2⟩ := hwm n (by omega)
      obtain ⟨d1, d2, d3⟩ := hd n
      obtain ⟨i1, i2, i3⟩ := one_sub_damp d1 d2 d3
      have hb := blend_pow2 he w1 f1 w2 f2 i1 d1 i2 d2 (by linarith [(abs_le.1 i3).2])
      rw [← hf n] at hb
      have hf' : (f (n + 1)).isFin = true ∧ |(f (n + 1)).val| ≤ 2 ^ e := ⟨hb.2.2.1, hb.2.2.2⟩
      refine ⟨hf', fun m hm => ?_⟩
      by_cases hlt : m < n + q.length
      · exact hwm m hlt
      · have : m = n + q.length := by omega
        subst this
        obtain ⟨p1, p2⟩ := share_pow2 he hf'.1 hf'.2 (hfb n) (hfb1 n)
        rw [hw n, add_fin (hin n) p1]
        exact rnd_pow_bound (by omega) ((abs_add_le _ _).trans (by linarith [hroom n]))
  exact ⟨(key n).1, (key n).2 n (by omega), hfb1 n⟩

/-- C122: a comb whose feedback and dampening are set anew before every tick. As long as the dampening stays in [0, 1] and
the sample and the feedback of each tick leave room (`|x| + 2^k * |feedback| ≤ 2^k`), everything stays finite and within
`2^k`, for ever, with every rounding of the float arithmetic counted. -/
theorem C122_bounded {c : Cfg} {mem : Mem F32} {q : List F32} {k : Comb F32} (h : Holds c mem k.delayLine q)
    {fb damp inp : ℕ → F32} {e : ℕ} (he : e ≤ 126) (hq : ∀ x ∈ q, x.isFin = true ∧ |x.val| ≤ 2 ^ e)
    (hs : k.filterState.isFin = true ∧ |k.filterState.val| ≤ 2 ^ e)
    (hd : ∀ n, (damp n).isFin = true ∧ 0 ≤ (damp n).val ∧ (damp n).val ≤ 1)
    (hfb : ∀ n, (fb n).isFin = true) (hin : ∀ n, (inp n).isFin = true)
    (hroom : ∀ n, |(inp n).val| + 2 ^ e * |(fb n).val| ≤ 2 ^ e) (n : ℕ) :
    ∃ y, Comb.outUnder c mem k fb damp inp n = .ok y ∧ y.isFin = true ∧ |y.val| ≤ 2 ^ e := by
  obtain ⟨w, f, hw0, hf0, hf, hw, hout⟩ := C99_modulated h fb damp inp
  obtain ⟨-, h1, -⟩ := comb_seq_bounded h.ne_nil he hw0 hf hw hq (by rw [hf0]; exact hs) hd hfb hin hroom n
  exact ⟨w n, hout n, h1.1, h1.2⟩

/-- Samples up to 1, feedback 9/10 (rounded) and full dampening range: outputs within 16. -/
example (inp damp : ℕ → F32) (hin : ∀ n, (inp n).isFin = true ∧ |(inp n).val| ≤ 1)
    (hd : ∀ n, (damp n).isFin = true ∧ 0 ≤ (damp n).val ∧ (damp n).val ≤ 1) (n : ℕ) :
    ∃ y, Comb.outUnder Cfg.release32 quietMem (Comb.new quietSlice) (fun _ => lit (9/10)) damp inp n = .ok y ∧
      y.isFin = true ∧ |y.val| ≤ 2 ^ 4 := by
  refine C122_bounded (holds_new quiet_views (by simp)) (e := 4) (by norm_num) ?_ ?_ hd (fun _ => by decide +kernel)
    (fun n => (hin n).1) (fun n => ?_) n
  · intro x hx
    rw [List.eq_of_mem_replicate hx, lit0_val]; exact ⟨lit0_fin, by norm_num⟩
  · show (lit 0 : F32).isFin = true ∧ _
    exact ⟨lit0_fin, by show |(lit 0 : F32).val| ≤ _; rw [lit0_val]; norm_num⟩
  · have : |(lit (9/10) : F32).val| ≤ 91/100 := by decide +kernel
    have := (hin n).2
    linarith

set_option exponentiation.threshold 300

/-! ## C123, C124: does the tail die out? -/

/-- A finite float of at most `N` units of `2^-149` (the smallest positive float). -/
def AtMost (x : F32) (N : ℕ) : Prop := x.isFin = true ∧ |x.val| * 2 ^ 149 ≤ N

theorem AtMost.mono {x : F32} {M N : ℕ} (h : AtMost x M) (hMN : M ≤ N) : AtMost x N :=
  ⟨h.1, h.2.trans (by exact_mod_cast hMN)⟩

/-- The float of `m * 2^k` units. -/
theorem units_rep {m k : ℕ} (hm : m ≤ 2 ^ 24) (hlt : m * 2 ^ k < 2 ^ 277) :
    ∃ y : F32, y.isFin = true ∧ |y.val| = ((m * 2 ^ k : ℕ) : ℚ) / 2 ^ 149 := by
  obtain ⟨y, y1, y2⟩ : Rep (((m * 2 ^ k : ℕ) : ℚ) / 2 ^ 149) := by
    refine rep_of_int_pow (m := m) (k := k) (by rw [Nat.abs_cast]; exact_mod_cast hm) ?_ ?_
    · unfold unit; push_cast; field_simp
    · rw [abs_of_nonneg (by positivity), div_lt_iff₀ (by positivity)]
      have : ((m * 2 ^ k : ℕ) : ℚ) < ((2 ^ 277 : ℕ) : ℚ) := by exact_mod_cast hlt
      refine this.trans_le ?_
      norm_num
  exact ⟨y, y1, by rw [y2, abs_of_nonneg (by positivity)]⟩

/-- Rounding does not pass a float. -/
theorem rnd_atMost {s : Bool} {q : ℚ} {m k : ℕ} (hm : m ≤ 2 ^ 24) (hlt : m * 2 ^ k < 2 ^ 277)
    (h : |q| * 2 ^ 149 ≤ ((m * 2 ^ k : ℕ) : ℚ)) : AtMost (rnd s q) (m * 2 ^ k) := by
  obtain ⟨y, y1, y2⟩ := units_rep hm hlt
  have hq : |q| ≤ |y.val| := by rw [y2, le_div_iff₀ (by positivity)]; exact h
  refine ⟨rnd_fin y1 hq, ?_⟩
  have := rnd_abs_le (s := s) hq
  rw [y2, le_div_iff₀ (by positivity)] at this
  exact this

/-- Halving. -/
theorem half_atMost {x : F32} {m k : ℕ} (hm : m ≤ 2 ^ 24) (hlt : m * 2 ^ k < 2 ^ 277)
    (h : AtMost x (2 * (m * 2 ^ k))) : AtMost (x * lit (1/2)) (m * 2 ^ k) := by
  rw [mul_fin h.1 lithalf_fin]
  refine rnd_atMost hm hlt ?_
  rw [lithalf_val, abs_mul, abs_of_pos (show (0:ℚ) < 1/2 by norm_num)]
  have := h.2
  push_cast at this ⊢
  linarith

/-- What the halves of the small numbers round to at most. -/
def halfCap : ℕ → ℕ
  | 0 => 0 | 1 => 0 | 2 => 1 | 3 => 2 | 4 => 2 | 5 => 2 | 6 => 3 | 7 => 4 | _ => 4

theorem small_mag {x : F32} {N : ℕ} (h : AtMost x N) (hN : N ≤ 8) : x.mag ≤ N := by
  have h2 := h.2
  rw [abs_val, magVal] at h2
  unfold unit at h2
  rw [div_mul_cancel₀ _ (by positivity)] at h2
  have h3 : magInt x.mag ≤ N := by exact_mod_cast h2
  have h4 : magInt N = N := by unfold magInt; rw [if_pos (by omega)]
  rw [← h4, magInt_le] at h3
  exact h3

theorem half_small_table : ∀ n < 9, ∀ s : Bool, (pack s n * lit (1/2) : F32).isFin = true ∧
    (pack s n * lit (1/2) : F32).mag ≤ halfCap n := by decide +kernel

theorem halfCap_mono {a b : ℕ} (h : a ≤ b) (hb : b ≤ 8) : halfCap a ≤ halfCap b := by
  have : ∀ b < 9, ∀ a ≤ b, halfCap a ≤ halfCap b := by decide
  exact this b (by omega) a h

theorem half_small {x : F32} {N : ℕ} (hN : N ≤ 8) (h : AtMost x N) : AtMost (x * lit (1/2)) (halfCap N) := by
  have hm := small_mag h hN
  have hx : x = pack x.neg x.mag := by
    apply ext_neg_mag
    · simp
    · rw [mag_pack_of_lt (by omega)]
  obtain ⟨t1, t2⟩ := half_small_table x.mag (by omega) x.neg
  rw [← hx] at t1 t2
  refine ⟨t1, ?_⟩
  have hc : halfCap x.mag ≤ halfCap N := halfCap_mono hm hN
  have hlt : (x * lit (1/2)).mag < 2 ^ 23 := by
    have : ∀ n < 9, halfCap n ≤ 4 := by decide
    have := this x.mag (by omega)
    omega
  rw [abs_val, magVal]
  unfold unit
  rw [div_mul_cancel₀ _ (by positivity)]
  have : magInt (x * lit (1/2)).mag = (x * lit (1/2)).mag := by unfold magInt; rw [if_pos hlt]
  rw [this]
  exact_mod_cast t2.trans hc

theorem silent_add {z x : F32} (hz : z.isFin = true) (hz0 : z.val = 0) {N : ℕ} (h : AtMost x N) : AtMost (z + x) N := by
  rw [AtMost, add_fin hz h.1, hz0, zero_add]
  have hn := isFin.not_nan h.1
  refine ⟨rnd_fin h.1 le_rfl, ?_⟩
  rw [rnd_val_self hn]; exact h.2

theorem sum_atMost {x y : F32} {A B m k : ℕ} (hx : AtMost x A) (hy : AtMost y B) (hm : m ≤ 2 ^ 24)
    (hlt : m * 2 ^ k < 2 ^ 277) (h : A + B ≤ m * 2 ^ k) : AtMost (x + y) (m * 2 ^ k) := by
  rw [add_fin hx.1 hy.1]
  refine rnd_atMost hm hlt ?_
  have h1 := abs_add_le x.val y.val
  have h2 : ((A + B : ℕ) : ℚ) ≤ ((m * 2 ^ k : ℕ) : ℚ) := by exact_mod_cast h
  have h3 := hx.2
  have h4 := hy.2
  rw [Nat.cast_add] at h2
  have h5 : |x.val + y.val| * 2 ^ 149 ≤ (|x.val| + |y.val|) * 2 ^ 149 := by
    exact mul_le_mul_of_nonneg_right h1 (by positivity)
  linarith

/-- Every finite float. -/
theorem fin_atMost {x : F32} (h : x.isFin = true) : AtMost x (2 ^ 277) := by
  refine ⟨h, ?_⟩
  have := abs_val_lt_inf h
  rw [magVal_infMag] at this
  have e : ((2 ^ 277 : ℕ) : ℚ) = 2 ^ 128 * 2 ^ 149 := by norm_num
  rw [e]
  exact mul_le_mul_of_nonneg_right this.le (by positivity)

/-- C124: fed with silence, an all-pass is exactly silent after 278 rounds of its buffer, whatever finite samples the buffer
held. -/
theorem C124_all_pass_silent {c : Cfg} {mem : Mem F32} {q : List F32} {k : AllPass} (h : Holds c mem k.delayLine q)
    (hq : ∀ x ∈ q, x.isFin = true) {inp : ℕ → F32} (hin : ∀ n, (inp n).isFin = true ∧ (inp n).val = 0) {n : ℕ}
    (hn : 278 * q.length ≤ n) : ∃ y, AllPass.outAt c mem k inp n = .ok y ∧ y.isFin = true ∧ y.val = 0 := by
  obtain ⟨w, hw0, hw, hout⟩ := C24_all_pass h inp
  have hpos : 0 < q.length := List.length_pos_iff.2 h.ne_nil
  have hfin : ∀ n, (w n).isFin = true := by
    refine stride_induction hpos (fun n hn => by rw [hw0 n hn]; exact hq _ (List.getElem_mem _)) (fun n ih => ?_)
    rw [hw n]
    have h2 : AtMost (w n) (2 * ((2 ^ 24 - 1) * 2 ^ 252)) := by
      refine ⟨ih, ?_⟩
      have := fin_le_max ih
      have e : ((2 * ((2 ^ 24 - 1) * 2 ^ 252) : ℕ) : ℚ) = ((2 ^ 24 - 1) * 2 ^ 104) * 2 ^ 149 := by norm_num
      rw [e]
      exact mul_le_mul_of_nonneg_right this (by positivity)
    exact (silent_add (hin n).1 (hin n).2 (half_atMost (m := 2 ^ 24 - 1) (k := 252) (by norm_num) (by norm_num) h2)).1
  have hstep : ∀ j ≤ 277, ∀ n, AtMost (w (n + j * q.length)) (2 ^ (277 - j)) := by
    intro j
    induction j with
    | zero => intro _ n; simpa using fin_atMost (hfin n)
    | succ j ih =>
      intro hj n
      have h1 := ih (by omega) n
      rw [show n + (j + 1) * q.length = n + j * q.length + q.length by ring, hw]
      refine silent_add (hin _).1 (hin _).2 ?_
      have := half_atMost (x := w (n + j * q.length)) (m := 1) (k := 277 - (j + 1)) (by norm_num)
        (by rw [one_mul]; exact Nat.pow_lt_pow_right (by norm_num) (by omega))
        (h1.mono (by rw [one_mul, ← pow_succ', show 277 - (j + 1) + 1 = 277 - j by omega]))
      rwa [one_mul] at this
  have hzero : ∀ n, AtMost (w (n + 278 * q.length)) 0 := by
    intro n
    have h1 := hstep 277 le_rfl n
    rw [show n + 278 * q.length = n + 277 * q.length + q.length by ring, hw]
    exact silent_add (hin _).1 (hin _).2 (half_small (N := 1) (by norm_num) (by simpa using h1))
  obtain ⟨r, rfl⟩ : ∃ r, n = r + 278 * q.length := ⟨n - 278 * q.length, by omega⟩
  refine ⟨_, hout _, ?_⟩
  have hz : (-inp (r + 278 * q.length)).isFin = true := by simpa using (hin (r + 278 * q.length)).1
  have hz0 : (-inp (r + 278 * q.length)).val = 0 := by rw [val_neg', (hin _).2, neg_zero]
  have := silent_add hz hz0 (hzero r)
  refine ⟨this.1, ?_⟩
  have h2 := this.2
  rw [Nat.cast_zero] at h2
  have h3 := abs_nonneg (-inp (r + 278 * q.length) + w (r + 278 * q.length)).val
  have : |(-inp (r + 278 * q.length) + w (r + 278 * q.length)).val| = 0 := by
    by_contra hne
    have : 0 < |(-inp (r + 278 * q.length) + w (r + 278 * q.length)).val| := lt_of_le_of_ne h3 (Ne.symm hne)
    have := mul_pos this (show (0:ℚ) < 2 ^ 149 by positivity)
    linarith
  exact abs_eq_zero.1 this

/-- C123, full claim: a fresh comb whose input falls silent falls silent. -/
def C123_full : Prop :=
  ∀ (c : Cfg) (mem : Mem F32) (s : MemorySlice) (L : ℕ), Views c mem s (List.replicate L (lit 0)) → 0 < L →
    ∀ inp : ℕ → F32, (∀ n, (inp n).isFin = true ∧ |(inp n).val| ≤ 1) → (∃ T, ∀ n ≥ T, inp n = lit 0) →
      ∃ N, ∀ n ≥ N, Comb.outAt c mem (Comb.new s) inp n = .ok (lit 0)

/-- What really happens at the bottom: cells of 2 units and a filter state of 3 units keep each other alive. -/
theorem C123_actual {c : Cfg} {mem : Mem F32} {L : ℕ} {k : Comb F32}
    (h : Holds c mem k.delayLine (List.replicate L (pack false 2)))
    (hk : k.feedback = lit (1/2) ∧ k.dampening = lit (1/2) ∧ k.dampeningInverse = lit (1/2))
    (hf3 : k.filterState = pack false 3) (n : ℕ) : Comb.outAt c mem k (fun _ => lit 0) n = .ok (pack false 2) := by
  obtain ⟨w, f, hw0, hf0, hf, hw, hout⟩ := C20_comb h (fun _ => lit 0)
  rw [hk.2.1, hk.2.2] at hf
  rw [hk.1] at hw
  rw [List.length_replicate] at hw
  have key : ∀ n, f n = pack false 3 ∧ ∀ m < n + L, w m = pack false 2 := by
    intro n
    induction n with
    | zero => exact ⟨hf0.trans hf3, fun m hm => by rw [hw0 m (by simpa using hm)]; simp⟩
    | succ n ih =>
      have hL : 0 < L := by
        have := List.length_pos_iff.2 h.ne_nil; simpa using this
      have hfn : f (n + 1) = pack false 3 := by
        rw [hf, ih.1, ih.2 n (by omega)]; decide +kernel
      refine ⟨hfn, fun m hm => ?_⟩
      by_cases hm2 : m < n + L
      · exact ih.2 m hm2
      · rw [show m = n + L by omega, hw, hfn]; decide +kernel
  rw [hout, (key (n + 1)).2 n (by
    have := List.length_pos_iff.2 h.ne_nil
    rw [List.length_replicate] at this; omega)]

/-- Cell and filter state of a comb with a buffer of one sample after one more tick. -/
def loneStep (x : F32) (p : F32 × F32) : F32 × F32 :=
  (x + (p.1 * lit (1/2) + p.2 * lit (1/2)) * lit (1/2), p.1 * lit (1/2) + p.2 * lit (1/2))

/-- Magnitudes of cell and filter state after every twenty ticks of silence, from an impulse of 1.0 down. -/
def loneTail : List (ℕ × ℕ) :=
  [(1065353216, 0), (982158696, 990547304), (912324166, 920712774), (842441094, 850829702), (773080044, 781468652),
   (703642505, 712031113), (633564952, 641953560), (564046016, 572434624), (494980584, 503369192),
   (424747632, 433136240), (355059740, 363448348), (285857146, 294245754), (215993248, 224381856),
   (146124563, 154513171), (76775191, 85163799), (7847418, 15694835), (24886, 49773), (80, 159), (2, 3)]

def loneAt (i : ℕ) : F32 × F32 := (pack false (loneTail.getD i (0, 0)).1, pack false (loneTail.getD i (0, 0)).2)

theorem loneAt_step : ∀ i < 18, (loneStep (lit 0))^[20] (loneAt i) = loneAt (i + 1) := by decide +kernel

theorem loneAt_iterate : ∀ i ≤ 18, (loneStep (lit 0))^[20 * i] (loneAt 0) = loneAt i := by
  intro i
  induction i with
  | zero => intro _; rfl
  | succ i ih =>
    intro hi
    rw [show 20 * (i + 1) = 20 + 20 * i by ring, Function.iterate_add_apply, ih (by omega), loneAt_step i (by omega)]

theorem lone_end (n : ℕ) : (loneStep (lit 0))^[n] (loneAt 18) = loneAt 18 := by
  refine Function.iterate_fixed ?_ n
  decide +kernel

def loneMem : Mem F32 := fun b => if b = 0 then some [lit 0] else none

theorem lone_views : Views Cfg.debug64 loneMem (MemorySlice.fromSlice 0 0 1) (List.replicate 1 (lit 0)) :=
  ⟨0, [], [], rfl, rfl, rfl, by decide⟩

-- C124: a buffer holding the largest float and a negative denormal falls silent
example : ∃ (mem : Mem F32) (k : AllPass) (q : List F32), Holds Cfg.debug64 mem k.delayLine q ∧ (∀ x ∈ q, x.isFin = true) ∧
    q = [pack false 0x7f7fffff, pack true 1] ∧
    ∀ n, ∃ y, AllPass.outAt Cfg.debug64 mem k (fun _ => lit 0) (n + 556) = .ok y ∧ y.val = 0 := by
  have hh : Holds Cfg.debug64 (fun b => if b = 0 then some [pack false 0x7f7fffff, pack true 1] else none)
      (AllPass.new (MemorySlice.fromSlice 0 0 2)).delayLine [pack false 0x7f7fffff, pack true 1] :=
    holds_new ⟨0, [], [], rfl, rfl, rfl, by decide⟩ (by simp)
  have hq : ∀ x ∈ [pack false 0x7f7fffff, pack true 1], F32.isFin x = true := by decide +kernel
  refine ⟨_, _, _, hh, hq, rfl, fun n => ?_⟩
  obtain ⟨y, h1, -, h2⟩ := C124_all_pass_silent hh hq (inp := fun _ => lit 0) (fun _ => ⟨lit0_fin, lit0_val⟩)
    (n := n + 556) (by simp)
  exact ⟨y, h1, h2⟩

/-- C123, refuted: one impulse of 1.0 into a fresh comb with a buffer of one sample rings for ever at `2^-148`. -/
theorem C123_refuted : ¬ C123_full := by
  intro hfull
  obtain ⟨N, hN⟩ := hfull Cfg.debug64 loneMem (MemorySlice.fromSlice 0 0 1) 1 lone_views (by norm_num)
    (fun n => if n = 0 then lit 1 else lit 0)
    (fun n => by
      by_cases h : n = 0
      · simp only [h, if_true]; exact ⟨lit1_fin, by rw [lit1_val]; norm_num⟩
      · simp only [h, if_false]; exact ⟨lit0_fin, by rw [lit0_val]; norm_num⟩)
    ⟨1, fun n hn => by rw [if_neg (by omega)]⟩
  obtain ⟨w, f, hw0, hf0, hf, hw, hout⟩ := C20_comb (k := Comb.new (MemorySlice.fromSlice 0 0 1))
    (holds_new lone_views (by simp)) (fun n => if n = 0 then lit 1 else lit 0)
  have hf' : ∀ n, f (n + 1) = w n * lit (1/2) + f n * lit (1/2) := hf
  have hw' : ∀ n, w (n + 1) = (if n = 0 then lit 1 else lit 0) + f (n + 1) * lit (1/2) := hw
  have hf0' : f 0 = lit 0 := hf0
  have hw0' : w 0 = lit 0 := hw0 0 (by norm_num)
  have h1 : (w 1, f 1) = loneAt 0 := by
    rw [hw' 0, hf' 0, hf0', hw0']; decide +kernel
  have hrun : ∀ n, (w (n + 1), f (n + 1)) = (loneStep (lit 0))^[n] (loneAt 0) := by
    intro n
    induction n with
    | zero => exact h1
    | succ n ih =>
      rw [Function.iterate_succ_apply', ← ih]
      unfold loneStep
      rw [hw' (n + 1), if_neg (by omega), hf' (n + 1)]
  have hstay : ∀ n, w (n + 361) = pack false 2 := by
    intro n
    have := hrun (n + 360)
    rw [Function.iterate_add_apply, show 360 = 20 * 18 by norm_num, loneAt_iterate 18 le_rfl, lone_end] at this
    exact congrArg Prod.fst this
  have h2 := hN (N + 361) (by omega)
  rw [hout, hstay N] at h2
  exact absurd (Except.ok.inj h2) (by decide +kernel)

/-- The half of anything up to `X` units comes to at most `Y` units. -/
def Halves (X Y : ℕ) : Prop := ∀ x : F32, AtMost x X → AtMost (x * lit (1/2)) Y

theorem halves_pow {X Y m k : ℕ} (hm : m ≤ 2 ^ 24) (hlt : m * 2 ^ k < 2 ^ 277) (hX : X ≤ 2 * (m * 2 ^ k)) (hY : m * 2 ^ k ≤ Y) :
    Halves X Y := fun _ h => (half_atMost hm hlt (h.mono hX)).mono hY

theorem halves_small {X : ℕ} (hX : X ≤ 8) : Halves X (halfCap X) := fun _ h => half_small hX h

section tail
variable {w f inp : ℕ → F32} {L : ℕ}

/-- The buffer at time `n` holds at most `W` units per cell, the filter state at most `F`. -/
def Dim (w f : ℕ → F32) (L n W F : ℕ) : Prop := (∀ i < L, AtMost (w (n + i)) W) ∧ AtMost (f n) F

/-- One round of the buffer. -/
theorem dim_round (hL : 0 < L) (hin : ∀ n, (inp n).isFin = true ∧ (inp n).val = 0)
    (hf : ∀ n, f (n + 1) = w n * lit (1/2) + f n * lit (1/2)) (hw : ∀ n, w (n + L) = inp n + f (n + 1) * lit (1/2))
    {n W F A B W' m k : ℕ} (hA : Halves W A) (hB : Halves F B) (hm : m ≤ 2 ^ 24) (hlt : m * 2 ^ k < 2 ^ 277)
    (hR : A + B ≤ m * 2 ^ k) (hRF : m * 2 ^ k ≤ F) (hR' : Halves (m * 2 ^ k) W') (h : Dim w f L n W F) :
    Dim w f L (n + L) W' (m * 2 ^ k) := by
  have key : ∀ i ≤ L, AtMost (f (n + i)) F ∧ (0 < i → AtMost (f (n + i)) (m * 2 ^ k)) ∧
      ∀ j < i, AtMost (w (n + L + j)) W' := by
    intro i
    induction i with
    | zero => intro _; exact ⟨h.2, by simp, by simp⟩
    | succ i ih =>
      intro hi
      obtain ⟨i1, -, i3⟩ := ih (by omega)
      have hs : AtMost (f (n + (i + 1))) (m * 2 ^ k) := by
        rw [← add_assoc, hf]
        exact sum_atMost (hA _ (h.1 i (by omega))) (hB _ i1) hm hlt hR
      refine ⟨hs.mono hRF, fun _ => hs, fun j hj => ?_⟩
      by_cases hji : j < i
      · exact i3 j hji
      · rw [show n + L + j = n + i + L by omega, hw]
        exact silent_add (hin _).1 (hin _).2 (hR' _ hs)
  obtain ⟨-, k2, k3⟩ := key L le_rfl
  exact ⟨k3, k2 hL⟩

/-- Four rounds halve everything, down to 8 units. -/
theorem dim_halve (hL : 0 < L) (hin : ∀ n, (inp n).isFin = true ∧ (inp n).val = 0)
    (hf : ∀ n, f (n + 1) = w n * lit (1/2) + f n * lit (1/2)) (hw : ∀ n, w (n + L) = inp n + f (n + 1) * lit (1/2))
    {n i : ℕ} (hi : i ≤ 272) (h : Dim w f L n (16 * 2 ^ i) (16 * 2 ^ i)) :
    Dim w f L (n + 4 * L) (8 * 2 ^ i) (8 * 2 ^ i) := by
  have hp : 0 < 2 ^ i := by positivity
  have hb : ∀ m ≤ 16, m * 2 ^ i < 2 ^ 277 := by
    intro m hm
    calc m * 2 ^ i ≤ 16 * 2 ^ 272 := Nat.mul_le_mul hm (Nat.pow_le_pow_right (by norm_num) hi)
      _ < 2 ^ 277 := by norm_num
  have H : ∀ X m Y, m ≤ 16 → X ≤ 2 * (m * 2 ^ i) → m * 2 ^ i ≤ Y → Halves X Y := fun X m Y h16 h1 h2 =>
    halves_pow (m := m) (k := i) (by omega) (hb m h16) h1 h2
  have s1 := dim_round (A := 8 * 2 ^ i) (B := 8 * 2 ^ i) (m := 16) (k := i) (W' := 8 * 2 ^ i) hL hin hf hw
    (H _ 8 _ (by norm_num) (by omega) le_rfl) (H _ 8 _ (by norm_num) (by omega) le_rfl) (by norm_num) (hb 16 le_rfl) (by omega)
    le_rfl (H _ 8 _ (by norm_num) (by omega) le_rfl) h
  have s2 := dim_round (A := 4 * 2 ^ i) (B := 8 * 2 ^ i) (m := 12) (k := i) (W' := 6 * 2 ^ i) hL hin hf hw
    (H _ 4 _ (by norm_num) (by omega) le_rfl) (H _ 8 _ (by norm_num) (by omega) le_rfl) (by norm_num) (hb 12 (by norm_num))
    (by omega) (by omega) (H _ 6 _ (by norm_num) (by omega) le_rfl) s1
  have s3 := dim_round (A := 3 * 2 ^ i) (B := 6 * 2 ^ i) (m := 10) (k := i) (W' := 5 * 2 ^ i) hL hin hf hw
    (H _ 3 _ (by norm_num) (by omega) le_rfl) (H _ 6 _ (by norm_num) (by omega) le_rfl) (by norm_num) (hb 10 (by norm_num))
    (by omega) (by omega) (H _ 5 _ (by norm_num) (by omega) le_rfl) s2
  have s4 := dim_round (A := 3 * 2 ^ i) (B := 5 * 2 ^ i) (m := 8) (k := i) (W' := 4 * 2 ^ i) hL hin hf hw
    (H _ 3 _ (by norm_num) (by omega) le_rfl) (H _ 5 _ (by norm_num) (by omega) le_rfl) (by norm_num) (hb 8 (by norm_num))
    (by omega) (by omega) (H _ 4 _ (by norm_num) (by omega) le_rfl) s3
  rw [show n + 4 * L = n + L + L + L + L by ring]
  exact ⟨fun j hj => (s4.1 j hj).mono (by omega), s4.2⟩

/-- From 8 units to the floor of 2 and 3. -/
theorem dim_floor (hL : 0 < L) (hin : ∀ n, (inp n).isFin = true ∧ (inp n).val = 0)
    (hf : ∀ n, f (n + 1) = w n * lit (1/2) + f n * lit (1/2)) (hw : ∀ n, w (n + L) = inp n + f (n + 1) * lit (1/2))
    {n : ℕ} (h : Dim w f L n 8 8) : Dim w f L (n + 4 * L) 2 3 := by
  have S : ∀ {n W F : ℕ} (m W' : ℕ), W ≤ 8 → F ≤ 8 → m ≤ F → halfCap W + halfCap F ≤ m → halfCap m = W' →
      Dim w f L n W F → Dim w f L (n + L) W' m := by
    intro n W F m W' hW hF hmF hs hm h
    have := dim_round (m := m) (k := 0) hL hin hf hw (halves_small hW) (halves_small hF) (by omega)
      (by rw [pow_zero, mul_one]; calc m ≤ 8 := by omega
            _ < 2 ^ 277 := by norm_num) (by simpa using hs) (by simpa using hmF) (W' := W')
      (by rw [pow_zero, mul_one, ← hm]; exact halves_small (by omega)) h
    simpa using this
  rw [show n + 4 * L = n + L + L + L + L by ring]
  exact S 3 2 (by norm_num) (by norm_num) (by norm_num) (by decide) rfl
    (S 5 2 (by norm_num) (by norm_num) (by norm_num) (by decide) rfl
      (S 6 3 (by norm_num) (by norm_num) (by norm_num) (by decide) rfl
        (S 8 4 (by norm_num) (by norm_num) (by norm_num) (by decide) rfl h)))

end tail

/-- C123, what holds: with the default settings and whatever the comb holds (up to `2^127`), once the input is silent the
output comes down to at most two units of the last place of the smallest floats, `2^-148`, within 1096 rounds of the buffer,
and stays there. -/
theorem C123_partial {c : Cfg} {mem : Mem F32} {q : List F32} {k : Comb F32} (h : Holds c mem k.delayLine q)
    (hk : k.feedback = lit (1/2) ∧ k.dampening = lit (1/2) ∧ k.dampeningInverse = lit (1/2))
    (hq : ∀ x ∈ q, x.isFin = true ∧ |x.val| ≤ 2 ^ 127) (hs : k.filterState.isFin = true ∧ |k.filterState.val| ≤ 2 ^ 127)
    {inp : ℕ → F32} (hin : ∀ n, (inp n).isFin = true ∧ (inp n).val = 0) {n : ℕ} (hn : 1096 * q.length ≤ n) :
    ∃ y, Comb.outAt c mem k inp n = .ok y ∧ y.isFin = true ∧ |y.val| ≤ 1 / 2 ^ 148 := by
  obtain ⟨w, f, hw0, hf0, hf, hw, hout⟩ := C20_comb h inp
  rw [hk.2.1, hk.2.2] at hf
  rw [hk.1] at hw
  have hL : 0 < q.length := List.length_pos_iff.2 h.ne_nil
  have big : ∀ x : F32, x.isFin = true ∧ |x.val| ≤ 2 ^ 127 → AtMost x (16 * 2 ^ 272) := by
    intro x hx
    refine ⟨hx.1, ?_⟩
    have e : ((16 * 2 ^ 272 : ℕ) : ℚ) = 2 ^ 127 * 2 ^ 149 := by norm_num
    rw [e]
    exact mul_le_mul_of_nonneg_right hx.2 (by positivity)
  have hhalf : Halves (16 * 2 ^ 272) (8 * 2 ^ 272) := halves_pow (m := 8) (k := 272) (by norm_num) (by norm_num) (by norm_num)
    le_rfl
  have start : ∀ n, AtMost (f n) (16 * 2 ^ 272) ∧ ∀ m < n + q.length, AtMost (w m) (16 * 2 ^ 272) := by
    intro n
    induction n with
    | zero => exact ⟨by rw [hf0]; exact big _ hs, fun m hm => by rw [hw0 m (by omega)]; exact big _ (hq _ (List.getElem_mem _))⟩
    | succ n ih =>
      have hs : AtMost (f (n + 1)) (16 * 2 ^ 272) := by
        rw [hf]
        exact sum_atMost (hhalf _ (ih.2 n (by omega))) (hhalf _ ih.1) (by norm_num) (by norm_num) (by norm_num)
      refine ⟨hs, fun m hm => ?_⟩
      by_cases hm2 : m < n + q.length
      · exact ih.2 m hm2
      · rw [show m = n + q.length by omega, hw]
        exact (silent_add (hin _).1 (hin _).2 (hhalf _ hs)).mono (by norm_num)
  have down : ∀ j ≤ 273, ∀ n, Dim w f q.length (n + 4 * j * q.length) (8 * 2 ^ (273 - j)) (8 * 2 ^ (273 - j)) := by
    intro j
    induction j with
    | zero =>
      intro _ n
      have e : 8 * 2 ^ (273 - 0) = 16 * 2 ^ 272 := by norm_num
      rw [e]
      exact ⟨fun i hi => (start (n + 4 * 0 * q.length)).2 _ (by omega), (start _).1⟩
    | succ j ih =>
      intro hj n
      have h1 := ih (by omega) n
      have e : 8 * 2 ^ (273 - j) = 16 * 2 ^ (273 - (j + 1)) := by
        rw [show 273 - j = 273 - (j + 1) + 1 by omega, pow_succ]; ring
      rw [e] at h1
      have := dim_halve hL hin hf hw (by omega) h1
      rwa [show n + 4 * (j + 1) * q.length = n + 4 * j * q.length + 4 * q.length by ring]
  obtain ⟨r, rfl⟩ : ∃ r, n = r + 1096 * q.length := ⟨n - 1096 * q.length, by omega⟩
  have h8 := down 273 le_rfl r
  have h2 := (dim_floor hL hin hf hw (by simpa using h8)).1 0 hL
  rw [show r + 4 * 273 * q.length + 4 * q.length + 0 = r + 1096 * q.length by ring] at h2
  refine ⟨_, hout _, h2.1, ?_⟩
  have h3 := h2.2
  rw [le_div_iff₀ (by positivity)]
  have e : |(w (r + 1096 * q.length)).val| * 2 ^ 148 = |(w (r + 1096 * q.length)).val| * 2 ^ 149 / 2 := by ring
  rw [e]
  push_cast at h3
  linarith

-- a comb about to overflow (the largest power of two in the cell and in the filter), then silence
example : ∃ (mem : Mem F32) (k : Comb F32), Holds Cfg.debug64 mem k.delayLine [pack false 0x7f000000] ∧
    ∀ n ≥ 1096, ∃ y, Comb.outAt Cfg.debug64 mem k (fun _ => lit 0) n = .ok y ∧ |y.val| ≤ 1 / 2 ^ 148 := by
  have hh : Holds Cfg.debug64 (fun b => if b = 0 then some [pack false 0x7f000000] else none)
      (Comb.new (α := F32) (MemorySlice.fromSlice 0 0 1)).delayLine [pack false 0x7f000000] :=
    holds_new ⟨0, [], [], rfl, rfl, rfl, by decide⟩ (by simp)
  refine ⟨_, { Comb.new (MemorySlice.fromSlice 0 0 1) with filterState := pack false 0x7f000000 }, hh, fun n hn => ?_⟩
  have hb : (pack false 0x7f000000).isFin = true ∧ |(pack false 0x7f000000).val| ≤ 2 ^ 127 := by decide +kernel
  obtain ⟨y, h1, -, h2⟩ := C123_partial (k := { Comb.new (MemorySlice.fromSlice 0 0 1) with
    filterState := pack false 0x7f000000 }) hh ⟨rfl, rfl, rfl⟩ (by simpa using hb) hb (inp := fun _ => lit 0)
    (fun _ => ⟨lit0_fin, lit0_val⟩) (n := n) (by simpa using hn)
  exact ⟨y, h1, h2⟩

/-! ## C125: float comb and all-pass next to the exact ones -/

/-- One step of the filter state, next to exact arithmetic. -/
theorem comb_filter_near {x g d : F32} {x' g' : ℚ} {e : ℕ} (he : e ≤ 98) (hx : x.isFin = true) (hxb : |x.val| ≤ 2 ^ e)
    (hg : g.isFin = true) (hgb : |g.val| ≤ 2 ^ e) (hd : d.isFin = true) (h0 : 0 ≤ d.val) (h1 : d.val ≤ 1) {E W : ℚ}
    (hW : |x.val - x'| ≤ W) (hE : |g.val - g'| ≤ E) :
    |(x * (lit 1 - d) + g * d).val - (x' * (1 - d.val) + g' * d.val)| ≤
      (1 - d.val) * W + d.val * E + (2 ^ e * (9 / 2) / 2 ^ 24 + 3 / 2 ^ 150) := by
  have hp : (0:ℚ) < 2 ^ e := by positivity
  have h100 : (2:ℚ) ^ e * 2 ≤ 2 ^ 100 := by
    have : (2:ℚ) ^ e ≤ 2 ^ 98 := pow_le_pow_right₀ (by norm_num) he
    linarith [show (2:ℚ) ^ 98 * 2 ≤ 2 ^ 100 by norm_num]
  obtain ⟨i1, i2, i3⟩ := one_sub_damp hd h0 h1
  have iM : |(lit 1 - d).val| ≤ 1 := by
    rw [sub_fin lit1_fin hd, lit1_val]
    exact rnd_pow_bound (k := 0) (by norm_num) (by rw [abs_le]; constructor <;> norm_num <;> linarith)|>.2.trans (by norm_num)
  have a1 : |x.val * (lit 1 - d).val| ≤ 2 ^ e := by
    rw [abs_mul]
    calc _ ≤ 2 ^ e * 1 := mul_le_mul hxb iM (abs_nonneg _) hp.le
      _ = _ := mul_one _
  have a2 : |g.val * d.val| ≤ 2 ^ e := by
    rw [abs_mul, abs_of_nonneg h0]
    calc _ ≤ 2 ^ e * 1 := mul_le_mul hgb h1 h0 hp.le
      _ = _ := mul_one _
  obtain ⟨p1, -⟩ := share_pow2 (k := e) (by omega) hx hxb i1 iM
  obtain ⟨-, p2⟩ := mul_near hx i1 a1 (by linarith)
  obtain ⟨r1, r2⟩ := mul_near hg hd a2 (by linarith)
  have b1 : |(x * (lit 1 - d)).val| ≤ 2 ^ e := (share_pow2 (k := e) (by omega) hx hxb i1 iM).2.trans (by nlinarith)
  have b2 : |(g * d).val| ≤ 2 ^ e := (share_pow2 (k := e) (by omega) hg hgb hd (by rwa [abs_of_nonneg h0])).2.trans
    (by rw [abs_of_nonneg h0]; nlinarith)
  obtain ⟨-, s2⟩ := add_near p1 r1 (B := 2 ^ e * 2) ((abs_add_le _ _).trans (by linarith)) h100
  have t1 : |x.val * ((lit 1 - d).val - (1 - d.val))| ≤ 2 ^ e * (1 / 2 ^ 25) := by
    rw [abs_mul]; exact mul_le_mul hxb i3 (abs_nonneg _) hp.le
  have t2 : |(x.val - x') * (1 - d.val)| ≤ (1 - d.val) * W := by
    rw [abs_mul, abs_of_nonneg (show 0 ≤ 1 - d.val by linarith), mul_comm]
    exact mul_le_mul_of_nonneg_left hW (by linarith)
  have t3 : |(g.val - g') * d.val| ≤ d.val * E := by
    rw [abs_mul, abs_of_nonneg h0, mul_comm]
    exact mul_le_mul_of_nonneg_left hE h0
  rw [abs_le] at p2 r2 s2 t1 t2 t3 ⊢
  constructor <;> linarith [p2.1, p2.2, r2.1, r2.2, s2.1, s2.2, t1.1, t1.2, t2.1, t2.2, t3.1, t3.2]

/-- One stored sample, next to exact arithmetic. -/
theorem comb_cell_near {x g b : F32} {g' : ℚ} {e : ℕ} (he : e ≤ 98) (hx : x.isFin = true) (hxb : |x.val| ≤ 2 ^ e)
    (hg : g.isFin = true) (hgb : |g.val| ≤ 2 ^ e) (hb : b.isFin = true) (hb1 : |b.val| ≤ 1) {E : ℚ} (hE : |g.val - g'| ≤ E) :
    |(x + g * b).val - (x.val + g' * b.val)| ≤ |b.val| * E + (2 ^ e * 3 / 2 ^ 24 + 2 / 2 ^ 150) := by
  have hp : (0:ℚ) < 2 ^ e := by positivity
  have h100 : (2:ℚ) ^ e * 2 ≤ 2 ^ 100 := by
    have : (2:ℚ) ^ e ≤ 2 ^ 98 := pow_le_pow_right₀ (by norm_num) he
    linarith [show (2:ℚ) ^ 98 * 2 ≤ 2 ^ 100 by norm_num]
  obtain ⟨p1, p2⟩ := share_pow2 (k := e) (by omega) hg hgb hb hb1
  have b1 : |(g * b).val| ≤ 2 ^ e := p2.trans (by nlinarith)
  have a1 : |g.val * b.val| ≤ 2 ^ e := by
    rw [abs_mul]
    calc _ ≤ 2 ^ e * 1 := mul_le_mul hgb hb1 (abs_nonneg _) hp.le
      _ = _ := mul_one _
  obtain ⟨-, r2⟩ := mul_near hg hb a1 (by linarith)
  obtain ⟨-, s2⟩ := add_near hx p1 (B := 2 ^ e * 2) ((abs_add_le _ _).trans (by linarith)) h100
  have t3 : |(g.val - g') * b.val| ≤ |b.val| * E := by
    rw [abs_mul, mul_comm]; exact mul_le_mul_of_nonneg_left hE (abs_nonneg _)
  rw [abs_le] at r2 s2 t3 ⊢
  constructor <;> linarith [r2.1, r2.2, s2.1, s2.2, t3.1, t3.2]

theorem comb_seq_near {q : List F32} (hne : q ≠ []) {w f : ℕ → F32} {w' f' : ℕ → ℚ} {fb damp inp : ℕ → F32}
    (hw0 : ∀ n (hn : n < q.length), w n = q[n]) (hf : ∀ n, f (n + 1) = w n * (lit 1 - damp n) + f n * damp n)
    (hw : ∀ n, w (n + q.length) = inp n + f (n + 1) * fb n)
    (hw0' : ∀ n (hn : n < q.length), w' n = q[n].val) (hf0' : f' 0 = (f 0).val)
    (hf' : ∀ n, f' (n + 1) = w' n * (1 - (damp n).val) + f' n * (damp n).val)
    (hw' : ∀ n, w' (n + q.length) = (inp n).val + f' (n + 1) * (fb n).val)
    {e : ℕ} (he : e ≤ 98) (hq : ∀ x ∈ q, x.isFin = true ∧ |x.val| ≤ 2 ^ e)
    (hs : (f 0).isFin = true ∧ |(f 0).val| ≤ 2 ^ e) {D F : ℚ} (hD : D < 1) (hF : F < 1)
    (hd : ∀ n, (damp n).isFin = true ∧ 0 ≤ (damp n).val ∧ (damp n).val ≤ D)
    (hfb : ∀ n, (fb n).isFin = true ∧ |(fb n).val| ≤ F) (hin : ∀ n, (inp n).isFin = true)
    (hroom : ∀ n, |(inp n).val| + 2 ^ e * |(fb n).val| ≤ 2 ^ e) (n : ℕ) :
    (w n).isFin = true ∧ |(w n).val - w' n| ≤ 2 ^ e / 2 ^ 21 / ((1 - D) * (1 - F)) := by
  have hd1 : ∀ n, (damp n).val ≤ 1 := fun n => by linarith [(hd n).2.2]
  have bd := comb_seq_bounded hne (e := e) (by omega) hw0 hf hw hq hs
    (fun n => ⟨(hd n).1, (hd n).2.1, hd1 n⟩) (fun n => (hfb n).1) hin hroom
  have hpos : 0 < q.length := List.length_pos_iff.2 hne
  have hp : (1:ℚ) ≤ 2 ^ e := one_le_pow₀ (by norm_num)
  have h1D : 0 < 1 - D := by linarith
  have h1F : 0 < 1 - F := by linarith
  have hF0 : 0 ≤ F := (abs_nonneg _).trans (hfb 0).2
  set E := 2 ^ e / 2 ^ 21 / ((1 - D) * (1 - F)) with hE
  have hEg : E * (1 - F) * (1 - D) = 2 ^ e / 2 ^ 21 := by rw [hE]; field_simp
  have hE0 : 0 ≤ E := by positivity
  have hEF0 : 0 ≤ E * (1 - F) := by positivity
  have hEW : 2 ^ e / 2 ^ 21 ≤ E * (1 - F) := by
    have hD0 : 0 ≤ D := (hd 0).2.1.trans (hd 0).2.2
    nlinarith
  have hinb : ∀ n, |(inp n).val| ≤ 2 ^ e := fun n => by
    have := hroom n
    have h0 : 0 ≤ 2 ^ e * |(fb n).val| := by positivity
    linarith
  have tiny : (3:ℚ) / 2 ^ 150 + 2 / 2 ^ 150 ≤ 2 ^ e * (1 / 2) / 2 ^ 24 := by
    have : (3:ℚ) / 2 ^ 150 + 2 / 2 ^ 150 ≤ 1 / 2 / 2 ^ 24 := by norm_num
    have h3 : (1:ℚ) / 2 / 2 ^ 24 ≤ 2 ^ e * (1 / 2) / 2 ^ 24 := by
      apply div_le_div_of_nonneg_right _ (by positivity); linarith
    linarith
  set r := (2:ℚ) ^ e * 3 / 2 ^ 24 + 2 / 2 ^ 150 with hr
  have hr0 : 0 ≤ r := by positivity
  have hrr : r + (2 ^ e * (9 / 2) / 2 ^ 24 + 3 / 2 ^ 150) ≤ 2 ^ e / 2 ^ 21 := by rw [hr]; linarith
  -- the filter state is within `E`, the cells within what the feedback leaves of it
  have key : ∀ n, |(f n).val - f' n| ≤ E ∧ ∀ m < n + q.length, |(w m).val - w' m| ≤ F * E + r := by
    intro n
    induction n with
    | zero =>
      refine ⟨by rw [hf0', sub_self, abs_zero]; exact hE0, fun m hm => ?_⟩
      rw [hw0 m (by omega), hw0' m (by omega), sub_self, abs_zero]; positivity
    | succ n ih =>
      obtain ⟨⟨f1, f2⟩, ⟨w1, w2⟩, b1⟩ := bd n
      obtain ⟨⟨f3, f4⟩, -, -⟩ := bd (n + 1)
      have hfn : |(f (n + 1)).val - f' (n + 1)| ≤ E := by
        have := comb_filter_near he w1 w2 f1 f2 (hd n).1 (hd n).2.1 (hd1 n) (ih.2 n (by omega)) ih.1
        rw [← hf n] at this
        rw [← hf' n] at this
        refine this.trans ?_
        have h1 : (1 - D) * (E * (1 - F)) ≤ (1 - (damp n).val) * (E * (1 - F)) :=
          mul_le_mul_of_nonneg_right (by linarith [(hd n).2.2]) hEF0
        have h2 : (1 - (damp n).val) * r ≤ 1 * r := mul_le_mul_of_nonneg_right (by linarith [(hd n).2.1]) hr0
        nlinarith
      refine ⟨hfn, fun m hm => ?_⟩
      by_cases hm2 : m < n + q.length
      · exact ih.2 m hm2
      · rw [show m = n + q.length by omega, hw, hw']
        refine (comb_cell_near he (hin n) (hinb n) f3 f4 (hfb n).1 b1 hfn).trans ?_
        have := mul_le_mul_of_nonneg_right (hfb n).2 hE0
        linarith
  obtain ⟨-, ⟨w1, -⟩, -⟩ := bd n
  refine ⟨w1, ((key n).2 n (by omega)).trans ?_⟩
  have : r ≤ E * (1 - F) := le_trans (by linarith [show (0:ℚ) ≤ 2 ^ e * (9 / 2) / 2 ^ 24 + 3 / 2 ^ 150 by positivity]) hEW
  linarith

/-- C125, comb: a float comb, with its settings changed before every tick, next to the comb of exact rational arithmetic with
the same settings, the same input and the same initial contents. If the dampening stays within `D < 1`, the feedback within
`F < 1`, and everything has room within `2^e` (as in C122), the outputs never differ by more than
`2^e / 2^21 / ((1 - D) * (1 - F))`: the roundings of arbitrarily many ticks do not add up. -/
theorem C125_comb {c c' : Cfg} {mem : Mem F32} {mem' : Mem ℚ} {q : List F32} {k : Comb F32} {k' : Comb ℚ}
    (h : Holds c mem k.delayLine q) (h' : Holds c' mem' k'.delayLine (q.map val)) (hk : k'.filterState = k.filterState.val)
    {fb damp inp : ℕ → F32} {e : ℕ} (he : e ≤ 98) (hq : ∀ x ∈ q, x.isFin = true ∧ |x.val| ≤ 2 ^ e)
    (hs : k.filterState.isFin = true ∧ |k.filterState.val| ≤ 2 ^ e) {D F : ℚ} (hD : D < 1) (hF : F < 1)
    (hd : ∀ n, (damp n).isFin = true ∧ 0 ≤ (damp n).val ∧ (damp n).val ≤ D)
    (hfb : ∀ n, (fb n).isFin = true ∧ |(fb n).val| ≤ F) (hin : ∀ n, (inp n).isFin = true)
    (hroom : ∀ n, |(inp n).val| + 2 ^ e * |(fb n).val| ≤ 2 ^ e) (n : ℕ) :
    ∃ (y : F32) (y' : ℚ), Comb.outUnder c mem k fb damp inp n = .ok y ∧
      Comb.outUnder c' mem' k' (fun n => (fb n).val) (fun n => (damp n).val) (fun n => (inp n).val) n = .ok y' ∧
      y.isFin = true ∧ |y.val - y'| ≤ 2 ^ e / 2 ^ 21 / ((1 - D) * (1 - F)) := by
  obtain ⟨w, f, hw0, hf0, hf, hw, hout⟩ := C99_modulated h fb damp inp
  obtain ⟨w', f', hw0', hf0', hf', hw', hout'⟩ := C99_modulated h' (fun n => (fb n).val) (fun n => (damp n).val)
    (fun n => (inp n).val)
  rw [List.length_map] at hw'
  obtain ⟨h1, h2⟩ := comb_seq_near h.ne_nil hw0 hf hw (fun n hn => by rw [hw0' n (by simpa using hn), List.getElem_map]) (by rw [hf0', hk, hf0])
    (fun n => by rw [hf' n, lit_exact, Rat.cast_one]) hw' he hq (by rw [hf0]; exact hs) hD hF hd hfb hin hroom n
  exact ⟨_, _, hout n, hout' n, h1, h2⟩

/-- C125, all-pass: a float all-pass next to the exact one, on samples up to `2^e` and a buffer up to `2^(e+1)`. -/
theorem C125_all_pass {c c' : Cfg} {mem : Mem F32} {mem' : Mem ℚ} {q : List F32} {k k' : AllPass}
    (h : Holds c mem k.delayLine q) (h' : Holds c' mem' k'.delayLine (q.map val))
    {inp : ℕ → F32} {e : ℕ} (he : e ≤ 98) (hq : ∀ x ∈ q, x.isFin = true ∧ |x.val| ≤ 2 ^ (e + 1))
    (hin : ∀ n, (inp n).isFin = true ∧ |(inp n).val| ≤ 2 ^ e) (n : ℕ) :
    ∃ (y : F32) (y' : ℚ), AllPass.outAt c mem k inp n = .ok y ∧
      AllPass.outAt c' mem' k' (fun n => (inp n).val) n = .ok y' ∧
      y.isFin = true ∧ |y.val - y'| ≤ 2 ^ e / 2 ^ 20 := by
  obtain ⟨w, hw0, hw, hout⟩ := C24_all_pass h inp
  obtain ⟨w', hw0', hw', hout'⟩ := C24_all_pass h' (fun n => (inp n).val)
  rw [List.length_map] at hw'
  have hpos : 0 < q.length := List.length_pos_iff.2 h.ne_nil
  have hp : (1:ℚ) ≤ 2 ^ e := one_le_pow₀ (by norm_num)
  have h100 : (2:ℚ) ^ e * 3 ≤ 2 ^ 100 := by
    have : (2:ℚ) ^ e ≤ 2 ^ 98 := pow_le_pow_right₀ (by norm_num) he
    linarith [show (2:ℚ) ^ 98 * 3 ≤ 2 ^ 100 by norm_num]
  have e2 : (2:ℚ) ^ (e + 1) = 2 ^ e * 2 := pow_succ _ _
  have tiny : (3:ℚ) / 2 ^ 150 ≤ 2 ^ e / 2 ^ 24 := by
    have : (3:ℚ) / 2 ^ 150 ≤ 1 / 2 ^ 24 := by norm_num
    have h3 : (1:ℚ) / 2 ^ 24 ≤ 2 ^ e / 2 ^ 24 := div_le_div_of_nonneg_right hp (by positivity)
    linarith
  have key : ∀ n, ((w n).isFin = true ∧ |(w n).val| ≤ 2 ^ (e + 1)) ∧ |(w n).val - w' n| ≤ 2 ^ e * 8 / 2 ^ 24 := by
    refine stride_induction hpos (fun n hn => ?_) (fun n ih => ?_)
    · rw [hw0 n hn, hw0' n (by simpa using hn), List.getElem_map, sub_self, abs_zero]
      exact ⟨hq _ (List.getElem_mem _), by positivity⟩
    · obtain ⟨⟨i1, i2⟩, i3⟩ := ih
      have hl : |(lit (1/2) : F32).val| ≤ 1 := by rw [lithalf_val]; norm_num
      obtain ⟨p1, p2⟩ := share_pow2 (by omega) i1 i2 lithalf_fin hl
      rw [lithalf_val, abs_of_pos (show (0:ℚ) < 1/2 by norm_num), e2] at p2
      obtain ⟨-, r2⟩ := mul_near i1 lithalf_fin (B := 2 ^ e)
        (by rw [lithalf_val, abs_mul, abs_of_pos (show (0:ℚ) < 1/2 by norm_num)]; linarith) (by linarith)
      have hsum : |(inp n).val + (w n * lit (1/2)).val| ≤ 2 ^ (e + 1) := (abs_add_le _ _).trans (by linarith [(hin n).2])
      obtain ⟨s1, s2⟩ := add_near (hin n).1 p1 hsum (by linarith)
      rw [hw, hw']
      refine ⟨?_, ?_⟩
      · rw [add_fin (hin n).1 p1]; exact rnd_pow_bound (by omega) hsum
      · have e1 : (lit (1/2) : ℚ) = 1/2 := by rw [lit_exact]; norm_num
        rw [e1]
        rw [lithalf_val] at r2
        rw [e2] at s2
        rw [abs_le] at r2 s2 i3 ⊢
        constructor <;> linarith [r2.1, r2.2, s2.1, s2.2, i3.1, i3.2]
  obtain ⟨⟨i1, i2⟩, i3⟩ := key n
  have hneg : (-inp n).isFin = true := by simpa using (hin n).1
  obtain ⟨s1, s2⟩ := add_near hneg i1 (B := 2 ^ e * 3) ((abs_add_le _ _).trans (by
    rw [val_neg', abs_neg]; linarith [(hin n).2])) h100
  refine ⟨_, _, hout n, hout' n, s1, ?_⟩
  rw [val_neg'] at s2
  rw [abs_le] at s2 i3 ⊢
  constructor <;> linarith [s2.1, s2.2, i3.1, i3.2]

-- samples up to 1, feedback 9/10, dampening up to 1/2: within 16, and 16 / 2^21 / (1/2 * 9/100) < 1/5000 from the exact comb
example (inp damp : ℕ → F32) (hin : ∀ n, (inp n).isFin = true ∧ |(inp n).val| ≤ 1)
    (hd : ∀ n, (damp n).isFin = true ∧ 0 ≤ (damp n).val ∧ (damp n).val ≤ 1/2) (n : ℕ) :
    ∃ (y : F32) (y' : ℚ), Comb.outUnder Cfg.release32 quietMem (Comb.new quietSlice) (fun _ => lit (9/10)) damp inp n = .ok y ∧
      Comb.outUnder Cfg.release32 (fun b => if b = 0 then some [0, 0] else none) (Comb.new (MemorySlice.fromSlice 0 0 2))
        (fun _ => (lit (9/10) : F32).val) (fun n => (damp n).val) (fun n => (inp n).val) n = .ok y' ∧
      y.isFin = true ∧ |y.val - y'| ≤ 1 / 2500 := by
  have hv : Views Cfg.release32 (fun b => if b = 0 then some [0, 0] else none) (MemorySlice.fromSlice 0 0 2) [(0:ℚ), 0] :=
    ⟨0, [], [], rfl, rfl, rfl, by decide⟩
  have hfb : (lit (9/10) : F32).isFin = true ∧ |(lit (9/10) : F32).val| ≤ 91/100 := by decide +kernel
  obtain ⟨y, y', h1, h2, h3, h4⟩ := C125_comb (holds_new quiet_views (by simp)) (k' := Comb.new (MemorySlice.fromSlice 0 0 2))
    (c' := Cfg.release32) (mem' := fun b => if b = 0 then some [0, 0] else none)
    (by
      have := holds_new hv (by simp)
      simpa [lit0_val, Comb.new] using this)
    (k := Comb.new quietSlice) (by show (lit 0 : ℚ) = (lit 0 : F32).val; rw [lit0_val, lit_exact, Rat.cast_zero])
    (e := 4) (by norm_num)
    (fun x hx => by rw [List.eq_of_mem_replicate hx, lit0_val]; exact ⟨lit0_fin, by norm_num⟩)
    ⟨lit0_fin, by show |(lit 0 : F32).val| ≤ _; rw [lit0_val]; norm_num⟩ (D := 1/2) (F := 91/100) (by norm_num) (by norm_num) hd
    (fun _ => hfb) (fun n => (hin n).1) (fun n => by linarith [(hin n).2, hfb.2]) n
  exact ⟨y, y', h1, h2, h3, h4.trans (by norm_num)⟩

end Verif
