import Verif.Model.Math
import Verif.F32.Extra
import Verif.Lemmas.Lerp
import Verif.Lemmas.Slice

/-! # C62, C63: the band-limited rectangle looked up in its table -/

namespace Verif
open F32 FMath

theorem blRect_length : blRectTable.length = 5075 := by
  unfold blRectTable; rw [List.length_map]; decide +kernel

theorem blRect_decimals : blRectDecimals.all (fun n => decide (n ≤ 10 ^ 9)) = true := by decide +kernel

theorem blRect_entry {v : F32} (h : v ∈ blRectTable) : v.isFin = true ∧ 0 ≤ v.val ∧ v.val ≤ 1 := by
  unfold blRectTable at h
  obtain ⟨n, hn, rfl⟩ := List.mem_map.1 h
  have := List.all_eq_true.1 blRect_decimals n hn
  have hle : n ≤ 10 ^ 9 := by simpa using this
  have hq : (n : ℚ) / 10 ^ blRectDigits ≤ 1 := by
    rw [div_le_one (by positivity)]
    have : (n : ℚ) ≤ (10 ^ 9 : ℕ) := by exact_mod_cast hle
    unfold blRectDigits; push_cast at this; exact this
  have h0 : 0 ≤ (n : ℚ) / 10 ^ blRectDigits := by positivity
  unfold F32.ofRat
  refine ⟨rnd_fin lit1_fin (by rw [abs_of_nonneg h0, lit1_val, abs_one]; exact hq), rnd_val_nonneg h0, ?_⟩
  have := rnd_le (s := false) (y := lit 1) (isFin.not_nan lit1_fin) (q := (n : ℚ) / 10 ^ blRectDigits) (by rw [lit1_val]; exact hq)
  rwa [lit1_val] at this

/-- The slice over the table. -/
def blRectSlice : MemorySlice := MemorySlice.fromSlice 0 0 blRectTable.length

theorem blRect_load_in {i : Nat} (h : i < blRectTable.length) :
    blRectSlice.getUnchecked blRectMem i = .ok blRectTable[i] := by
  unfold blRectSlice MemorySlice.fromSlice MemorySlice.getUnchecked load blRectMem
  simp only [if_true, Nat.zero_add, List.getElem?_eq_getElem h]

theorem blRect_load_out {i : Nat} (h : blRectTable.length ≤ i) :
    blRectSlice.getUnchecked blRectMem i = .error .ub := by
  unfold blRectSlice MemorySlice.fromSlice MemorySlice.getUnchecked load blRectMem
  simp only [if_true, Nat.zero_add, List.getElem?_eq_none h]

/-- Blending two samples of `[0, 1]` at the fractional part of a position. -/
theorem lerp_frac {a b g : F32} {c : Cfg} {i : Nat} (ha : a.isFin = true) (hb : b.isFin = true) (a0 : 0 ≤ a.val)
    (a1 : a.val ≤ 1) (b0 : 0 ≤ b.val) (b1 : b.val ≤ 1) (hg : g.isFin = true) (hi : i ≤ 2 ^ 24) (h0 : (i : ℚ) ≤ g.val)
    (h1 : g.val ≤ i + 1) :
    (Interpolation.lerpUnchecked a b (g - c.u2f i)).isFin = true ∧
      0 ≤ (Interpolation.lerpUnchecked a b (g - c.u2f i)).val ∧
      (Interpolation.lerpUnchecked a b (g - c.u2f i)).val ≤ 1 := by
  have uf := c.u2f_fin (n := i) hi
  have uv := c.u2f_val (n := i) hi
  have et : g - c.u2f i = rnd (g.neg && !(c.u2f i).neg) (g.val - i) := by rw [sub_fin hg uf, uv]
  have d0 : 0 ≤ g.val - i := by linarith
  have dle : |g.val - i| ≤ |(lit 1 : F32).val| := by rw [lit1_val, abs_one, abs_of_nonneg d0]; linarith
  obtain ⟨t, htd⟩ : ∃ t, t = g - c.u2f i := ⟨_, rfl⟩
  rw [← htd] at et ⊢
  have tf : t.isFin = true := by rw [et]; exact rnd_fin lit1_fin dle
  have t0 : 0 ≤ t.val := by rw [et]; exact rnd_val_nonneg d0
  have t1 : t.val ≤ 1 := by
    have := rnd_abs_le (s := g.neg && !(c.u2f i).neg) dle
    rw [lit1_val, abs_one, ← et] at this
    exact (le_abs_self _).trans this
  have es : (lit 1 - t : F32) = rnd ((lit 1 : F32).neg && !t.neg) (1 - t.val) := by rw [sub_fin lit1_fin tf, lit1_val]
  have sle : |1 - t.val| ≤ 1 := by rw [abs_of_nonneg (by linarith)]; linarith
  have sf : (lit 1 - t : F32).isFin = true := by
    rw [es]; exact rnd_fin lit1_fin (by rw [lit1_val, abs_one]; exact sle)
  have s0 : 0 ≤ (lit 1 - t : F32).val := by rw [es]; exact rnd_val_nonneg (by linarith)
  have serr := rnd_error_unit (s := (lit 1 : F32).neg && !t.neg) sle
  rw [← es] at serr
  obtain ⟨f1, f2, rf, rb⟩ := blend_pow2 (k := 0) (by norm_num) ha hb (by rw [abs_of_nonneg a0]; simpa using a1)
    (by rw [abs_of_nonneg b0]; simpa using b1) sf tf s0 t0 (by linarith [(abs_le.1 serr).2])
  unfold Interpolation.lerpUnchecked
  refine ⟨rf, ?_, by simpa using (le_abs_self _).trans rb⟩
  rw [add_fin f1 f2]
  refine rnd_val_nonneg (add_nonneg ?_ ?_)
  · rw [mul_fin ha sf]; exact rnd_val_nonneg (mul_nonneg a0 s0)
  · rw [mul_fin hb tf]; exact rnd_val_nonneg (mul_nonneg b0 t0)

/-- What `lookup_bl_rect` reads for the folded position `f`. -/
def blRectRead (c : Cfg) (f : F32) : M F32 := blRectSlice.lerpUnchecked c blRectMem (f * c.u2f 5074)

theorem w_big (c : Cfg) : (2:Nat) ^ 16 ≤ 2 ^ c.w := Nat.pow_le_pow_right (by norm_num) c.w_ge

/-- Below 1 the read stays in the table. -/
theorem blRectRead_in (c : Cfg) {f : F32} (hf : f.isFin = true) (h0 : 0 ≤ f.val) (h1 : f.val < 1) :
    ∃ r, blRectRead c f = .ok r ∧ r.isFin = true ∧ 0 ≤ r.val ∧ r.val ≤ 1 := by
  have uf := c.u2f_fin (n := 5074) (by norm_num)
  have uv := c.u2f_val (n := 5074) (by norm_num)
  obtain ⟨s, eg⟩ : ∃ s, f * c.u2f 5074 = rnd s (f.val * 5074) := ⟨_, by rw [mul_fin hf uf, uv]; norm_num; rfl⟩
  have hf24 : f.val ≤ 1 - 1 / 2 ^ 24 := by
    rcases le_or_gt f.val (1 / 2) with h | h
    · exact h.trans (by norm_num)
    · obtain ⟨n, hn⟩ := grid_of_ge hf (j := -24) (by norm_num) (by
        rw [abs_of_nonneg h0]; exact le_trans (by norm_num) h.le)
      have hz : (2:ℚ) ^ (-24 : Int) = 1 / 2 ^ 24 := by norm_num
      rw [hz] at hn
      have : (n : ℚ) < 2 ^ 24 := by rw [hn] at h1; linarith
      have : n < 2 ^ 24 := by exact_mod_cast this
      have : n ≤ 2 ^ 24 - 1 := by omega
      have : (n : ℚ) ≤ ((2 ^ 24 - 1 : Int) : ℚ) := by exact_mod_cast this
      push_cast at this
      rw [hn]; linarith
  obtain ⟨y, yf, yv⟩ : Rep (5074 - 1 / 2 ^ 11) :=
    rep_of_zpow (m := 10391551) (e := -11) (by norm_num) (by norm_num) (by norm_num) (by rw [abs_of_pos] <;> norm_num)
  obtain ⟨g, hg⟩ : ∃ g, g = f * c.u2f 5074 := ⟨_, rfl⟩
  have q0 : 0 ≤ f.val * 5074 := by positivity
  have gfin : g.isFin = true := by
    rw [hg, eg]
    exact rnd_fin uf (by rw [uv, abs_of_nonneg q0]; norm_num; linarith)
  have g0 : 0 ≤ g.val := by rw [hg, eg]; exact rnd_val_nonneg q0
  have g1 : g.val < 5074 := by
    rcases le_or_gt (f.val * 5074) (5074 - 1 / 2 ^ 11) with h | h
    · have := rnd_le (s := s) (isFin.not_nan yf) (q := f.val * 5074) (by rw [yv]; exact h)
      rw [← eg, ← hg, yv] at this
      exact lt_of_le_of_lt this (by norm_num)
    · have hn := rnd_nearest (s := s) (q := f.val * 5074) (y := y) (by rw [← eg, ← hg]; exact gfin)
      rw [← eg, ← hg, yv, abs_of_neg (show 5074 - 1 / 2 ^ 11 - f.val * 5074 < 0 by linarith)] at hn
      have := (abs_le.1 hn).2
      norm_num at *; linarith
  have hfl0 : 0 ≤ ⌊g.val⌋ := Int.floor_nonneg.2 g0
  have hfl1 : ⌊g.val⌋ < 5074 := Int.floor_lt.2 (by push_cast; exact g1)
  have hmax : (2:Nat) ^ 16 - 1 ≤ c.usizeMax := by unfold Cfg.usizeMax; have := w_big c; omega
  obtain ⟨i, hi⟩ : ∃ i, i = c.f2u g := ⟨_, rfl⟩
  have hii : (i : Int) = ⌊g.val⌋ := by rw [hi, c.f2u_nonneg (isFin.not_nan gfin) g0]; omega
  have hilt : i < 5074 := by omega
  have hir : (i : ℚ) = ⌊g.val⌋ := by rw [← hii]; simp
  have hl := blRect_length
  unfold blRectRead MemorySlice.lerpUnchecked
  rw [← hg, ← hi, blRect_load_in (show i < blRectTable.length by omega), c.uadd_eq (by have := w_big c; omega)]
  simp only [bind, Except.bind, blRect_load_in (show i + 1 < blRectTable.length by omega), pure, Except.pure]
  obtain ⟨af, a0, a1⟩ := blRect_entry (List.getElem_mem (show i < blRectTable.length by omega))
  obtain ⟨bf, b0, b1⟩ := blRect_entry (List.getElem_mem (show i + 1 < blRectTable.length by omega))
  exact ⟨_, rfl, lerp_frac af bf a0 a1 b0 b1 gfin (by omega) (by rw [hir]; exact Int.floor_le _)
    (by rw [hir]; exact (Int.lt_floor_add_one _).le)⟩

/-- At exactly 1 it reads one entry past the end. -/
theorem blRectRead_out (c : Cfg) {f : F32} (h1 : f.val = 1) : blRectRead c f = .error .ub := by
  have hf : f = lit 1 := eq_of_val_eq (by rw [h1, lit1_val]) (by rw [h1]; norm_num)
  have uf := c.u2f_fin (n := 5074) (by norm_num)
  have uv := c.u2f_val (n := 5074) (by norm_num)
  obtain ⟨gf, gv⟩ := mul_exact (lit1_fin) uf (by rw [lit1_val, one_mul]; exact rep_val uf)
  rw [lit1_val, one_mul, uv] at gv
  have hmax : (2:Nat) ^ 16 - 1 ≤ c.usizeMax := by unfold Cfg.usizeMax; have := w_big c; omega
  have hi := c.f2u_nat (isFin.not_nan gf) gv (by omega)
  have hl := blRect_length
  unfold blRectRead MemorySlice.lerpUnchecked
  rw [hf, hi, blRect_load_in (show 5074 < blRectTable.length by omega), c.uadd_eq (by have := w_big c; omega)]
  simp only [bind, Except.bind, blRect_load_out (show blRectTable.length ≤ 5074 + 1 by omega)]

theorem le_lit {x : F32} {q : ℚ} {y : F32} (hx : x.isNaN = false) (hy : y.isNaN = false) (hv : y.val = q) :
    F32.le x y = decide (x.val ≤ q) := by
  rw [Bool.eq_iff_iff, le_iff, decide_eq_true_eq, hv]; simp [hx, hy]
theorem lt_lit {x : F32} {q : ℚ} {y : F32} (hx : x.isNaN = false) (hy : y.isNaN = false) (hv : y.val = q) :
    F32.lt x y = decide (x.val < q) := by
  rw [Bool.eq_iff_iff, lt_iff, decide_eq_true_eq, hv]; simp [hx, hy]

theorem lit14_val : (lit (1/4) : F32).val = 1/4 := by decide +kernel
theorem lit14_fin : (lit (1/4) : F32).isFin = true := by decide +kernel
theorem lit34_val : (lit (3/4) : F32).val = 3/4 := by decide +kernel
theorem lit34_fin : (lit (3/4) : F32).isFin = true := by decide +kernel
theorem lit4_val : (lit 4 : F32).val = 4 := by decide +kernel
theorem lit4_fin : (lit 4 : F32).isFin = true := by decide +kernel

/-- The function in terms of the folded position, with every comparison on exact values. -/
theorem lookup_unfold (c : Cfg) {x : F32} (hx : x.isNaN = false) : lookupBlRect c x =
    if x.val ≤ 0 then .ok (lit 0)
    else if x.val ≤ 1/4 then blRectRead c (x * lit 4)
    else if x.val ≤ 1/2 then blRectRead c ((lit (1/4) - (x - lit (1/4))) * lit 4)
    else if x.val ≤ 3/4 then (do return lit (-1) * (← blRectRead c ((x - lit (1/2)) * lit 4)))
    else if x.val < 1 then (do return lit (-1) * (← blRectRead c ((lit (1/4) - (x - lit (3/4))) * lit 4)))
    else .ok (lit 0) := by
  have hsub : c.usub blRectTable.length 1 = .ok 5074 := by rw [c.usub_eq (by rw [blRect_length]; norm_num), blRect_length]
  unfold lookupBlRect
  simp only [le_lit hx (isFin.not_nan lit0_fin) lit0_val, le_lit hx (isFin.not_nan lit14_fin) lit14_val,
    le_lit hx (isFin.not_nan lithalf_fin) lithalf_val, le_lit hx (isFin.not_nan lit34_fin) lit34_val,
    lt_lit hx (isFin.not_nan lit1_fin) lit1_val, decide_eq_true_eq]
  have hlen : (MemorySlice.fromSlice 0 0 blRectTable.length).len = blRectTable.length := rfl
  rw [hlen, hsub]
  have hs : MemorySlice.fromSlice 0 0 blRectTable.length = blRectSlice := rfl
  rw [hs]
  simp only [bind, Except.bind, pure, Except.pure, ← blRectRead.eq_1]

theorem lookup_nan (c : Cfg) {x : F32} (hx : x.isNaN = true) : lookupBlRect c x = .ok (lit 0) := by
  have hsub : c.usub blRectTable.length 1 = .ok 5074 := by rw [c.usub_eq (by rw [blRect_length]; norm_num), blRect_length]
  have hl : ∀ y, F32.le x y = false := fun y => le_nan_left hx y
  have hl2 : ∀ y, F32.lt x y = false := fun y => lt_nan_left hx y
  unfold lookupBlRect
  have hlen : (MemorySlice.fromSlice 0 0 blRectTable.length).len = blRectTable.length := rfl
  simp only [hlen, hsub, hl, hl2, bind, Except.bind, pure, Except.pure, Bool.false_eq_true, if_false]

/-- The folded positions are exact. -/
theorem fold_exact {x : F32} (h0 : 0 < x.val) (h1 : x.val < 1) :
    (x.val ≤ 1/4 → (x * lit 4).isFin = true ∧ (x * lit 4).val = 4 * x.val) ∧
    (1/4 < x.val → x.val ≤ 1/2 → ((lit (1/4) - (x - lit (1/4))) * lit 4).isFin = true ∧
      ((lit (1/4) - (x - lit (1/4))) * lit 4).val = 2 - 4 * x.val) ∧
    (1/2 < x.val → x.val ≤ 3/4 → ((x - lit (1/2)) * lit 4).isFin = true ∧ ((x - lit (1/2)) * lit 4).val = 4 * x.val - 2) ∧
    (3/4 < x.val → ((lit (1/4) - (x - lit (3/4))) * lit 4).isFin = true ∧
      ((lit (1/4) - (x - lit (3/4))) * lit 4).val = 4 - 4 * x.val) := by
  have hf : x.isFin = true := isFin_of_abs_le (y := lit 1) (by rw [lit1_val, abs_one, abs_of_pos h0]; exact h1.le) lit1_fin
  have mul4 : ∀ z : F32, z.isFin = true → |z.val| ≤ 1 → (z * lit 4).isFin = true ∧ (z * lit 4).val = 4 * z.val := by
    intro z zf zb
    have := mul_exact zf lit4_fin (by
      have := rep_scale zf 2 (by
        rw [abs_mul]; norm_num; linarith)
      rw [lit4_val]; norm_num at this; exact this)
    rw [lit4_val, mul_comm z.val] at this
    exact this
  have grid : ∀ k : Nat, k ≤ 2 → 1 / 2 ^ k ≤ x.val → ∃ n : Int, x.val = n / 2 ^ (23 + k) ∧ 0 ≤ n ∧ n ≤ 2 ^ (23 + k) := by
    intro k hk hge
    obtain ⟨n, hn⟩ := grid_of_ge hf (j := -(23 + k : Int)) (by omega) (by
      rw [abs_of_pos h0, show (23 : Int) + -(23 + (k : Int)) = -(k : Int) by ring, zpow_neg, zpow_natCast]
      rw [one_div] at hge; exact hge)
    have hz : (2:ℚ) ^ (-(23 + k : Int)) = 1 / 2 ^ (23 + k) := by
      rw [zpow_neg, one_div]; norm_cast
    rw [hz, mul_one_div] at hn
    have hp : (0:ℚ) < 2 ^ (23 + k) := by positivity
    refine ⟨n, hn, ?_, ?_⟩
    · have : (0:ℚ) < n := by rw [hn] at h0; exact (div_pos_iff_of_pos_right hp).1 h0
      exact_mod_cast this.le
    · have : (n:ℚ) ≤ 2 ^ (23 + k) := by rw [hn, div_lt_one hp] at h1; exact h1.le
      exact_mod_cast this
  have rep : ∀ (k : Nat) (m : Int), k ≤ 2 → |m| ≤ 2 ^ 24 → Rep ((m : ℚ) / 2 ^ (23 + k)) := by
    intro k m hk hm
    refine rep_of_zpow (m := m) (e := -(23 + k : Int)) hm (by omega) ?_ ?_
    · rw [zpow_neg, div_eq_mul_inv]; norm_cast
    · rw [abs_div, abs_of_pos (a := (2:ℚ) ^ (23 + k)) (by positivity)]
      have h1 : |(m:ℚ)| ≤ 2 ^ 24 := by exact_mod_cast hm
      refine lt_of_le_of_lt (div_le_self (abs_nonneg _) (one_le_pow₀ (by norm_num))) (lt_of_le_of_lt h1 (by norm_num))
  refine ⟨fun _ => mul4 x hf (by rw [abs_of_pos h0]; exact h1.le), fun hl hu => ?_, fun hl hu => ?_, fun hl => ?_⟩
  · obtain ⟨n, hn, n0, n1⟩ := grid 2 le_rfl (by norm_num; linarith)
    norm_num at hn n1
    have nle : n ≤ 16777216 := by
      have : (n:ℚ) ≤ 16777216 := by rw [hn] at hu; linarith
      exact_mod_cast this
    have nge : 8388608 ≤ n := by
      have : (8388608:ℚ) ≤ n := by rw [hn] at hl; linarith
      exact_mod_cast this
    obtain ⟨f1, v1⟩ := sub_exact hf lit14_fin (by
      rw [lit14_val, hn]
      have := rep 2 (n - 8388608) le_rfl (by rw [abs_le]; omega)
      norm_num at this
      rwa [show (n:ℚ) / 33554432 - 1 / 4 = (n - 8388608) / 33554432 by ring])
    rw [lit14_val] at v1
    obtain ⟨f2, v2⟩ := sub_exact lit14_fin f1 (by
      rw [lit14_val, v1, hn]
      have := rep 2 (16777216 - n) le_rfl (by rw [abs_le]; omega)
      norm_num at this
      rwa [show (1:ℚ) / 4 - ((n:ℚ) / 33554432 - 1 / 4) = (16777216 - n) / 33554432 by ring])
    rw [lit14_val, v1] at v2
    obtain ⟨f3, v3⟩ := mul4 _ f2 (by rw [v2, abs_le]; constructor <;> linarith)
    exact ⟨f3, by rw [v3, v2]; ring⟩
  · obtain ⟨n, hn, n0, n1⟩ := grid 1 (by norm_num) (by norm_num; linarith)
    norm_num at hn n1
    obtain ⟨f1, v1⟩ := sub_exact hf lithalf_fin (by
      rw [lithalf_val, hn]
      have := rep 1 (n - 8388608) (by norm_num) (by rw [abs_le]; omega)
      norm_num at this
      rwa [show (n:ℚ) / 16777216 - 1 / 2 = (n - 8388608) / 16777216 by ring])
    rw [lithalf_val] at v1
    obtain ⟨f3, v3⟩ := mul4 _ f1 (by rw [v1, abs_le]; constructor <;> linarith)
    exact ⟨f3, by rw [v3, v1]; ring⟩
  · obtain ⟨n, hn, n0, n1⟩ := grid 1 (by norm_num) (by norm_num; linarith)
    norm_num at hn n1
    obtain ⟨f1, v1⟩ := sub_exact hf lit34_fin (by
      rw [lit34_val, hn]
      have := rep 1 (n - 12582912) (by norm_num) (by rw [abs_le]; omega)
      norm_num at this
      rwa [show (n:ℚ) / 16777216 - 3 / 4 = (n - 12582912) / 16777216 by ring])
    rw [lit34_val] at v1
    obtain ⟨f2, v2⟩ := sub_exact lit14_fin f1 (by
      rw [lit14_val, v1, hn]
      have := rep 1 (16777216 - n) (by norm_num) (by rw [abs_le]; omega)
      norm_num at this
      rwa [show (1:ℚ) / 4 - ((n:ℚ) / 16777216 - 3 / 4) = (16777216 - n) / 16777216 by ring])
    rw [lit14_val, v1] at v2
    obtain ⟨f3, v3⟩ := mul4 _ f2 (by rw [v2, abs_le]; constructor <;> linarith)
    exact ⟨f3, by rw [v3, v2]; ring⟩

theorem minus_one_mul {r : F32} (hf : r.isFin = true) : (lit (-1) * r : F32).isFin = true ∧ (lit (-1) * r : F32).val = - r.val := by
  have := mul_exact litm1_fin hf (by rw [litm1_val, neg_one_mul]; exact (rep_val hf).neg)
  rw [litm1_val, neg_one_mul] at this
  exact this

/-! ## Specification: one quarter of the wave is stored -/

/-- Position in the stored quarter for a phase of `(0, 1)`: up, down, up, down. -/
def quarterFold (v : ℚ) : ℚ :=
  if v ≤ 1/4 then 4 * v else if v ≤ 1/2 then 2 - 4 * v else if v ≤ 3/4 then 4 * v - 2 else 4 - 4 * v

theorem quarterFold_bounds {v : ℚ} (h0 : 0 < v) (h1 : v < 1) :
    0 ≤ quarterFold v ∧ quarterFold v ≤ 1 ∧ (quarterFold v = 1 ↔ v = 1/4 ∨ v = 3/4) := by
  unfold quarterFold
  split_ifs with a b c
  · refine ⟨by linarith, by linarith, fun h => Or.inl (by linarith), fun h => ?_⟩
    rcases h with h | h <;> linarith
  · refine ⟨by linarith, by linarith, fun h => by linarith, fun h => ?_⟩
    rcases h with h | h <;> linarith
  · refine ⟨by linarith, by linarith, fun h => Or.inr (by linarith), fun h => ?_⟩
    rcases h with h | h <;> linarith
  · refine ⟨by linarith, by linarith, fun h => by linarith, fun h => ?_⟩
    rcases h with h | h <;> linarith

/-- Inside `(0, 1)` the function reads at the exact folded position and negates in the second half. -/
theorem lookup_inside (c : Cfg) {x : F32} (h0 : 0 < x.val) (h1 : x.val < 1) :
    ∃ f : F32, f.isFin = true ∧ f.val = quarterFold x.val ∧
      lookupBlRect c x = if x.val ≤ 1/2 then blRectRead c f else (do return lit (-1) * (← blRectRead c f)) := by
  have hf : x.isFin = true := isFin_of_abs_le (y := lit 1) (by rw [lit1_val, abs_one, abs_of_pos h0]; exact h1.le) lit1_fin
  obtain ⟨e1, e2, e3, e4⟩ := fold_exact h0 h1
  rw [lookup_unfold c (isFin.not_nan hf), if_neg (not_le.2 h0)]
  unfold quarterFold
  rcases le_or_gt x.val (1/4) with a | a
  · simp only [if_pos a, if_pos (show x.val ≤ 1/2 by linarith)]
    exact ⟨_, (e1 a).1, (e1 a).2, rfl⟩
  rcases le_or_gt x.val (1/2) with b | b
  · simp only [if_neg (not_le.2 a), if_pos b]
    exact ⟨_, (e2 a b).1, (e2 a b).2, rfl⟩
  rcases le_or_gt x.val (3/4) with d | d
  · simp only [if_neg (not_le.2 a), if_neg (not_le.2 b), if_pos d]
    exact ⟨_, (e3 b d).1, (e3 b d).2, rfl⟩
  · simp only [if_neg (not_le.2 a), if_neg (not_le.2 b), if_neg (not_le.2 d), if_pos h1]
    exact ⟨_, (e4 d).1, (e4 d).2, rfl⟩

/-! ## C62 -/

/-- C62 in full: no argument makes the function read outside the table. -/
def LookupInTable : Prop := ∀ (c : Cfg) (x : F32), lookupBlRect c x ≠ .error .ub

/-- C63, outside the period: `x <= 0`, `x >= 1` and NaN give zero. -/
theorem C63_outside (c : Cfg) {x : F32} (h : x.isNaN = true ∨ x.val ≤ 0 ∨ 1 ≤ x.val) :
    lookupBlRect c x = .ok (lit 0) := by
  cases hx : x.isNaN with
  | true => exact lookup_nan c hx
  | false =>
    rw [hx] at h
    rw [lookup_unfold c hx]
    rcases h with h | h | h
    · exact absurd h (by simp)
    · rw [if_pos h]
    · rw [if_neg (by linarith), if_neg (by linarith), if_neg (by linarith), if_neg (by linarith), if_neg (by linarith)]

/-- C63, inside the period away from the two bad arguments: non-negative in the first half, non-positive in the second,
never beyond 1. -/
theorem C63_range (c : Cfg) {x : F32} (h0 : 0 < x.val) (h1 : x.val < 1) (hne : x.val ≠ 1/4) (hne' : x.val ≠ 3/4) :
    ∃ r, lookupBlRect c x = .ok r ∧ r.isFin = true ∧ (x.val ≤ 1/2 → 0 ≤ r.val ∧ r.val ≤ 1) ∧
      (1/2 < x.val → -1 ≤ r.val ∧ r.val ≤ 0) := by
  obtain ⟨b0, b1, b2⟩ := quarterFold_bounds h0 h1
  obtain ⟨f, ff, fv, he⟩ := lookup_inside c h0 h1
  have hlt : f.val < 1 := by
    rw [fv]; refine lt_of_le_of_ne b1 fun h => ?_
    exact (b2.1 h).elim hne hne'
  obtain ⟨r, hr, rf, r0, r1⟩ := blRectRead_in c ff (by rw [fv]; exact b0) hlt
  rw [he, hr]
  split_ifs with h
  · exact ⟨r, rfl, rf, fun _ => ⟨r0, r1⟩, fun h' => by linarith⟩
  · obtain ⟨mf, mv⟩ := minus_one_mul rf
    refine ⟨_, rfl, mf, fun h' => absurd h' h, fun _ => ?_⟩
    rw [mv]; constructor <;> linarith

/-- C63, the symmetry of the wave: the second quarter mirrors the first and the second half negates the first, bit for
bit, whenever the mirrored or shifted argument is a float. -/
theorem C63_symmetry (c : Cfg) {x y : F32} (h0 : 0 < x.val) (h1 : x.val < 1/2) :
    (y.val = 1/2 - x.val → lookupBlRect c y = lookupBlRect c x) ∧
    (y.val = x.val + 1/2 → lookupBlRect c y = (do return lit (-1) * (← lookupBlRect c x))) := by
  obtain ⟨f, ff, fv, he⟩ := lookup_inside c h0 (by linarith)
  rw [if_pos h1.le] at he
  have hpos : 0 < quarterFold x.val := by unfold quarterFold; split_ifs <;> linarith
  constructor
  · intro hy
    obtain ⟨g, gf, gv, hg⟩ := lookup_inside c (x := y) (by linarith) (by linarith)
    rw [if_pos (by linarith)] at hg
    have : quarterFold y.val = quarterFold x.val := by unfold quarterFold; rw [hy]; split_ifs <;> linarith
    rw [he, hg, show g = f from eq_of_val_eq (by rw [gv, fv, this]) (by rw [gv, this]; exact hpos.ne')]
  · intro hy
    obtain ⟨g, gf, gv, hg⟩ := lookup_inside c (x := y) (by linarith) (by linarith)
    rw [if_neg (by linarith)] at hg
    have : quarterFold y.val = quarterFold x.val := by unfold quarterFold; rw [hy]; split_ifs <;> linarith
    rw [he, hg, show g = f from eq_of_val_eq (by rw [gv, fv, this]) (by rw [gv, this]; exact hpos.ne')]

/-- C62: what the code does. The read leaves the table at exactly two arguments, 0.25 and 0.75, in every build; every
other argument returns. -/
theorem C62_in_table_partial (c : Cfg) (x : F32) :
    (lookupBlRect c x = .error .ub ↔ x.isNaN = false ∧ (x.val = 1/4 ∨ x.val = 3/4)) ∧
      (¬ (x.isNaN = false ∧ (x.val = 1/4 ∨ x.val = 3/4)) → ∃ r, lookupBlRect c x = .ok r) := by
  have main : ¬ (x.isNaN = false ∧ (x.val = 1/4 ∨ x.val = 3/4)) → ∃ r, lookupBlRect c x = .ok r := by
    intro h
    by_cases ho : x.isNaN = true ∨ x.val ≤ 0 ∨ 1 ≤ x.val
    · exact ⟨_, C63_outside c ho⟩
    · push Not at ho
      obtain ⟨r, hr, _⟩ := C63_range c ho.2.1 ho.2.2 (fun hc => h ⟨by simpa using ho.1, Or.inl hc⟩)
        (fun hc => h ⟨by simpa using ho.1, Or.inr hc⟩)
      exact ⟨r, hr⟩
  refine ⟨⟨fun h => ?_, fun h => ?_⟩, main⟩
  · by_contra hc
    obtain ⟨r, hr⟩ := main hc
    rw [hr] at h; cases h
  · have h0 : 0 < x.val := by rcases h.2 with h | h <;> rw [h] <;> norm_num
    have h1 : x.val < 1 := by rcases h.2 with h | h <;> rw [h] <;> norm_num
    obtain ⟨f, ff, fv, he⟩ := lookup_inside c h0 h1
    have : f.val = 1 := by rw [fv]; exact (quarterFold_bounds h0 h1).2.2.2 h.2
    rw [he, blRectRead_out c this]
    split_ifs <;> rfl

/-- C62 is false: `lookup_bl_rect(0.25)` reads one entry past the end. -/
theorem C62_in_table_refuted : ¬ LookupInTable := by
  intro h
  exact h Cfg.debug64 (lit (1/4)) ((C62_in_table_partial _ _).1.2 ⟨isFin.not_nan lit14_fin, Or.inl lit14_val⟩)

example : 0 < (lit (1/3) : F32).val ∧ (lit (1/3) : F32).val < 1 ∧ (lit (1/3) : F32).val ≠ 1/4 ∧ (lit (1/3) : F32).val ≠ 3/4 := by
  decide +kernel
example : (lit (3/8) : F32).val = 1/2 - (lit (1/8) : F32).val ∧ (lit (5/8) : F32).val = (lit (1/8) : F32).val + 1/2 := by
  decide +kernel

end Verif
