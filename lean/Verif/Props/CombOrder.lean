import Verif.Props.CombFloat

/-! # C172: a float comb keeps the order of signals -/

namespace Verif
open F32

theorem mul_mono_fin {a b s t : F32} (ha : a.isFin = true) (hb : b.isFin = true) (hs : s.isFin = true) (ht : t.isFin = true)
    (h : a.val * s.val ≤ b.val * t.val) : (a * s).val ≤ (b * t).val := by
  rw [mul_fin ha hs, mul_fin hb ht]; exact rnd_mono h

theorem add_mono_fin {a b s t : F32} (ha : a.isFin = true) (hb : b.isFin = true) (hs : s.isFin = true) (ht : t.isFin = true)
    (h1 : a.val ≤ b.val) (h2 : s.val ≤ t.val) : (a + s).val ≤ (b + t).val := by
  rw [add_fin ha hs, add_fin hb ht]; exact rnd_mono (add_le_add h1 h2)

/-- What one run of a float comb has to satisfy for `C122_bounded`: finite cells, state and samples within `2^e`, and room. -/
structure CombRoom (e : ℕ) (q : List F32) (s : F32) (fb inp : ℕ → F32) : Prop where
  cells : ∀ x ∈ q, x.isFin = true ∧ |x.val| ≤ 2 ^ e
  state : s.isFin = true ∧ |s.val| ≤ 2 ^ e
  gains : ∀ n, (fb n).isFin = true
  samples : ∀ n, (inp n).isFin = true
  room : ∀ n, |(inp n).val| + 2 ^ e * |(fb n).val| ≤ 2 ^ e

/-- Two sequences as in `C99_modulated`, compared: with the same feedback, or (`B`) with a larger one and nothing negative. -/
theorem comb_seq_order {q q' : List F32} (hne : q ≠ []) (hlen : q.length = q'.length)
    {w f w' f' fb fb' damp inp inp' : ℕ → F32} {e : ℕ} (he : e ≤ 126) (B : Prop)
    (hw0 : ∀ n (hn : n < q.length), w n = q[n]) (hf : ∀ n, f (n + 1) = w n * (lit 1 - damp n) + f n * damp n)
    (hw : ∀ n, w (n + q.length) = inp n + f (n + 1) * fb n)
    (hw0' : ∀ n (hn : n < q'.length), w' n = q'[n]) (hf' : ∀ n, f' (n + 1) = w' n * (lit 1 - damp n) + f' n * damp n)
    (hw' : ∀ n, w' (n + q'.length) = inp' n + f' (n + 1) * fb' n)
    (hr : CombRoom e q (f 0) fb inp) (hr' : CombRoom e q' (f' 0) fb' inp')
    (hd : ∀ n, (damp n).isFin = true ∧ 0 ≤ (damp n).val ∧ (damp n).val ≤ 1)
    (hq : ∀ n (hn : n < q.length) (hn' : n < q'.length), q[n].val ≤ q'[n].val ∧ (B → 0 ≤ q[n].val))
    (hs : (f 0).val ≤ (f' 0).val ∧ (B → 0 ≤ (f 0).val))
    (hi : ∀ n, (inp n).val ≤ (inp' n).val ∧ (B → 0 ≤ (inp n).val))
    (hfb : ∀ n, 0 ≤ (fb n).val ∧ ((fb n).val = (fb' n).val ∨ (B ∧ (fb n).val ≤ (fb' n).val))) (n : ℕ) :
    (w n).val ≤ (w' n).val ∧ (B → 0 ≤ (w n).val) := by
  have hpos : 0 < q.length := List.length_pos_iff.2 hne
  have hne' : q' ≠ [] := List.length_pos_iff.1 (by omega)
  have b1 := comb_seq_bounded hne he hw0 hf hw hr.cells hr.state hd hr.gains hr.samples hr.room
  have b2 := comb_seq_bounded hne' he hw0' hf' hw' hr'.cells hr'.state hd hr'.gains hr'.samples hr'.room
  have key : ∀ n, ((f n).val ≤ (f' n).val ∧ (B → 0 ≤ (f n).val)) ∧
      ∀ m < n + q.length, (w m).val ≤ (w' m).val ∧ (B → 0 ≤ (w m).val) := by
    intro n
    induction n with
    | zero =>
      refine ⟨hs, fun m hm => ?_⟩
      rw [hw0 m (by omega), hw0' m (by omega)]; exact hq m (by omega) (by omega)
    | succ n ih =>
      obtain ⟨⟨g1, g2⟩, hwm⟩ := ih
      obtain ⟨v1, v2⟩ := hwm n (by omega)
      obtain ⟨⟨f1, f2⟩, ⟨w1, w2⟩, k1⟩ := b1 n
      obtain ⟨⟨f1', f2'⟩, ⟨w1', w2'⟩, k1'⟩ := b2 n
      obtain ⟨d1, d2, d3⟩ := hd n
      obtain ⟨i1, i2, i3⟩ := one_sub_damp d1 d2 d3
      have hst : (lit 1 - damp n).val + (damp n).val ≤ 1 + 1 / 2 ^ 25 := by linarith [(abs_le.1 i3).2]
      obtain ⟨p1, p2, -, -⟩ := blend_pow2 he w1 f1 w2 f2 i1 d1 i2 d2 hst
      obtain ⟨p1', p2', -, -⟩ := blend_pow2 he w1' f1' w2' f2' i1 d1 i2 d2 hst
      have hF : (f (n + 1)).val ≤ (f' (n + 1)).val ∧ (B → 0 ≤ (f (n + 1)).val) := by
        constructor
        · rw [hf, hf']
          exact add_mono_fin p1 p1' p2 p2' (mul_mono_fin w1 w1' i1 i1 (mul_le_mul_of_nonneg_right v1 i2))
            (mul_mono_fin f1 f1' d1 d1 (mul_le_mul_of_nonneg_right g1 d2))
        · intro hB
          rw [hf, add_fin p1 p2]
          refine rnd_val_nonneg (add_nonneg ?_ ?_)
          · rw [mul_fin w1 i1]; exact rnd_val_nonneg (mul_nonneg (v2 hB) i2)
          · rw [mul_fin f1 d1]; exact rnd_val_nonneg (mul_nonneg (g2 hB) d2)
      refine ⟨hF, fun m hm => ?_⟩
      by_cases hlt : m < n + q.length
      · exact hwm m hlt
      · have : m = n + q.length := by omega
        subst this
        obtain ⟨F1, F2⟩ := (b1 (n + 1)).1
        obtain ⟨F1', F2'⟩ := (b2 (n + 1)).1
        obtain ⟨s1, -⟩ := share_pow2 he F1 F2 (hr.gains n) k1
        obtain ⟨s1', -⟩ := share_pow2 he F1' F2' (hr'.gains n) k1'
        constructor
        · rw [hw n, hlen, hw' n]
          refine add_mono_fin (hr.samples n) (hr'.samples n) s1 s1' (hi n).1 (mul_mono_fin F1 F1' (hr.gains n) (hr'.gains n) ?_)
          obtain ⟨h0, h | ⟨hB, h⟩⟩ := hfb n
          · rw [← h]; exact mul_le_mul_of_nonneg_right hF.1 h0
          · exact mul_le_mul hF.1 h h0 ((hF.2 hB).trans hF.1)
        · intro hB
          rw [hw n, add_fin (hr.samples n) s1]
          refine rnd_val_nonneg (add_nonneg ((hi n).2 hB) ?_)
          rw [mul_fin F1 (hr.gains n)]; exact rnd_val_nonneg (mul_nonneg (hF.2 hB) (hfb n).1)
  exact (key n).2 n (by omega)

section
variable {c c' : Cfg} {mem mem' : Mem F32} {q q' : List F32} {k k' : Comb F32} {fb fb' damp inp inp' : ℕ → F32} {e : ℕ}

/-- C172: two combs of the same length with the same settings, moved in the same way, feedback not negative. If no sample,
cell or state of the first is above its counterpart in the second, no output ever is. -/
theorem C172_order (h : Holds c mem k.delayLine q) (h' : Holds c' mem' k'.delayLine q') (hlen : q.length = q'.length)
    (he : e ≤ 126) (hr : CombRoom e q k.filterState fb inp) (hr' : CombRoom e q' k'.filterState fb inp')
    (hd : ∀ n, (damp n).isFin = true ∧ 0 ≤ (damp n).val ∧ (damp n).val ≤ 1) (hfb : ∀ n, 0 ≤ (fb n).val)
    (hq : ∀ n (hn : n < q.length) (hn' : n < q'.length), q[n].val ≤ q'[n].val)
    (hs : k.filterState.val ≤ k'.filterState.val) (hi : ∀ n, (inp n).val ≤ (inp' n).val) (n : ℕ) :
    ∃ y y', Comb.outUnder c mem k fb damp inp n = .ok y ∧ Comb.outUnder c' mem' k' fb damp inp' n = .ok y' ∧
      y.isFin = true ∧ y'.isFin = true ∧ y.val ≤ y'.val := by
  obtain ⟨w, f, hw0, hf0, hf, hw, hout⟩ := C99_modulated h fb damp inp
  obtain ⟨w', f', hw0', hf0', hf', hw', hout'⟩ := C99_modulated h' fb damp inp'
  rw [← hf0] at hr hs
  rw [← hf0'] at hr' hs
  have b1 := comb_seq_bounded h.ne_nil he hw0 hf hw hr.cells hr.state hd hr.gains hr.samples hr.room n
  have b2 := comb_seq_bounded h'.ne_nil he hw0' hf' hw' hr'.cells hr'.state hd hr'.gains hr'.samples hr'.room n
  refine ⟨w n, w' n, hout n, hout' n, b1.2.1.1, b2.2.1.1, ?_⟩
  exact (comb_seq_order h.ne_nil hlen he False hw0 hf hw hw0' hf' hw' hr hr' hd
    (fun n hn hn' => ⟨hq n hn hn', False.elim⟩) ⟨hs, False.elim⟩ (fun n => ⟨hi n, False.elim⟩)
    (fun n => ⟨hfb n, .inl rfl⟩) n).1

/-- C172: more feedback never makes a comb quieter, if nothing in it is negative; and then no output is negative. -/
theorem C172_feedback (h : Holds c mem k.delayLine q) (he : e ≤ 126) (hr : CombRoom e q k.filterState fb inp)
    (hr' : CombRoom e q k.filterState fb' inp)
    (hd : ∀ n, (damp n).isFin = true ∧ 0 ≤ (damp n).val ∧ (damp n).val ≤ 1)
    (hfb : ∀ n, 0 ≤ (fb n).val ∧ (fb n).val ≤ (fb' n).val)
    (hq : ∀ x ∈ q, 0 ≤ x.val) (hs : 0 ≤ k.filterState.val) (hi : ∀ n, 0 ≤ (inp n).val) (n : ℕ) :
    ∃ y y', Comb.outUnder c mem k fb damp inp n = .ok y ∧ Comb.outUnder c mem k fb' damp inp n = .ok y' ∧
      y.isFin = true ∧ y'.isFin = true ∧ 0 ≤ y.val ∧ y.val ≤ y'.val := by
  obtain ⟨w, f, hw0, hf0, hf, hw, hout⟩ := C99_modulated h fb damp inp
  obtain ⟨w', f', hw0', hf0', hf', hw', hout'⟩ := C99_modulated h fb' damp inp
  have e0 : (f 0).val = (f' 0).val := by rw [hf0, hf0']
  rw [← hf0] at hr hs
  rw [← hf0'] at hr'
  have b1 := comb_seq_bounded h.ne_nil he hw0 hf hw hr.cells hr.state hd hr.gains hr.samples hr.room n
  have b2 := comb_seq_bounded h.ne_nil he hw0' hf' hw' hr'.cells hr'.state hd hr'.gains hr'.samples hr'.room n
  have := comb_seq_order h.ne_nil rfl he True hw0 hf hw hw0' hf' hw' hr hr' hd
    (fun n hn _ => ⟨le_rfl, fun _ => hq _ (List.getElem_mem hn)⟩) ⟨e0.le, fun _ => hs⟩ (fun n => ⟨le_rfl, fun _ => hi n⟩)
    (fun n => ⟨(hfb n).1, .inr ⟨trivial, (hfb n).2⟩⟩) n
  exact ⟨w n, w' n, hout n, hout' n, b1.2.1.1, b2.2.1.1, this.2 trivial, this.1⟩

end

theorem quiet_room {fb inp : ℕ → F32} (hfb : ∀ n, (fb n).isFin = true ∧ |(fb n).val| ≤ 91/100)
    (hin : ∀ n, (inp n).isFin = true ∧ |(inp n).val| ≤ 1) :
    CombRoom 4 (List.replicate 2 (lit 0)) (Comb.new quietSlice : Comb F32).filterState fb inp := by
  refine ⟨?_, ⟨lit0_fin, ?_⟩, fun n => (hfb n).1, fun n => (hin n).1, fun n => ?_⟩
  · intro x hx
    rw [List.eq_of_mem_replicate hx, lit0_val]; exact ⟨lit0_fin, by norm_num⟩
  · show |(lit 0 : F32).val| ≤ _
    rw [lit0_val]; norm_num
  · have := (hin n).2
    have := (hfb n).2
    linarith

/-- Any signal within 1 stays above the constant -1 and below the constant 1, through a comb with feedback 9/10 whose
dampening is moved at will. -/
example (inp damp : ℕ → F32) (hin : ∀ n, (inp n).isFin = true ∧ |(inp n).val| ≤ 1)
    (hd : ∀ n, (damp n).isFin = true ∧ 0 ≤ (damp n).val ∧ (damp n).val ≤ 1) (n : ℕ) :
    ∃ y y', Comb.outUnder Cfg.release32 quietMem (Comb.new quietSlice) (fun _ => lit (9/10)) damp inp n = .ok y ∧
      Comb.outUnder Cfg.release32 quietMem (Comb.new quietSlice) (fun _ => lit (9/10)) damp (fun _ => lit 1) n = .ok y' ∧
      y.isFin = true ∧ y'.isFin = true ∧ y.val ≤ y'.val := by
  have hfb : ∀ n : ℕ, (lit (9/10) : F32).isFin = true ∧ |(lit (9/10) : F32).val| ≤ 91/100 := fun _ => by decide +kernel
  refine C172_order (holds_new quiet_views (by simp)) (holds_new quiet_views (by simp)) rfl (by norm_num : 4 ≤ 126) (quiet_room hfb hin)
    (quiet_room hfb fun _ => ⟨lit1_fin, by rw [lit1_val]; norm_num⟩) hd (fun _ => by decide +kernel) (fun _ _ _ => le_rfl) le_rfl (fun n => ?_) n
  rw [lit1_val]; exact (abs_le.1 (hin n).2).2

/-- The echoes of one click at feedback 1/2 and 3/4; the third time round it is 1/4 against 9/16. -/
example : (∀ n, ∃ y y', Comb.outUnder Cfg.release32 quietMem (Comb.new quietSlice) (fun _ => lit (1/2)) (fun _ => lit 0)
        (fun n => if n = 0 then lit 1 else lit 0) n = .ok y ∧
      Comb.outUnder Cfg.release32 quietMem (Comb.new quietSlice) (fun _ => lit (3/4)) (fun _ => lit 0)
        (fun n => if n = 0 then lit 1 else lit 0) n = .ok y' ∧
      y.isFin = true ∧ y'.isFin = true ∧ 0 ≤ y.val ∧ y.val ≤ y'.val) ∧
    Comb.outUnder Cfg.release32 quietMem (Comb.new quietSlice) (fun _ => lit (1/2)) (fun _ => lit 0)
        (fun n => if n = 0 then lit 1 else lit 0) 6 = .ok (lit (1/4)) ∧
    Comb.outUnder Cfg.release32 quietMem (Comb.new quietSlice) (fun _ => lit (3/4)) (fun _ => lit 0)
        (fun n => if n = 0 then lit 1 else lit 0) 6 = .ok (lit (9/16)) := by
  refine ⟨fun n => ?_, by decide +kernel, by decide +kernel⟩
  have hin : ∀ n : ℕ, (if n = 0 then lit 1 else lit 0 : F32).isFin = true ∧ |(if n = 0 then lit 1 else lit 0 : F32).val| ≤ 1 := by
    intro n; split <;> simp
  refine C172_feedback (holds_new quiet_views (by simp)) (by norm_num : 4 ≤ 126) (quiet_room (fun _ => by decide +kernel) hin)
    (quiet_room (fun _ => by decide +kernel) hin) (fun _ => by simp) (fun _ => by decide +kernel) ?_ ?_ (fun n => ?_) n
  · intro x hx; rw [List.eq_of_mem_replicate hx, lit0_val]
  · show 0 ≤ (lit 0 : F32).val
    rw [lit0_val]
  · split <;> simp

end Verif
