import Verif.Props.CombAllPass
import Verif.Props.Impulse

/-! # C202 for the comb: its length and its settings can be told from its answer to a click -/

namespace Verif
variable {K : Type} [Field K]

/-- The comb a caller sets up: a silent buffer, then `set_dampening` and `set_feedback`. -/
def setComb (s : MemorySlice) (d g : K) : Comb K := ((Comb.new s).setDampening d).setFeedback g

/-- The first samples of the answer of a comb to a click. -/
theorem comb_click {c : Cfg} {mem : Mem K} {s : MemorySlice} {L : ℕ} (hL : 0 < L) (hv : Views c mem s (List.replicate L 0)) (d g : K) :
    ∃ w : ℕ → K, (∀ n, Comb.outAt c mem (setComb s d g) impulse n = .ok (w n)) ∧ (∀ n < L, w n = 0) ∧ w L = 1 ∧
      w (2 * L) = (1 - d) * g ∧ w (2 * L + 1) = (w (L + 1) + d) * ((1 - d) * g) := by
  have h : Holds c mem (setComb s d g).delayLine (List.replicate L 0) := holds_new hv (by simp; omega)
  obtain ⟨w, f, h1, hf0, hf, h2, h3⟩ := C20_comb h impulse
  simp only [List.length_replicate, List.getElem_replicate] at h1 h2
  have c1 : (setComb s d g).dampeningInverse = 1 - d := by simp [setComb, Comb.setDampening, Comb.setFeedback, Lit.lit]
  have c2 : (setComb s d g).dampening = d := rfl
  have c3 : (setComb s d g).feedback = g := rfl
  have c4 : (setComb s d g).filterState = 0 := by simp [setComb, Comb.setDampening, Comb.setFeedback, Comb.new, Lit.lit]
  rw [c1, c2] at hf
  rw [c3] at h2
  rw [c4] at hf0
  have fz : ∀ n ≤ L, f n = 0 := by
    intro n
    induction n with
    | zero => exact fun _ => hf0
    | succ n ih => intro hn; rw [hf, ih (by omega), h1 n (by omega)]; ring
  have wL : w L = 1 := by
    rw [← Nat.zero_add L, h2 0, fz 1 hL]; simp [impulse]
  have fL : f (L + 1) = 1 - d := by rw [hf, wL, fz L le_rfl]; ring
  refine ⟨w, h3, h1, wL, ?_, ?_⟩
  · rw [two_mul, h2 L, fL, impulse, if_neg (by omega)]; ring
  · rw [show 2 * L + 1 = L + 1 + L by ring, h2 (L + 1), hf (L + 1), fL, impulse, if_neg (by omega)]; ring

/-- C202, comb: if two combs over silent buffers answer a click alike, as far as one sample past twice the length of the first, then their
buffers have the same length and they are set alike. (With feedback 0 or dampening 1 a comb is a delay line, whatever the other setting.) -/
theorem C202_comb {c c' : Cfg} {mem mem' : Mem K} {s s' : MemorySlice} {L L' : ℕ} (hL : 0 < L) (hL' : 0 < L')
    (hv : Views c mem s (List.replicate L 0)) (hv' : Views c' mem' s' (List.replicate L' 0)) {d g d' g' : K} (hd : d ≠ 1) (hg : g ≠ 0)
    (h : ∀ n ≤ 2 * L + 1, Comb.outAt c mem (setComb s d g) impulse n = Comb.outAt c' mem' (setComb s' d' g') impulse n) :
    L = L' ∧ d = d' ∧ g = g' := by
  obtain ⟨w, o, w0, w1, w2, w3⟩ := comb_click hL hv d g
  obtain ⟨w', o', w0', w1', w2', w3'⟩ := comb_click hL' hv' d' g'
  have e : ∀ n ≤ 2 * L + 1, w n = w' n := fun n hn => by
    have := h n hn; rw [o, o'] at this; exact Except.ok.inj this
  have eL : L = L' := by
    rcases lt_trichotomy L L' with hl | hl | hl
    · have := e L (by omega); rw [w1, w0' L hl] at this; exact absurd this one_ne_zero
    · exact hl
    · have := e L' (by omega); rw [w0 L' hl, w1'] at this; exact absurd this.symm one_ne_zero
  subst eL
  have p : (1 - d) * g ≠ 0 := mul_ne_zero (sub_ne_zero.2 hd.symm) hg
  have e2 := e (2 * L) (by omega)
  have e3 := e (2 * L + 1) le_rfl
  rw [w2, w2'] at e2
  rw [w3, w3', ← e2, e (L + 1) (by omega)] at e3
  have ed : d = d' := by have := mul_right_cancel₀ p e3; linear_combination this
  subst ed
  exact ⟨rfl, rfl, mul_left_cancel₀ (sub_ne_zero.2 hd.symm) e2⟩

/-- The settings of the exception: with feedback 0 or dampening 1 the comb is a delay line, whatever the other setting. -/
theorem C202_comb_flat {c : Cfg} {mem : Mem K} {s : MemorySlice} {L : ℕ} (hL : 0 < L) (hv : Views c mem s (List.replicate L 0)) {d g : K}
    (hdg : d = 1 ∨ g = 0) (x : ℕ → K) (n : ℕ) : Comb.outAt c mem (setComb s d g) x n = .ok (if n < L then 0 else x (n - L)) := by
  have h : Holds c mem (setComb s d g).delayLine (List.replicate L 0) := holds_new hv (by simp; omega)
  obtain ⟨w, f, h1, hf0, hf, h2, h3⟩ := C20_comb h x
  simp only [List.length_replicate, List.getElem_replicate] at h1 h2
  have c1 : (setComb s d g).dampeningInverse = 1 - d := by simp [setComb, Comb.setDampening, Comb.setFeedback, Lit.lit]
  have c4 : (setComb s d g).filterState = 0 := by simp [setComb, Comb.setDampening, Comb.setFeedback, Comb.new, Lit.lit]
  have z : ∀ n, f n * (setComb s d g).feedback = 0 := by
    rcases hdg with rfl | rfl
    · have : ∀ n, f n = 0 := by
        intro n
        induction n with
        | zero => rw [hf0, c4]
        | succ n ih => rw [hf, c1, ih]; ring
      intro n; rw [this, zero_mul]
    · intro n; rw [show (setComb s d 0).feedback = 0 from rfl, mul_zero]
  rw [h3]
  split_ifs with hn
  · rw [h1 n hn]
  · obtain ⟨i, rfl⟩ : ∃ i, n = i + L := ⟨n - L, by omega⟩
    rw [h2, z, add_zero, Nat.add_sub_cancel]

/-- Combs of two samples with dampening 1/2 and feedback 1/2 or 1/4 are told apart. -/
example : ∃ n, Comb.outAt Cfg.debug64 (fun b => if b = 0 then some [0, 0] else none) (setComb (MemorySlice.fromSlice 0 0 2) (1/2 : ℚ) (1/2)) impulse n ≠
    Comb.outAt Cfg.debug64 (fun b => if b = 0 then some [0, 0] else none) (setComb (MemorySlice.fromSlice 0 0 2) (1/2 : ℚ) (1/4)) impulse n := by
  by_contra hc
  push Not at hc
  have hv : Views Cfg.debug64 (fun b => if b = 0 then some [0, 0] else none) (MemorySlice.fromSlice 0 0 2) (List.replicate 2 (0 : ℚ)) :=
    ⟨0, [], [], rfl, rfl, rfl, by decide⟩
  have := (C202_comb (by norm_num) (by norm_num) hv hv (by norm_num) (by norm_num) (fun n _ => hc n)).2.2
  norm_num at this

end Verif
