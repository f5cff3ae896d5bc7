import Mathlib.Analysis.Real.Pi.Bounds
import Verif.Lemmas.SineIntegral
import Verif.Props.BlRect
import Verif.Props.Si

/-! # C144, C145: what the table of `lookup_bl_rect` holds and what the lookup returns

The entries are compared with the sine integral. Simpson's rule with steps of pi/200 leaves sines of multiples of pi/200,
which are followed with integers by rotating a vector. -/

namespace Verif.FMath
open Verif.F32

/-! ## The check, with integers scaled by `10 ^ 18` -/

def siD : ℤ := 10 ^ 18
/-- cosine and sine of pi/200, and pi/600 -/
def siC1 : ℤ := 999876632481660599
def siS1 : ℤ := 15707317311820676
def siK0 : ℤ := 5235987755982989
/-- pi, scaled by `10 ^ 20` -/
def siP : ℤ := 314159265358979323846

/-- `f n`, with `n` evaluated first. -/
def forceNat {β : Type} (n : ℕ) (f : ℕ → β) : β := Nat.casesOn n (f 0) (fun k => f (k + 1))
def forceInt {β : Type} (x : ℤ) (f : ℤ → β) : β :=
  Int.casesOn x (fun n => forceNat n (fun n => f (Int.ofNat n))) (fun n => forceNat n (fun n => f (Int.negSucc n)))

theorem forceNat_eq {β : Type} (n : ℕ) (f : ℕ → β) : forceNat n f = f n := by cases n <;> rfl
theorem forceInt_eq {β : Type} (x : ℤ) (f : ℤ → β) : forceInt x f = f x := by
  cases x <;> simp only [forceInt, forceNat_eq]

/-- One third of a sine over its index; at index 0 a third of the step. -/
def siTerm (j : ℕ) (S : ℤ) : ℤ := if j = 0 then siK0 else S / (3 * j)

def rotC (C S : ℤ) : ℤ := (C * siC1 - S * siS1) / siD
def rotS (C S : ℤ) : ℤ := (S * siC1 + C * siS1) / siD

/-- Entries from index `n` on, with the vector at angle `2 n pi / 200` and the Simpson sum up to there; the state after the
last entry has to be `e`. -/
def siCheck : List ℕ → ℕ → ℤ → ℤ → ℤ → ℤ × ℤ × ℤ → Bool
  | [], _, C, S, A, e => decide (C = e.1) && decide (S = e.2.1) && decide (A = e.2.2)
  | t :: l, n, C, S, A, e =>
    decide (3 * siP * t - 5 * 10 ^ 11 * A ≤ 324 * 10 ^ 22) && decide (-(324 * 10 ^ 22) ≤ 3 * siP * t - 5 * 10 ^ 11 * A) &&
    forceInt (rotC C S) fun C' => forceInt (rotS C S) fun S' =>
      forceInt (rotC C' S') fun C'' => forceInt (rotS C' S') fun S'' =>
        forceInt (A + siTerm (2 * n) S + 4 * siTerm (2 * n + 1) S' + siTerm (2 * n + 2) S'') fun A' =>
          siCheck l (n + 1) C'' S'' A' e

/-- The table in its parts of 64, each with the state before it. -/
def siParts : List (List ℕ) := [
  blRectChunk0, blRectChunk1, blRectChunk2, blRectChunk3, blRectChunk4, blRectChunk5, blRectChunk6, blRectChunk7,
  blRectChunk8, blRectChunk9, blRectChunk10, blRectChunk11, blRectChunk12, blRectChunk13, blRectChunk14,
  blRectChunk15, blRectChunk16, blRectChunk17, blRectChunk18, blRectChunk19, blRectChunk20, blRectChunk21,
  blRectChunk22, blRectChunk23, blRectChunk24, blRectChunk25, blRectChunk26, blRectChunk27, blRectChunk28,
  blRectChunk29, blRectChunk30, blRectChunk31, blRectChunk32, blRectChunk33, blRectChunk34, blRectChunk35,
  blRectChunk36, blRectChunk37, blRectChunk38, blRectChunk39, blRectChunk40, blRectChunk41, blRectChunk42,
  blRectChunk43, blRectChunk44, blRectChunk45, blRectChunk46, blRectChunk47, blRectChunk48, blRectChunk49,
  blRectChunk50, blRectChunk51, blRectChunk52, blRectChunk53, blRectChunk54, blRectChunk55, blRectChunk56,
  blRectChunk57, blRectChunk58, blRectChunk59, blRectChunk60, blRectChunk61, blRectChunk62, blRectChunk63,
  blRectChunk64, blRectChunk65, blRectChunk66, blRectChunk67, blRectChunk68, blRectChunk69, blRectChunk70,
  blRectChunk71, blRectChunk72, blRectChunk73, blRectChunk74, blRectChunk75, blRectChunk76, blRectChunk77,
  blRectChunk78, blRectChunk79]

def siStates : List (ℤ × ℤ × ℤ) := [
  (1000000000000000000, 0, 0),
  (-425779291565072682, 904827052466019482, 1610216473680422812),
  (-637423989748689642, -770513242775789374, 1754158990317477489),
  (968583161128631287, -248689887164854721, 1423289043003540284),
  (-187381314585724787, 982287250728688768, 1579408148920921082),
  (-809016994374947440, -587785252292473428, 1655350193868699187),
  (876306680043863939, -481753674101715227, 1502273874315790615),
  (62790519529313178, 998026728428271834, 1561478966690202051),
  (-929776485888251580, -368124552684678379, 1629564378848801251),
  (728968627421412051, -684547105928688735, 1532804035836926147),
  (309016994374947258, 951056516295154058, 1553181761672059499),
  (-992114701314478226, -125333233564304716, 1615728310318514597),
  (535826794978997283, -844327925502015337, 1550098864067095370),
  (535826794978996586, 844327925502015776, 1549130157823505216),
  (-992114701314478482, 125333233564303819, 1605797177565543635),
  (309016994374948151, -951056516295154090, 1561611249665430852),
  (728968627421411713, 684547105928689532, 1547521974719235547),
  (-929776485888252293, 368124552684677680, 1597638661040354900),
  (62790519529314058, -998026728428272364, 1569822513744481620),
  (876306680043864067, 481753674101716206, 1547559834976255917),
  (-809016994374948513, 587785252292473098, 1590528063992729142),
  (-187381314585724106, -982287250728689775, 1575778428885333820),
  (968583161128631940, 248689887164855701, 1548794869422504844),
  (-637423989748690925, 770513242775789529, 1584208064210587222),
  (-425779291565072375, -904827052466020882, 1579999928486278832),
  (1000000000000001183, 781, 1550917632797111235),
  (-425779291565073889, 904827052466020217, 1578604830766880616),
  (-637423989748689796, -770513242775790780, 1582791117320283555),
  (968583161128632624, -248689887164854264, 1553680684885722148),
  (-187381314585725770, 982287250728689788, 1573719675361679419),
  (-809016994374947942, -587785252292474758, 1584362668084172418),
  (876306680043865353, -481753674101715121, 1556868029121877382),
  (62790519529312473, 998026728428273070, 1569580132790178354),
  (-929776485888252402, -368124552684679539, 1584886601635085478),
  (728968627421413452, -684547105928688990, 1560283666658846435),
  (309016994374946894, 951056516295155435, 1566215066696665712),
  (-992114701314479320, -125333233564305626, 1584521594969153347),
  (535826794978998572, -844327925502015933, 1563748662818279833),
  (535826794978996572, 844327925502017194, 1563641118815683213),
  (-992114701314479757, 125333233564303207, 1583424096108784775),
  (309016994374949247, -951056516295154981, 1567102102595480659),
  (728968627421412053, 684547105928690904, 1561855370904831427),
  (-929776485888253685, 368124552684677401, 1581751971952604190),
  (62790519529314900, -998026728428273509, 1570203667583236015),
  (876306680043864743, 481753674101717460, 1560831910674800294),
  (-809016994374949934, 587785252292473176, 1579663997321339840),
  (-187381314585723566, -982287250728691099, 1572936601560635095),
  (968583161128632911, 248689887164856750, 1560521135247568265),
  (-637423989748692287, 770513242775789956, 1577317002593844199),
  (-425779291565072188, -904827052466022299, 1575210340600584251),
  (1000000000000002372, 1555, 1560851108995337377),
  (-425779291565075100, 904827052466020971, 1574861793744615737),
  (-637423989748689970, -770513242775792198, 1576962367146553514),
  (968583161128633989, -248689887164853815, 1561730498616918892),
  (-187381314585726759, 982287250728690824, 1572438597081580809),
  (-809016994374948463, -587785252292476093, 1578159028771613525),
  (876306680043866788, -481753674101715024, 1563052693365635928),
  (62790519529311776, 998026728428274336, 1570172573993900900),
  (-929776485888253244, -368124552684680710, 1578795193576884505),
  (728968627421414865, -684547105928689255, 1564700751800668785),
  (309016994374946529, 951056516295156822, 1568169814913681285),
  (-992114701314480419, -125333233564306554, 1578892718018316729),
  (535826794978999874, -844327925502016539, 1566552831133593083),
  (535826794978996567, 844327925502018627, 1566514117882550116),
  (-992114701314481054, 125333233564302588, 1578497788754873587),
  (309016994374950354, -951056516295155896, 1568487767447293929),
  (728968627421412405, 684547105928692294, 1565264767822541902),
  (-929776485888255089, 368124552684677128, 1577677271224276000),
  (62790519529315753, -998026728428274664, 1570390492857440285),
  (876306680043865423, 481753674101718726, 1564455450231799963),
  (-809016994374951370, 587785252292473248, 1576514254698809810),
  (-187381314585723019, -982287250728692427, 1572157002729845747),
  (968583161128633876, 248689887164857808, 1564094355118562180),
  (-637423989748693652, 770513242775790379, 1575103026117829297),
  (-425779291565071984, -904827052466023715, 1573698623406146220),
  (1000000000000003570, 2340, 1564165453775667379),
  (-425779291565076318, 904827052466021718, 1573543732404770693),
  (-637423989748690123, -770513242775793611, 1574945377895767930),
  (968583161128635328, -248689887164853351, 1564630864021416785),
  (-187381314585727748, 982287250728691839, 1571937002895713383),
  (-707106781186551910, 707106781186548367, 1575203223137041773)]

def siCheckAll : List (List ℕ) → ℕ → List (ℤ × ℤ × ℤ) → Bool
  | [], _, _ => true
  | p :: ps, n, s :: s' :: ss => siCheck p n s.1 s.2.1 s.2.2 s' && siCheckAll ps (n + p.length) (s' :: ss)
  | _ :: _, _, _ => false

theorem si_checked : siCheckAll siParts 0 siStates = true := by decide +kernel

/-! ## What the check says -/

/-- The step, pi/200. -/
noncomputable def siTh : ℝ := Real.pi / 200

theorem siTh_range : (15707963267948966192300 : ℝ) / 10 ^ 24 ≤ siTh ∧ siTh ≤ 15707963267948966192350 / 10 ^ 24 := by
  have h1 := Real.pi_gt_d20
  have h2 := Real.pi_lt_d20
  unfold siTh
  constructor
  · rw [le_div_iff₀ (by norm_num)]; norm_num at h1 ⊢; linarith
  · rw [div_le_iff₀ (by norm_num)]; norm_num at h2 ⊢; linarith

/-- The vector after `j` steps. -/
noncomputable def siVec (j : ℕ) : ℂ := ⟨Real.cos (j * siTh), Real.sin (j * siTh)⟩
noncomputable def intVec (C S : ℤ) : ℂ := ⟨C / 10 ^ 18, S / 10 ^ 18⟩

theorem norm_le_add {z : ℂ} {a b : ℝ} (h1 : |z.re| ≤ a) (h2 : |z.im| ≤ b) : ‖z‖ ≤ a + b :=
  (Complex.norm_le_abs_re_add_abs_im z).trans (add_le_add h1 h2)

theorem siVec_succ (j : ℕ) : siVec (j + 1) = siVec j * siVec 1 := by
  apply Complex.ext
  · simp only [siVec, Complex.mul_re, Nat.cast_add, Nat.cast_one, one_mul, add_mul, Real.cos_add]
  · simp only [siVec, Complex.mul_im, Nat.cast_add, Nat.cast_one, one_mul, add_mul, Real.sin_add]; ring

theorem siVec_norm (j : ℕ) : ‖siVec j‖ = 1 := by
  have h : ‖siVec j‖ ^ 2 = 1 := by
    rw [Complex.sq_norm, Complex.normSq_apply]; simp only [siVec]
    have := Real.sin_sq_add_cos_sq (j * siTh); nlinarith
  have h0 := norm_nonneg (siVec j)
  nlinarith

theorem siVec_one : ‖siVec 1 - intVec siC1 siS1‖ ≤ 2 / 10 ^ 18 := by
  obtain ⟨hl, hh⟩ := siTh_range
  have hpi := Real.pi_gt_three
  have p0 : (0:ℝ) ≤ 15707963267948966192300 / 10 ^ 24 := by positivity
  have p1 : (0:ℝ) ≤ 15707963267948966192350 / 10 ^ 24 := by positivity
  have c1 := Real.cos_le_cos_of_nonneg_of_le_pi p0 (by unfold siTh; linarith) hl
  have c2 := Real.cos_le_cos_of_nonneg_of_le_pi (p0.trans hl) (by norm_num; linarith) hh
  have s1 := Real.sin_le_sin_of_le_of_le_pi_div_two (by linarith) (by unfold siTh; linarith) hl
  have s2 := Real.sin_le_sin_of_le_of_le_pi_div_two (by linarith) (by norm_num; linarith) hh
  have u1 := cos_le_taylor p0 5 (by decide)
  have u2 := taylor_le_cos p1 6 (by decide) (by decide)
  have u3 := taylor_le_sin p0 6 (by decide) (by decide)
  have u4 := sin_le_taylor p1 5 (by decide)
  simp only [sinT, cosT, Finset.sum_range_succ, Finset.sum_range_zero, Nat.factorial] at u1 u2 u3 u4
  norm_num at u1 u2 u3 u4
  rw [show (2:ℝ) / 10 ^ 18 = 1 / 10 ^ 18 + 1 / 10 ^ 18 by norm_num]
  refine norm_le_add ?_ ?_
  · simp only [siVec, intVec, siC1, Complex.sub_re, Nat.cast_one, one_mul]
    rw [abs_le]; constructor
    · norm_num at c2 ⊢; linarith
    · norm_num at c1 ⊢; linarith
  · simp only [siVec, intVec, siS1, Complex.sub_im, Nat.cast_one, one_mul]
    rw [abs_le]; constructor
    · norm_num at s1 ⊢; linarith
    · norm_num at s2 ⊢; linarith

/-- Rounding down loses less than one unit. -/
theorem ediv_real (x : ℤ) {d : ℤ} (hd : 0 < d) : |((x / d : ℤ) : ℝ) - x / d| ≤ 1 := by
  have h := Int.emod_add_mul_ediv x d
  have h0 := Int.emod_nonneg x hd.ne'
  have h1 := Int.emod_lt_of_pos x hd
  have hr : ((x % d : ℤ) : ℝ) + d * ((x / d : ℤ) : ℝ) = x := by exact_mod_cast h
  have hdr : (0:ℝ) < d := by exact_mod_cast hd
  have g0 : (0:ℝ) ≤ ((x % d : ℤ) : ℝ) := by exact_mod_cast h0
  have g1 : ((x % d : ℤ) : ℝ) ≤ d := by exact_mod_cast h1.le
  have e : (x:ℝ) / d = ((x / d : ℤ) : ℝ) + ((x % d : ℤ) : ℝ) / d := by
    rw [← hr]; field_simp; ring
  rw [e, abs_le]
  have : ((x % d : ℤ) : ℝ) / d ≤ 1 := by rw [div_le_one hdr]; exact g1
  have h3 : 0 ≤ ((x % d : ℤ) : ℝ) / d := by positivity
  constructor <;> linarith

theorem rot_near {j : ℕ} {C S : ℤ} {ε : ℝ} (h : ‖siVec j - intVec C S‖ ≤ ε) (he : ε ≤ 1 / 2) :
    ‖siVec (j + 1) - intVec (rotC C S) (rotS C S)‖ ≤ ε + 5 / 10 ^ 18 := by
  have hr : ‖intVec C S * intVec siC1 siS1 - intVec (rotC C S) (rotS C S)‖ ≤ 2 / 10 ^ 18 := by
    rw [show (2:ℝ) / 10 ^ 18 = 1 / 10 ^ 18 + 1 / 10 ^ 18 by norm_num]
    refine norm_le_add ?_ ?_
    · have := ediv_real (C * siC1 - S * siS1) (show 0 < siD by decide)
      simp only [intVec, rotC, Complex.sub_re, Complex.mul_re]
      rw [abs_sub_comm] at this
      have e : (C:ℝ) / 10 ^ 18 * (siC1 / 10 ^ 18) - S / 10 ^ 18 * (siS1 / 10 ^ 18) - ((C * siC1 - S * siS1) / siD : ℤ) / 10 ^ 18 =
          (((C * siC1 - S * siS1 : ℤ) : ℝ) / siD - ((C * siC1 - S * siS1) / siD : ℤ)) / 10 ^ 18 := by
        have : (siD : ℝ) = 10 ^ 18 := by norm_num [siD]
        rw [this]; push_cast; ring
      rw [e, abs_div, abs_of_pos (by norm_num : (0:ℝ) < 10 ^ 18)]
      exact div_le_div_of_nonneg_right this (by norm_num)
    · have := ediv_real (S * siC1 + C * siS1) (show 0 < siD by decide)
      simp only [intVec, rotS, Complex.sub_im, Complex.mul_im]
      rw [abs_sub_comm] at this
      have e : (C:ℝ) / 10 ^ 18 * (siS1 / 10 ^ 18) + S / 10 ^ 18 * (siC1 / 10 ^ 18) - ((S * siC1 + C * siS1) / siD : ℤ) / 10 ^ 18 =
          (((S * siC1 + C * siS1 : ℤ) : ℝ) / siD - ((S * siC1 + C * siS1) / siD : ℤ)) / 10 ^ 18 := by
        have : (siD : ℝ) = 10 ^ 18 := by norm_num [siD]
        rw [this]; push_cast; ring
      rw [e, abs_div, abs_of_pos (by norm_num : (0:ℝ) < 10 ^ 18)]
      exact div_le_div_of_nonneg_right this (by norm_num)
  have e : siVec (j + 1) - intVec (rotC C S) (rotS C S) = (siVec j - intVec C S) * siVec 1 +
      (intVec C S * (siVec 1 - intVec siC1 siS1) + (intVec C S * intVec siC1 siS1 - intVec (rotC C S) (rotS C S))) := by
    rw [siVec_succ]; ring
  have hw : ‖intVec C S‖ ≤ 3 / 2 := by
    have := norm_sub_norm_le (intVec C S) (siVec j)
    rw [norm_sub_rev, siVec_norm] at this; linarith
  rw [e]
  refine (norm_add_le _ _).trans ?_
  have h1 : ‖(siVec j - intVec C S) * siVec 1‖ ≤ ε := by rw [norm_mul, siVec_norm, mul_one]; exact h
  have h2 : ‖intVec C S * (siVec 1 - intVec siC1 siS1)‖ ≤ 3 / 2 * (2 / 10 ^ 18) := by
    rw [norm_mul]; exact mul_le_mul hw siVec_one (norm_nonneg _) (by norm_num)
  have h3 := norm_add_le (intVec C S * (siVec 1 - intVec siC1 siS1))
    (intVec C S * intVec siC1 siS1 - intVec (rotC C S) (rotS C S))
  linarith

/-- A third of the step times sinc at `j` steps. -/
noncomputable def siG (j : ℕ) : ℝ := siTh / 3 * Real.sinc (j * siTh)
noncomputable def siSum : ℕ → ℝ
  | 0 => 0
  | n + 1 => siSum n + (siG (2 * n) + 4 * siG (2 * n + 1) + siG (2 * n + 2))

theorem siTh_pos : 0 < siTh := by unfold siTh; positivity

theorem siG_pos {j : ℕ} (hj : j ≠ 0) : siG j = Real.sin (j * siTh) / (3 * j) := by
  have := siTh_pos
  have hj' : (j:ℝ) ≠ 0 := by exact_mod_cast hj
  unfold siG
  rw [Real.sinc_of_ne_zero (by positivity)]
  field_simp

theorem siTerm_near {j : ℕ} {C S : ℤ} {k : ℕ} (hk : j ≤ k) (h : ‖siVec j - intVec C S‖ ≤ 5 * j / 10 ^ 18) :
    |(siTerm j S : ℝ) - 10 ^ 18 * siG j| ≤ 3 := by
  by_cases hj : j = 0
  · subst hj
    obtain ⟨hl, hh⟩ := siTh_range
    simp only [siTerm, if_true, siG, Nat.cast_zero, zero_mul, Real.sinc_zero, mul_one, siK0]
    rw [abs_le]; norm_num at hl hh ⊢; constructor <;> linarith
  · have hj0 : (0:ℝ) < 3 * j := by have := Nat.pos_of_ne_zero hj; positivity
    rw [siTerm, if_neg hj, siG_pos hj]
    have h1 := ediv_real S (d := 3 * j) (by have := Nat.pos_of_ne_zero hj; positivity)
    have him : |Real.sin (j * siTh) - S / 10 ^ 18| ≤ 5 * (j:ℝ) / 10 ^ 18 := by
      have := (Complex.abs_im_le_norm (siVec j - intVec C S)).trans h
      simpa only [siVec, intVec, Complex.sub_im] using this
    have h2 : |(S:ℝ) / (3 * j) - 10 ^ 18 * (Real.sin (j * siTh) / (3 * j))| ≤ 5 / 3 := by
      have e : (S:ℝ) / (3 * j) - 10 ^ 18 * (Real.sin (j * siTh) / (3 * j)) =
          - (10 ^ 18 / (3 * j) * (Real.sin (j * siTh) - S / 10 ^ 18)) := by field_simp; ring
      rw [e, abs_neg, abs_mul, abs_of_pos (by positivity)]
      calc (10:ℝ) ^ 18 / (3 * j) * |Real.sin (j * siTh) - S / 10 ^ 18| ≤ 10 ^ 18 / (3 * j) * (5 * j / 10 ^ 18) := by gcongr
        _ = 5 / 3 := by field_simp
    push_cast at h1
    have := abs_sub_le ((S / (3 * j) : ℤ) : ℝ) ((S:ℝ) / (3 * j)) (10 ^ 18 * (Real.sin (j * siTh) / (3 * j)))
    linarith

/-- The state before entry `n`. -/
def SiState (n : ℕ) (C S A : ℤ) : Prop :=
  ‖siVec (2 * n) - intVec C S‖ ≤ 5 * (2 * n : ℕ) / 10 ^ 18 ∧ |(A : ℝ) - 10 ^ 18 * siSum n| ≤ 18 * (n:ℝ)

/-- The entry agrees with the sum. -/
def SiEntry (n t : ℕ) : Prop := |3 * siP * t / (5 * 10 ^ 29) - siSum n| ≤ (649 : ℝ) / 10 ^ 8

theorem siState_succ {n : ℕ} {C S A : ℤ} (hn : n ≤ 10 ^ 6) (h : SiState n C S A) :
    SiState (n + 1) (rotC (rotC C S) (rotS C S)) (rotS (rotC C S) (rotS C S))
      (A + siTerm (2 * n) S + 4 * siTerm (2 * n + 1) (rotS C S) + siTerm (2 * n + 2) (rotS (rotC C S) (rotS C S))) := by
  obtain ⟨h1, h2⟩ := h
  have hnr : (n:ℝ) ≤ 10 ^ 6 := by exact_mod_cast hn
  have g1 : ‖siVec (2 * n + 1) - intVec (rotC C S) (rotS C S)‖ ≤ 5 * (2 * n + 1 : ℕ) / 10 ^ 18 := by
    refine (rot_near h1 ?_).trans_eq ?_
    · push_cast; rw [div_le_iff₀ (by norm_num)]; linarith
    · push_cast; ring
  have g2 : ‖siVec (2 * n + 2) - intVec (rotC (rotC C S) (rotS C S)) (rotS (rotC C S) (rotS C S))‖ ≤
      5 * (2 * n + 2 : ℕ) / 10 ^ 18 := by
    refine (rot_near g1 ?_).trans_eq ?_
    · push_cast; rw [div_le_iff₀ (by norm_num)]; linarith
    · push_cast; ring
  refine ⟨g2, ?_⟩
  have t0 := siTerm_near le_rfl h1
  have t1 := siTerm_near le_rfl g1
  have t2 := siTerm_near le_rfl g2
  rw [abs_le] at h2 t0 t1 t2 ⊢
  simp only [siSum]
  push_cast
  constructor <;> linarith [h2.1, h2.2, t0.1, t0.2, t1.1, t1.2, t2.1, t2.2]

theorem siCheck_sound {e : ℤ × ℤ × ℤ} (l : List ℕ) : ∀ (n : ℕ) (C S A : ℤ), n + l.length ≤ 10 ^ 6 →
    siCheck l n C S A e = true → SiState n C S A →
    (∀ i (h : i < l.length), SiEntry (n + i) l[i]) ∧ SiState (n + l.length) e.1 e.2.1 e.2.2 := by
  induction l with
  | nil =>
    intro n C S A _ hc hs
    simp only [siCheck, Bool.and_eq_true, decide_eq_true_eq] at hc
    obtain ⟨⟨rfl, rfl⟩, rfl⟩ := hc
    exact ⟨fun i h => by simp at h, by simpa using hs⟩
  | cons t l ih =>
    intro n C S A hn hc hs
    simp only [List.length_cons] at hn
    simp only [siCheck, forceInt_eq, Bool.and_eq_true, decide_eq_true_eq] at hc
    obtain ⟨⟨u1, u2⟩, hc⟩ := hc
    obtain ⟨k1, k2⟩ := ih (n + 1) _ _ _ (by omega) hc (siState_succ (by omega) hs)
    refine ⟨fun i h => ?_, ?_⟩
    · cases i with
      | zero =>
        simp only [Nat.add_zero, List.getElem_cons_zero]
        have r1 : (3 * (siP:ℝ) * t - 5 * 10 ^ 11 * A) ≤ 324 * 10 ^ 22 := by exact_mod_cast u1
        have r2 : -(324 * 10 ^ 22) ≤ (3 * (siP:ℝ) * t - 5 * 10 ^ 11 * A) := by exact_mod_cast u2
        have h2 := abs_le.1 hs.2
        have hnr : (n:ℝ) ≤ 10 ^ 6 := by
          have : n ≤ 10 ^ 6 := by omega
          exact_mod_cast this
        have e : 3 * (siP:ℝ) * t / (5 * 10 ^ 29) - siSum n =
            (3 * (siP:ℝ) * t - 5 * 10 ^ 11 * A) / (5 * 10 ^ 29) + (A - 10 ^ 18 * siSum n) / 10 ^ 18 := by ring
        unfold SiEntry
        rw [e, abs_le]
        constructor
        · have a1 : -(324 * 10 ^ 22) / (5 * 10 ^ 29) ≤ (3 * (siP:ℝ) * t - 5 * 10 ^ 11 * A) / (5 * 10 ^ 29) := by gcongr
          have a2 : -(18 * n) / 10 ^ 18 ≤ ((A:ℝ) - 10 ^ 18 * siSum n) / 10 ^ 18 := by
            apply div_le_div_of_nonneg_right h2.1 (by norm_num)
          have a3 : -(18 * (10:ℝ) ^ 6) / 10 ^ 18 ≤ -(18 * (n:ℝ)) / 10 ^ 18 := by
            apply div_le_div_of_nonneg_right _ (by norm_num); linarith
          norm_num at a1 a2 a3 ⊢; linarith
        · have a1 : (3 * (siP:ℝ) * t - 5 * 10 ^ 11 * A) / (5 * 10 ^ 29) ≤ (324 * 10 ^ 22) / (5 * 10 ^ 29) := by gcongr
          have a2 : ((A:ℝ) - 10 ^ 18 * siSum n) / 10 ^ 18 ≤ (18 * n) / 10 ^ 18 := by
            apply div_le_div_of_nonneg_right h2.2 (by norm_num)
          have a3 : (18 * (n:ℝ)) / 10 ^ 18 ≤ (18 * (10:ℝ) ^ 6) / 10 ^ 18 := by
            apply div_le_div_of_nonneg_right _ (by norm_num); linarith
          norm_num at a1 a2 a3 ⊢; linarith
      | succ i =>
        have := k1 i (by simpa using h)
        rw [show n + (i + 1) = n + 1 + i by omega]; simpa using this
    · rw [List.length_cons, show n + (l.length + 1) = n + 1 + l.length by omega]; exact k2

theorem siCheckAll_sound (ps : List (List ℕ)) : ∀ (n : ℕ) (ss : List (ℤ × ℤ × ℤ)), n + ps.flatten.length ≤ 10 ^ 6 →
    siCheckAll ps n ss = true → (∀ s ∈ ss.head?, SiState n s.1 s.2.1 s.2.2) →
    ∀ i (h : i < ps.flatten.length), SiEntry (n + i) ps.flatten[i] := by
  induction ps with
  | nil => intro n ss _ _ _ i h; simp at h
  | cons p ps ih =>
    intro n ss hn hc hs i h
    rcases ss with _ | ⟨s, _ | ⟨s', ss⟩⟩
    · simp [siCheckAll] at hc
    · simp [siCheckAll] at hc
    · simp only [siCheckAll, Bool.and_eq_true] at hc
      simp only [List.flatten_cons, List.length_append] at hn h
      obtain ⟨k1, k2⟩ := siCheck_sound p n _ _ _ (by omega) hc.1 (hs s (by simp))
      have k3 := ih (n + p.length) (s' :: ss) (by omega) hc.2 (by simpa using k2)
      simp only [List.flatten_cons]
      by_cases hi : i < p.length
      · rw [List.getElem_append_left hi]; exact k1 i hi
      · rw [List.getElem_append_right (by omega)]
        have := k3 (i - p.length) (by omega)
        rwa [show n + p.length + (i - p.length) = n + i by omega] at this

theorem si_flatten : siParts.flatten = blRectDecimals := by unfold siParts blRectDecimals; rfl

theorem si_length : siParts.flatten.length = 5075 := by
  rw [si_flatten]; have := blRect_length; rwa [blRectTable, List.length_map] at this

theorem si_start : SiState 0 (10 ^ 18) 0 0 := by
  refine ⟨?_, by simp [siSum]⟩
  have : siVec (2 * 0) - intVec (10 ^ 18) 0 = 0 := by
    apply Complex.ext <;> norm_num [siVec, intVec]
  rw [this]; simp

theorem si_head : siStates.head? = some (10 ^ 18, 0, 0) := rfl

theorem si_entries (i : ℕ) (h : i < siParts.flatten.length) : SiEntry i siParts.flatten[i] := by
  have := siCheckAll_sound siParts 0 siStates (by rw [si_length]; norm_num) si_checked
    (by rw [si_head]; intro s hs; obtain rfl := Option.mem_some.1 hs; exact si_start) i h
  rwa [Nat.zero_add] at this

/-- The sine integral. -/
noncomputable def sineIntegral (x : ℝ) : ℝ := ∫ t in (0:ℝ)..x, Real.sinc t

theorem siSum_near (n : ℕ) (hn : n ≤ 5075) : |sineIntegral (Real.pi * n / 100) - siSum n| ≤ 14 / 10 ^ 8 := by
  have h := simpson_sum siTh_pos.le (g := siG) (A := siSum) (fun _ => rfl) rfl (fun _ => rfl) n
  have e : 2 * (n:ℝ) * siTh = Real.pi * n / 100 := by unfold siTh; ring
  rw [e] at h
  refine h.trans ?_
  have hnr : (n:ℝ) ≤ 5075 := by exact_mod_cast hn
  have hp : siTh ^ 5 ≤ (15708 / 10 ^ 6) ^ 5 := by
    refine pow_le_pow_left₀ siTh_pos.le (siTh_range.2.trans ?_) 5
    norm_num
  have h0 : 0 ≤ siTh ^ 5 / 36 := by have := siTh_pos; positivity
  calc (n:ℝ) * (siTh ^ 5 / 36) ≤ 5075 * ((15708 / 10 ^ 6) ^ 5 / 36) := by gcongr
    _ ≤ _ := by norm_num

theorem si_units {i t : ℕ} {v : ℚ} (hi : i ≤ 5075) (hle : t ≤ 10 ^ 9) (hv : |v - (t : ℚ) / 10 ^ 9| ≤ 1 / 2 ^ 25)
    (h1 : SiEntry i t) : |(v : ℝ) - 5 / (3 * Real.pi) * sineIntegral (Real.pi * i / 100)| ≤ 36 / 10 ^ 7 := by
  have h2 := siSum_near i hi
  unfold SiEntry at h1
  have hv' : |(v : ℝ) - (t : ℝ) / 10 ^ 9| ≤ 1 / 2 ^ 25 := by
    have := (Rat.cast_le (K := ℝ)).2 hv
    push_cast at this; exact this
  have hpl := Real.pi_gt_d20
  have hph := Real.pi_lt_d20
  have hpi : 0 < Real.pi := Real.pi_pos
  have htr : (t:ℝ) ≤ 10 ^ 9 := by exact_mod_cast hle
  have ht0 : (0:ℝ) ≤ t := by positivity
  -- the entry times three fifths of pi against the sum
  have h3 : |3 * Real.pi * t / (5 * 10 ^ 9) - 3 * (siP:ℝ) * t / (5 * 10 ^ 29)| ≤ 1 / 10 ^ 19 := by
    have e : 3 * Real.pi * t / (5 * 10 ^ 9) - 3 * (siP:ℝ) * t / (5 * 10 ^ 29) =
        (t / 10 ^ 9) * (3 / 5 * (Real.pi - siP / 10 ^ 20)) := by ring
    have hd2 : |3 / 5 * (Real.pi - siP / 10 ^ 20)| ≤ 1 / 10 ^ 19 := by
      rw [abs_le]; simp only [siP]; norm_num at hpl hph ⊢
      constructor <;> linarith
    rw [e, abs_mul, abs_of_nonneg (by positivity)]
    have : (t:ℝ) / 10 ^ 9 ≤ 1 := by rw [div_le_one (by norm_num)]; exact htr
    calc (t:ℝ) / 10 ^ 9 * _ ≤ 1 * (1 / 10 ^ 19) := by gcongr
      _ = _ := by norm_num
  have h4 : |3 * Real.pi * t / (5 * 10 ^ 9) - sineIntegral (Real.pi * i / 100)| ≤ 664 / 10 ^ 8 := by
    rw [abs_sub_comm] at h2
    have a := abs_sub_le (3 * Real.pi * t / (5 * 10 ^ 9)) (3 * (siP:ℝ) * t / (5 * 10 ^ 29)) (siSum i)
    have b := abs_sub_le (3 * Real.pi * t / (5 * 10 ^ 9)) (siSum i) (sineIntegral (Real.pi * i / 100))
    norm_num at a b h1 h2 h3 ⊢; linarith
  have h5 : |(t:ℝ) / 10 ^ 9 - 5 / (3 * Real.pi) * sineIntegral (Real.pi * i / 100)| ≤ 354 / 10 ^ 8 := by
    have e : (t:ℝ) / 10 ^ 9 - 5 / (3 * Real.pi) * sineIntegral (Real.pi * i / 100) =
        5 / (3 * Real.pi) * (3 * Real.pi * t / (5 * 10 ^ 9) - sineIntegral (Real.pi * i / 100)) := by field_simp
    rw [e, abs_mul, abs_of_pos (by positivity)]
    have hc : 5 / (3 * Real.pi) ≤ 5306 / 10000 := by
      rw [div_le_iff₀ (by positivity)]; norm_num at hpl ⊢; linarith
    calc 5 / (3 * Real.pi) * _ ≤ 5306 / 10000 * (664 / 10 ^ 8) := by gcongr
      _ ≤ _ := by norm_num
  have := abs_sub_le (v : ℝ) ((t:ℝ) / 10 ^ 9) (5 / (3 * Real.pi) * sineIntegral (Real.pi * i / 100))
  norm_num at this hv' h5 ⊢; linarith

theorem lit_near {t : ℕ} (hle : t ≤ 10 ^ 9) : |(F32.ofRat ((t:ℚ) / 10 ^ 9)).val - (t : ℚ) / 10 ^ 9| ≤ 1 / 2 ^ 25 := by
  have hq : |(t : ℚ) / 10 ^ 9| ≤ 1 := by
    rw [abs_of_nonneg (by positivity), div_le_one (by positivity)]
    have : (t : ℚ) ≤ (10 ^ 9 : ℕ) := by exact_mod_cast hle
    push_cast at this; exact this
  unfold F32.ofRat
  exact rnd_error_unit (s := false) hq

theorem si_table (ds : List ℕ) (vs : List F32) (hv : vs = ds.map (fun n : ℕ => F32.ofRat ((n:ℚ) / 10 ^ 9)))
    (hds : ∀ t ∈ ds, t ≤ 10 ^ 9) (hlen : ds.length ≤ 5075)
    (hE : ∀ i (h : i < ds.length), SiEntry i ds[i]) (i : ℕ) (h : i < vs.length) :
    |((vs[i].val : ℚ) : ℝ) - 5 / (3 * Real.pi) * sineIntegral (Real.pi * i / 100)| ≤ 36 / 10 ^ 7 := by
  subst hv
  rw [List.length_map] at h
  obtain ⟨t, ht⟩ : ∃ t, t = ds[i] := ⟨_, rfl⟩
  have hle : t ≤ 10 ^ 9 := hds t (ht ▸ List.getElem_mem h)
  have hE' := hE i h
  rw [← ht] at hE'
  simp only [List.getElem_map, ← ht]
  exact si_units (by omega) hle (lit_near hle) hE'

theorem blRect_map : blRectTable = blRectDecimals.map (fun n : ℕ => F32.ofRat ((n:ℚ) / 10 ^ 9)) := by
  unfold blRectTable; rw [blRectDigits]

/-- C144: entry `i` of the table is `5/(3 pi)` times the sine integral at `i` hundredths of pi, within 3.6 millionths,
for each of the 5075 entries. -/
theorem C144_table (i : ℕ) (h : i < blRectTable.length) :
    |((blRectTable[i].val : ℚ) : ℝ) - 5 / (3 * Real.pi) * sineIntegral (Real.pi * i / 100)| ≤ 36 / 10 ^ 7 := by
  refine si_table siParts.flatten blRectTable ?_ ?_ si_length.le si_entries i h
  · rw [si_flatten]; exact blRect_map
  · rw [si_flatten]; intro t ht
    have := List.all_eq_true.1 blRect_decimals t ht
    simpa using this

/-! ## Reading between the entries -/

theorem sinc_lipschitz (x y : ℝ) : |Real.sinc x - Real.sinc y| ≤ |x - y| / 2 := by
  have hi : ∀ z : ℝ, IntervalIntegrable (fun u : ℝ => Real.cos (u * z)) MeasureTheory.volume 0 1 := fun z =>
    Continuous.intervalIntegrable (by fun_prop) _ _
  rw [sinc_eq_integral, sinc_eq_integral, ← intervalIntegral.integral_sub (hi x) (hi y)]
  have h : ‖∫ u in (0:ℝ)..1, (Real.cos (u * x) - Real.cos (u * y))‖ ≤ ∫ u in (0:ℝ)..1, u * |x - y| := by
    refine intervalIntegral.norm_integral_le_of_norm_le (by norm_num) ?_ (Continuous.intervalIntegrable (by fun_prop) _ _)
    refine Filter.Eventually.of_forall fun u hu => ?_
    have := Real.abs_cos_sub_cos_le (u * x) (u * y)
    rw [← mul_sub, abs_mul, abs_of_pos hu.1] at this
    rw [Real.norm_eq_abs]; exact this
  rw [intervalIntegral.integral_mul_const, integral_id] at h
  rw [Real.norm_eq_abs] at h
  linarith

theorem sinc_integrable (a b : ℝ) : IntervalIntegrable Real.sinc MeasureTheory.volume a b :=
  Real.continuous_sinc.intervalIntegrable _ _

theorem sineIntegral_sub (a b : ℝ) : sineIntegral b - sineIntegral a = ∫ t in a..b, Real.sinc t := by
  unfold sineIntegral
  exact intervalIntegral.integral_interval_sub_left (sinc_integrable _ _) (sinc_integrable _ _)

/-- The sine integral against its tangent at either end of a cell. -/
theorem sineIntegral_tangent_left {a y : ℝ} (h : a ≤ y) :
    |sineIntegral y - sineIntegral a - (y - a) * Real.sinc y| ≤ (y - a) ^ 2 / 4 := by
  have e : sineIntegral y - sineIntegral a - (y - a) * Real.sinc y = ∫ t in a..y, (Real.sinc t - Real.sinc y) := by
    rw [intervalIntegral.integral_sub (sinc_integrable _ _) (by simp), sineIntegral_sub, intervalIntegral.integral_const, smul_eq_mul]
  have hb : ‖∫ t in a..y, (Real.sinc t - Real.sinc y)‖ ≤ ∫ t in a..y, (y - t) / 2 := by
    refine intervalIntegral.norm_integral_le_of_norm_le h ?_ (Continuous.intervalIntegrable (by fun_prop) _ _)
    refine Filter.Eventually.of_forall fun u hu => ?_
    rw [Real.norm_eq_abs]
    refine (sinc_lipschitz _ _).trans_eq ?_
    rw [abs_sub_comm, abs_of_nonneg (by linarith [hu.2])]
  have hi : ∫ t in a..y, (y - t) / 2 = (y - a) ^ 2 / 4 := by
    rw [intervalIntegral.integral_div, intervalIntegral.integral_sub (by simp) (Continuous.intervalIntegrable (by fun_prop) _ _),
      integral_id, intervalIntegral.integral_const, smul_eq_mul]; ring
  rw [e, ← hi]; exact hb

theorem sineIntegral_neg (x : ℝ) : sineIntegral (-x) = - sineIntegral x := by
  unfold sineIntegral
  have := intervalIntegral.integral_comp_neg (a := 0) (b := x) (f := Real.sinc)
  simp only [Real.sinc_neg, neg_zero] at this
  rw [this, intervalIntegral.integral_symm]

theorem sineIntegral_tangent_right {y b : ℝ} (h : y ≤ b) :
    |sineIntegral b - sineIntegral y - (b - y) * Real.sinc y| ≤ (b - y) ^ 2 / 4 := by
  have := sineIntegral_tangent_left (a := -b) (y := -y) (by linarith)
  rw [sineIntegral_neg, sineIntegral_neg, Real.sinc_neg] at this
  rw [show sineIntegral b - sineIntegral y - (b - y) * Real.sinc y = -sineIntegral y - -sineIntegral b - (-y - -b) * Real.sinc y by ring]
  refine this.trans_eq (by ring)

/-- Linear interpolation of the sine integral on a cell of width `h`. -/
theorem sineIntegral_lerp {a h w : ℝ} (hh : 0 ≤ h) (w0 : 0 ≤ w) (w1 : w ≤ 1) :
    |sineIntegral (a + w * h) - (sineIntegral a * (1 - w) + sineIntegral (a + h) * w)| ≤ h ^ 2 / 16 := by
  have wh0 : 0 ≤ w * h := by positivity
  have wh1 : 0 ≤ (1 - w) * h := mul_nonneg (by linarith) hh
  have l := abs_le.1 (sineIntegral_tangent_left (a := a) (y := a + w * h) (by linarith))
  have r := abs_le.1 (sineIntegral_tangent_right (y := a + w * h) (b := a + h) (by linarith))
  have q : w * (1 - w) ≤ 1 / 4 := by nlinarith [sq_nonneg (w - 1 / 2)]
  have q' : h ^ 2 / 4 * (w * (1 - w)) ≤ h ^ 2 / 4 * (1 / 4) := mul_le_mul_of_nonneg_left q (by positivity)
  have w1' : 0 ≤ 1 - w := by linarith
  have l1 := mul_le_mul_of_nonneg_left l.1 w1'
  have l2 := mul_le_mul_of_nonneg_left l.2 w1'
  have r1 := mul_le_mul_of_nonneg_left r.1 w0
  have r2 := mul_le_mul_of_nonneg_left r.2 w0
  rw [abs_le]
  constructor <;> nlinarith

theorem sineIntegral_lipschitz (x y : ℝ) : |sineIntegral x - sineIntegral y| ≤ |x - y| := by
  rw [sineIntegral_sub]
  have := intervalIntegral.norm_integral_le_of_norm_le_const (a := y) (b := x) (C := 1) (f := Real.sinc) (fun t _ => by
    rw [Real.norm_eq_abs]; exact Real.abs_sinc_le_one t)
  rwa [one_mul, Real.norm_eq_abs] at this

/-- The blend of two entries, against the exact blend. -/
theorem lerp_unit_near {a b t : F32} {τ : ℚ} (ha : a.isFin = true) (hb : b.isFin = true) (ht : t.isFin = true) (a0 : 0 ≤ a.val)
    (a1 : a.val ≤ 1) (b0 : 0 ≤ b.val) (b1 : b.val ≤ 1) (t0 : 0 ≤ t.val) (t1 : t.val ≤ 1) (hτ : |t.val - τ| ≤ 1 / 2 ^ 25) :
    |(Interpolation.lerpUnchecked a b t).val - (a.val * (1 - τ) + b.val * τ)| ≤ 1 / 10 ^ 6 := by
  unfold Interpolation.lerpUnchecked
  have es : (lit 1 - t : F32) = rnd ((lit 1 : F32).neg && !t.neg) (1 - t.val) := by rw [sub_fin lit1_fin ht, lit1_val]
  have sle : |1 - t.val| ≤ 1 := by rw [abs_of_nonneg (by linarith)]; linarith
  have sf : (lit 1 - t : F32).isFin = true := by
    rw [es]; exact rnd_fin lit1_fin (by rw [lit1_val, abs_one]; exact sle)
  have s0 : 0 ≤ (lit 1 - t : F32).val := by rw [es]; exact rnd_val_nonneg (by linarith)
  have serr := rnd_error_unit (s := (lit 1 : F32).neg && !t.neg) sle
  rw [← es] at serr
  obtain ⟨s, hs⟩ : ∃ s, s = (lit 1 - t : F32) := ⟨_, rfl⟩
  rw [← hs] at sf s0 serr ⊢
  have serr' := abs_le.1 serr
  have hτ' := abs_le.1 hτ
  have s1 : s.val ≤ 2 := by linarith [serr'.2]
  obtain ⟨f1, e1⟩ := mul_near ha sf (B := 2) (by rw [abs_of_nonneg (by positivity)]; nlinarith) (by norm_num)
  obtain ⟨f2, e2⟩ := mul_near hb ht (B := 1) (by rw [abs_of_nonneg (by positivity)]; nlinarith) (by norm_num)
  have e1' := abs_le.1 e1
  have e2' := abs_le.1 e2
  have m1 : a.val * s.val ≤ 2 := by nlinarith
  have m2 : b.val * t.val ≤ 1 := by nlinarith
  have m3 : 0 ≤ a.val * s.val := by positivity
  have m4 : 0 ≤ b.val * t.val := by positivity
  obtain ⟨f3, e3⟩ := add_near f1 f2 (B := 4) (by
    rw [abs_le]; constructor <;> linarith [e1'.1, e1'.2, e2'.1, e2'.2]) (by norm_num)
  have e3' := abs_le.1 e3
  have k1 : |a.val * (s.val - (1 - τ))| ≤ 2 / 2 ^ 25 := by
    rw [abs_mul, abs_of_nonneg a0]
    have : |s.val - (1 - τ)| ≤ 2 / 2 ^ 25 := by rw [abs_le]; constructor <;> linarith [serr'.1, serr'.2, hτ'.1, hτ'.2]
    nlinarith [abs_nonneg (s.val - (1 - τ))]
  have k2 : |b.val * (t.val - τ)| ≤ 1 / 2 ^ 25 := by
    rw [abs_mul, abs_of_nonneg b0]; nlinarith [abs_nonneg (t.val - τ)]
  have k1' := abs_le.1 k1
  have k2' := abs_le.1 k2
  rw [abs_le]
  norm_num at *
  constructor <;> linarith [e1'.1, e1'.2, e2'.1, e2'.2, e3'.1, e3'.2, k1'.1, k1'.2, k2'.1, k2'.2]

theorem blRect_index_lt (c : Cfg) {f g : F32} (hf : f.isFin = true) (h0 : 0 ≤ f.val) (h1 : f.val < 1)
    (hg : g = f * c.u2f 5074) : g.val < 5074 := by
  have uf := c.u2f_fin (n := 5074) (by norm_num)
  have uv := c.u2f_val (n := 5074) (by norm_num)
  obtain ⟨s, eg⟩ : ∃ s, f * c.u2f 5074 = rnd s (f.val * 5074) := ⟨_, by rw [mul_fin hf uf, uv]; norm_num; rfl⟩
  have hf24 : f.val ≤ 1 - 1 / 2 ^ 24 := by
    rcases le_or_gt f.val (1 / 2) with h | h
    · exact h.trans (by norm_num)
    · obtain ⟨n, hn⟩ := grid_of_ge hf (j := -24) (by norm_num) (by
        rw [abs_of_nonneg h0]; exact le_trans (by norm_num) h.le)
      have hz : (2:ℚ) ^ (-24 : Int) = 1 / 2 ^ 24 := by norm_num
      rw [hz] at hn
      have : (n : ℚ) < 2 ^ 24 := by rw [hn] at h1; linarith
      have : n < 2 ^ 24 := by exact_mod_cast this
      have : n ≤ 2 ^ 24 - 1 := by omega
      have : (n : ℚ) ≤ ((2 ^ 24 - 1 : Int) : ℚ) := by exact_mod_cast this
      push_cast at this
      rw [hn]; linarith
  obtain ⟨y, yf, yv⟩ : Rep (5074 - 1 / 2 ^ 11) :=
    rep_of_zpow (m := 10391551) (e := -11) (by norm_num) (by norm_num) (by norm_num) (by rw [abs_of_pos] <;> norm_num)
  have q0 : 0 ≤ f.val * 5074 := by positivity
  have gfin : g.isFin = true := by
    rw [hg, eg]
    exact rnd_fin uf (by rw [uv, abs_of_nonneg q0]; norm_num; linarith)
  rcases le_or_gt (f.val * 5074) (5074 - 1 / 2 ^ 11) with h | h
  · have := rnd_le (s := s) (isFin.not_nan yf) (q := f.val * 5074) (by rw [yv]; exact h)
    rw [← eg, ← hg, yv] at this
    exact lt_of_le_of_lt this (by norm_num)
  · have hn := rnd_nearest (s := s) (q := f.val * 5074) (y := y) (by rw [← eg, ← hg]; exact gfin)
    rw [← eg, ← hg, yv, abs_of_neg (show 5074 - 1 / 2 ^ 11 - f.val * 5074 < 0 by linarith)] at hn
    have := (abs_le.1 hn).2
    norm_num at *; linarith

/-- The four errors together: the index, the table, the chord and the blend. -/
theorem read_combine {i : ℕ} {v f g a b : ℚ} (gerr : |g - f * 5074| ≤ 1 / 2 ^ 150 + 5074 / 2 ^ 24)
    (d0 : 0 ≤ g - i) (d1 : g - i ≤ 1) (hn : |v - (a * (1 - (g - i)) + b * (g - i))| ≤ 1 / 10 ^ 6)
    (ta : |(a : ℝ) - 5 / (3 * Real.pi) * sineIntegral (Real.pi * i / 100)| ≤ 36 / 10 ^ 7)
    (tb : |(b : ℝ) - 5 / (3 * Real.pi) * sineIntegral (Real.pi * (i + 1 : ℕ) / 100)| ≤ 36 / 10 ^ 7) :
    |(v : ℝ) - 5 / (3 * Real.pi) * sineIntegral (5074 * Real.pi / 100 * f)| ≤ 45 / 10 ^ 6 := by
  have hpl := Real.pi_gt_d20
  have hph := Real.pi_lt_d20
  have hpi := Real.pi_pos
  obtain ⟨K, hK⟩ : ∃ K, K = 5 / (3 * Real.pi) := ⟨_, rfl⟩
  have K0 : 0 < K := by rw [hK]; positivity
  have K1 : K ≤ 5306 / 10000 := by
    rw [hK, div_le_iff₀ (by positivity)]; norm_num at hpl ⊢; linarith
  rw [← hK] at ta tb ⊢
  have hn' : |(v:ℝ) - (a * (1 - (g - i)) + b * (g - i))| ≤ 1 / 10 ^ 6 := by
    have := (Rat.cast_le (K := ℝ)).2 hn
    push_cast at this; exact this
  have gerr' : |(g:ℝ) - f * 5074| ≤ 1 / 2 ^ 150 + 5074 / 2 ^ 24 := by
    have := (Rat.cast_le (K := ℝ)).2 gerr
    push_cast at this; exact this
  obtain ⟨w, hw⟩ : ∃ w : ℝ, w = g - i := ⟨_, rfl⟩
  have w0 : 0 ≤ w := by rw [hw]; exact_mod_cast d0
  have w1 : w ≤ 1 := by rw [hw]; exact_mod_cast d1
  rw [← hw] at hn'
  have hc := sineIntegral_lerp (a := Real.pi * i / 100) (h := Real.pi / 100) (by positivity) w0 w1
  rw [show Real.pi * i / 100 + w * (Real.pi / 100) = Real.pi / 100 * g by rw [hw]; ring,
    show Real.pi * i / 100 + Real.pi / 100 = Real.pi * (i + 1 : ℕ) / 100 by push_cast; ring] at hc
  have hlip := sineIntegral_lipschitz (Real.pi / 100 * g) (5074 * Real.pi / 100 * f)
  have hx : |Real.pi / 100 * g - 5074 * Real.pi / 100 * f| ≤ 96 / 10 ^ 7 := by
    rw [show Real.pi / 100 * g - 5074 * Real.pi / 100 * f = Real.pi / 100 * (g - f * 5074) by ring, abs_mul,
      abs_of_pos (by positivity)]
    have hp : Real.pi / 100 ≤ 3142 / 100000 := by norm_num at hph ⊢; linarith
    calc Real.pi / 100 * |(g:ℝ) - f * 5074| ≤ (3142 / 100000) * (1 / 2 ^ 150 + 5074 / 2 ^ 24) :=
          mul_le_mul hp gerr' (abs_nonneg _) (by norm_num)
      _ ≤ _ := by norm_num
  have hsq : (Real.pi / 100) ^ 2 / 16 ≤ 617 / 10 ^ 7 := by
    have : (Real.pi / 100) ^ 2 ≤ (31416 / 1000000) ^ 2 := by
      refine pow_le_pow_left₀ (by positivity) ?_ 2
      norm_num at hph ⊢; linarith
    norm_num at this ⊢; linarith
  obtain ⟨A, hA⟩ : ∃ A, A = sineIntegral (Real.pi * i / 100) := ⟨_, rfl⟩
  obtain ⟨B, hB⟩ : ∃ B, B = sineIntegral (Real.pi * (i + 1 : ℕ) / 100) := ⟨_, rfl⟩
  obtain ⟨G, hG⟩ : ∃ G, G = sineIntegral (Real.pi / 100 * g) := ⟨_, rfl⟩
  obtain ⟨F, hF⟩ : ∃ F, F = sineIntegral (5074 * Real.pi / 100 * f) := ⟨_, rfl⟩
  rw [← hA] at ta hc
  rw [← hB] at tb hc
  rw [← hG] at hc hlip
  rw [← hF] at hlip ⊢
  have h1 : |(a:ℝ) * (1 - w) + b * w - K * (A * (1 - w) + B * w)| ≤ 36 / 10 ^ 7 := by
    rw [abs_le] at ta tb ⊢
    constructor <;> nlinarith [ta.1, ta.2, tb.1, tb.2]
  have h2 : |K * (A * (1 - w) + B * w) - K * G| ≤ 328 / 10 ^ 7 := by
    rw [← mul_sub, abs_mul, abs_of_pos K0, abs_sub_comm]
    calc K * |G - (A * (1 - w) + B * w)| ≤ 5306 / 10000 * (617 / 10 ^ 7) := by
          gcongr; exact hc.trans hsq
      _ ≤ _ := by norm_num
  have h3 : |K * G - K * F| ≤ 51 / 10 ^ 7 := by
    rw [← mul_sub, abs_mul, abs_of_pos K0]
    calc K * |G - F| ≤ 5306 / 10000 * (96 / 10 ^ 7) := by
          gcongr; exact hlip.trans hx
      _ ≤ _ := by norm_num
  rw [abs_le] at hn' h1 h2 h3 ⊢
  norm_num at *
  constructor <;> linarith [hn'.1, hn'.2, h1.1, h1.2, h2.1, h2.2, h3.1, h3.2]

/-- Reading at a folded position follows the sine integral. -/
theorem blRectRead_near (c : Cfg) {f : F32} (hf : f.isFin = true) (h0 : 0 ≤ f.val) (h1 : f.val < 1) :
    ∃ r, blRectRead c f = .ok r ∧
      |((r.val : ℚ) : ℝ) - 5 / (3 * Real.pi) * sineIntegral (5074 * Real.pi / 100 * f.val)| ≤ 45 / 10 ^ 6 := by
  have uf := c.u2f_fin (n := 5074) (by norm_num)
  have uv := c.u2f_val (n := 5074) (by norm_num)
  obtain ⟨s, eg⟩ : ∃ s, f * c.u2f 5074 = rnd s (f.val * 5074) := ⟨_, by rw [mul_fin hf uf, uv]; norm_num; rfl⟩
  obtain ⟨g, hg⟩ : ∃ g, g = f * c.u2f 5074 := ⟨_, rfl⟩
  have q0 : 0 ≤ f.val * 5074 := by positivity
  have gfin : g.isFin = true := by
    rw [hg, eg]
    exact rnd_fin uf (by rw [uv, abs_of_nonneg q0]; norm_num; linarith)
  have g0 : 0 ≤ g.val := by rw [hg, eg]; exact rnd_val_nonneg q0
  have gerr : |g.val - f.val * 5074| ≤ 1 / 2 ^ 150 + 5074 / 2 ^ 24 := by
    have := rnd_abs_error (s := s) (q := f.val * 5074) (b := 5074) (by rw [← eg, ← hg]; exact gfin)
      (by rw [abs_of_nonneg q0]; linarith)
    rwa [← eg, ← hg] at this
  have g1 : g.val < 5074 := blRect_index_lt c hf h0 h1 hg
  have hfl0 : 0 ≤ ⌊g.val⌋ := Int.floor_nonneg.2 g0
  have hfl1 : ⌊g.val⌋ < 5074 := Int.floor_lt.2 (by push_cast; exact g1)
  have hmax : (2:Nat) ^ 16 - 1 ≤ c.usizeMax := by unfold Cfg.usizeMax; have := w_big c; omega
  obtain ⟨i, hi⟩ : ∃ i, i = c.f2u g := ⟨_, rfl⟩
  have hii : (i : Int) = ⌊g.val⌋ := by rw [hi, c.f2u_nonneg (isFin.not_nan gfin) g0]; omega
  have hilt : i < 5074 := by omega
  have hir : (i : ℚ) = ⌊g.val⌋ := by rw [← hii]; simp
  have hl := blRect_length
  have hi1 : i < blRectTable.length := by rw [hl]; omega
  have hi2 : i + 1 < blRectTable.length := by rw [hl]; omega
  have ta := C144_table i hi1
  have tb := C144_table (i + 1) hi2
  obtain ⟨af, a0, a1⟩ := blRect_entry (List.getElem_mem hi1)
  obtain ⟨bf, b0, b1⟩ := blRect_entry (List.getElem_mem hi2)
  obtain ⟨a, hav⟩ : ∃ a, a = blRectTable[i] := ⟨_, rfl⟩
  obtain ⟨b, hbv⟩ : ∃ b, b = blRectTable[i + 1] := ⟨_, rfl⟩
  have hread : blRectRead c f = .ok (Interpolation.lerpUnchecked a b (g - c.u2f i)) := by
    unfold blRectRead MemorySlice.lerpUnchecked
    rw [← hg, ← hi, blRect_load_in hi1, c.uadd_eq (by have := w_big c; omega)]
    simp only [bind, Except.bind, blRect_load_in hi2, pure, Except.pure, ← hav, ← hbv]
  rw [← hav] at ta af a0 a1
  rw [← hbv] at tb bf b0 b1
  have iuf := c.u2f_fin (n := i) (by omega)
  have iuv := c.u2f_val (n := i) (by omega)
  have fl1 : (i : ℚ) ≤ g.val := by rw [hir]; exact Int.floor_le _
  have fl2 : g.val ≤ i + 1 := by rw [hir]; exact (Int.lt_floor_add_one _).le
  have et : g - c.u2f i = rnd (g.neg && !(c.u2f i).neg) (g.val - i) := by rw [sub_fin gfin iuf, iuv]
  have d0 : 0 ≤ g.val - i := by linarith
  have d1 : |g.val - i| ≤ 1 := by rw [abs_of_nonneg d0]; linarith
  have dle : |g.val - i| ≤ |(lit 1 : F32).val| := by rw [lit1_val, abs_one]; exact d1
  obtain ⟨t, htd⟩ : ∃ t, t = g - c.u2f i := ⟨_, rfl⟩
  rw [← htd] at et hread
  have tf : t.isFin = true := by rw [et]; exact rnd_fin lit1_fin dle
  have t0 : 0 ≤ t.val := by rw [et]; exact rnd_val_nonneg d0
  have t1 : t.val ≤ 1 := by
    have := rnd_abs_le (s := g.neg && !(c.u2f i).neg) dle
    rw [lit1_val, abs_one, ← et] at this
    exact (le_abs_self _).trans this
  have terr : |t.val - (g.val - i)| ≤ 1 / 2 ^ 25 := by rw [et]; exact rnd_error_unit d1
  have hn := lerp_unit_near af bf tf a0 a1 b0 b1 t0 t1 terr
  refine ⟨_, hread, ?_⟩
  exact read_combine (v := (Interpolation.lerpUnchecked a b t).val) gerr d0 (by linarith) hn ta tb

/-- One period of the specified wave: five sixths of the band-limited step `2/pi Si` from 0 up to 50.74 pi, back down
again, and then the same negated. -/
noncomputable def blRectWave (v : ℚ) : ℝ :=
  (if v ≤ 1/2 then 1 else -1) * (5 / (3 * Real.pi) * sineIntegral (5074 * Real.pi / 100 * quarterFold v))

/-- C145: wherever the lookup stays in its table, it follows that wave within 45 millionths, in every build. -/
theorem C145_lookup (c : Cfg) {x : F32} (h0 : 0 < x.val) (h1 : x.val < 1) (hne : x.val ≠ 1/4) (hne' : x.val ≠ 3/4) :
    ∃ r, lookupBlRect c x = .ok r ∧ |((r.val : ℚ) : ℝ) - blRectWave x.val| ≤ 45 / 10 ^ 6 := by
  obtain ⟨b0, b1, b2⟩ := quarterFold_bounds h0 h1
  obtain ⟨f, ff, fv, he⟩ := lookup_inside c h0 h1
  have hlt : f.val < 1 := by
    rw [fv]; refine lt_of_le_of_ne b1 fun h => ?_
    exact (b2.1 h).elim hne hne'
  obtain ⟨r, hr, hn⟩ := blRectRead_near c ff (by rw [fv]; exact b0) hlt
  obtain ⟨r', hr', rf, _, _⟩ := blRectRead_in c ff (by rw [fv]; exact b0) hlt
  obtain rfl : r' = r := by rw [hr] at hr'; cases hr'; rfl
  rw [fv] at hn
  rw [he, hr]
  unfold blRectWave
  split_ifs with h
  · exact ⟨r', rfl, by rw [one_mul]; exact hn⟩
  · obtain ⟨mf, mv⟩ := minus_one_mul rf
    refine ⟨_, rfl, ?_⟩
    rw [mv]; push_cast
    rw [show -(r'.val : ℝ) - -1 * (5 / (3 * Real.pi) * sineIntegral (5074 * Real.pi / 100 * quarterFold x.val)) =
      -((r'.val : ℝ) - 5 / (3 * Real.pi) * sineIntegral (5074 * Real.pi / 100 * quarterFold x.val)) by ring, abs_neg]
    exact hn

example : 100 < blRectTable.length := by rw [blRect_length]; norm_num
example : 0 < (lit (1/3) : F32).val ∧ (lit (1/3) : F32).val < 1 ∧ (lit (1/3) : F32).val ≠ 1/4 ∧ (lit (1/3) : F32).val ≠ 3/4 := by
  decide +kernel

end Verif.FMath
