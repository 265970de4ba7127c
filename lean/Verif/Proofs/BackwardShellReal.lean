import Verif.Proofs.BackwardShellRun
import Verif.Proofs.SeqBessel

/-!
# Solvability with the computed functions at real arguments

The sequences of the torch versions satisfy the three-term recurrence exactly, so their Casorati determinant is constant; at real arguments
the interface equations are then uniquely solvable.
-/

namespace MieDiff

open Complex Spec Filter Topology

/-- Real sequences with the recurrence of the spherical Bessel functions that are linearly independent. -/
structure RealSeq (B : BessFn) (n : ℕ) (z : ℂ) : Prop where
  ne : z ≠ 0
  real : z.im = 0
  jreal : ∀ k ≤ n, (B.j z k).im = 0
  yreal : ∀ k ≤ n, (B.y z k).im = 0
  jrec : ∀ k, k + 2 ≤ n → B.j z (k + 2) = (2 * (k : ℂ) + 3) / z * B.j z (k + 1) - B.j z k
  yrec : ∀ k, k + 2 ≤ n → B.y z (k + 2) = (2 * (k : ℂ) + 3) / z * B.y z (k + 1) - B.y z k
  cas : B.j z 1 * B.y z 0 - B.j z 0 * B.y z 1 ≠ 0

theorem casorati {J Y : ℕ → ℂ} {z : ℂ} {n : ℕ} (hJ : ∀ k, k + 2 ≤ n → J (k + 2) = (2 * (k : ℂ) + 3) / z * J (k + 1) - J k)
    (hY : ∀ k, k + 2 ≤ n → Y (k + 2) = (2 * (k : ℂ) + 3) / z * Y (k + 1) - Y k) :
    ∀ k, k + 1 ≤ n → J (k + 1) * Y k - J k * Y (k + 1) = J 1 * Y 0 - J 0 * Y 1
  | 0, _ => rfl
  | k + 1, h => by
    rw [← casorati hJ hY k (by omega), show k + 1 + 1 = k + 2 from rfl, hJ k h, hY k h]
    ring

/-- Value and derivative of the Riccati functions from a sequence, at order `i + 1`. -/
theorem der_ric {f : ℕ → ℂ} {z : ℂ} (hz : z ≠ 0) (i : ℕ) :
    f (i + 1) + z * derFn z f (i + 1) = z * f i - ((i : ℂ) + 1) * f (i + 1) := by
  unfold derFn
  push_cast
  field_simp
  ring

theorem real_mul {a b : ℂ} (ha : a.im = 0) (hb : b.im = 0) : (a * b).im = 0 := by simp [ha, hb]

theorem real_sub {a b : ℂ} (ha : a.im = 0) (hb : b.im = 0) : (a - b).im = 0 := by simp [ha, hb]

theorem real_div {a b : ℂ} (ha : a.im = 0) (hb : b.im = 0) : (a / b).im = 0 := by
  lift a to ℝ using ha
  lift b to ℝ using hb
  rw [← ofReal_div]
  exact ofReal_im _

/-- Two independent real solutions: the pair with factor `i` has no real combination that vanishes. -/
theorem pair_zero {a b c d P Q : ℂ} (ha : a.im = 0) (hb : b.im = 0) (hc : c.im = 0) (hd : d.im = 0) (hP : P.im = 0) (hQ : Q.im = 0)
    (hw : a * d - b * c ≠ 0) (h : (b - I * d) * P - (a - I * c) * Q = 0) : P = 0 ∧ Q = 0 := by
  lift a to ℝ using ha
  lift b to ℝ using hb
  lift c to ℝ using hc
  lift d to ℝ using hd
  lift P to ℝ using hP
  lift Q to ℝ using hQ
  have e1 := congrArg Complex.re h
  have e2 := congrArg Complex.im h
  simp at e1 e2
  have hw' : a * d - b * c ≠ 0 := by
    intro h0
    exact hw (by exact_mod_cast h0)
  constructor
  · have : (a * d - b * c) * P = 0 := by linear_combination (-a) * e2 - c * e1
    exact_mod_cast (mul_eq_zero.1 this).resolve_left hw'
  · have : (a * d - b * c) * Q = 0 := by linear_combination (-b) * e2 - d * e1
    exact_mod_cast (mul_eq_zero.1 this).resolve_left hw'

theorem lin_zero {a b c d A B : ℂ} (hw : a * d - b * c ≠ 0) (h1 : A * a - B * c = 0) (h2 : A * b - B * d = 0) : A = 0 ∧ B = 0 := by
  constructor
  · have : (a * d - b * c) * A = 0 := by linear_combination d * h1 - c * h2
    exact (mul_eq_zero.1 this).resolve_left hw
  · have : (a * d - b * c) * B = 0 := by linear_combination b * h1 - a * h2
    exact (mul_eq_zero.1 this).resolve_left hw

/-- What the Riccati functions of a real sequence satisfy. -/
structure RealJets (psi dpsi chi dchi : ℂ) : Prop where
  p : psi.im = 0
  dp : dpsi.im = 0
  c : chi.im = 0
  dc : dchi.im = 0
  w : psi * dchi - dpsi * chi ≠ 0

theorem RealSeq.jets {B : BessFn} {n : ℕ} {z : ℂ} (h : RealSeq B n z) {i : ℕ} (hi : i + 1 ≤ n) :
    RealJets (z * B.j z (i + 1)) (B.j z (i + 1) + z * derFn z (B.j z) (i + 1)) (-z * B.y z (i + 1))
      (-B.y z (i + 1) - z * derFn z (B.y z) (i + 1)) := by
  have ej := der_ric (f := B.j z) h.ne i
  have ey := der_ric (f := B.y z) h.ne i
  have ey' : -B.y z (i + 1) - z * derFn z (B.y z) (i + 1) = -(z * B.y z i - ((i : ℂ) + 1) * B.y z (i + 1)) := by rw [← ey]; ring
  rw [ej, ey']
  have hi1 : (((i : ℂ) + 1)).im = 0 := by simp
  have r1 := real_sub (real_mul h.real (h.jreal i (by omega))) (real_mul hi1 (h.jreal (i + 1) hi))
  have r2 := real_sub (real_mul h.real (h.yreal i (by omega))) (real_mul hi1 (h.yreal (i + 1) hi))
  refine ⟨real_mul h.real (h.jreal _ hi), r1, real_mul (by simp [h.real]) (h.yreal _ hi), by rw [neg_im, r2, neg_zero], ?_⟩
  have := casorati h.jrec h.yrec i hi
  have e : z * B.j z (i + 1) * -(z * B.y z i - ((i : ℂ) + 1) * B.y z (i + 1)) -
      (z * B.j z i - ((i : ℂ) + 1) * B.j z (i + 1)) * (-z * B.y z (i + 1)) =
      -(z ^ 2 * (B.j z (i + 1) * B.y z i - B.j z i * B.y z (i + 1))) := by ring
  rw [e, this]
  exact neg_ne_zero.2 (mul_ne_zero (pow_ne_zero 2 h.ne) h.cas)

/-- With real indices and real independent sequences at all arguments the computed interface equations are uniquely solvable. -/
theorem real_solvable {Fy F1x F2x F2y : BessFn} {n : ℕ} {x y m1 m2 : ℂ} (r1 : m1.im = 0) (r2 : m2.im = 0) (n1 : m1 ≠ 0) (n2 : m2 ≠ 0)
    (hy : RealSeq Fy n y) (h1 : RealSeq F1x n (m1 * x)) (h2 : RealSeq F2x n (m2 * x)) (h3 : RealSeq F2y n (m2 * y)) {i : ℕ} (hi1 : 1 ≤ i)
    (hi : i ≤ n) : coatedDetTM (fnIn Fy F1x F2x F2y x y m1 m2 i).data ≠ 0 ∧ coatedDetTE (fnIn Fy F1x F2x F2y x y m1 m2 i).data ≠ 0 := by
  obtain ⟨i, rfl⟩ : ∃ k, i = k + 1 := ⟨i - 1, by omega⟩
  have jy := hy.jets hi
  have j1 := h1.jets hi
  have j2 := h2.jets hi
  have j3 := h3.jets hi
  have ex : y * (Fy.j y (i + 1) + I * Fy.y y (i + 1)) = y * Fy.j y (i + 1) - I * (-y * Fy.y y (i + 1)) := by ring
  have edx : Fy.j y (i + 1) + I * Fy.y y (i + 1) + y * (derFn y (Fy.j y) (i + 1) + I * derFn y (Fy.y y) (i + 1)) =
      (Fy.j y (i + 1) + y * derFn y (Fy.j y) (i + 1)) - I * (-Fy.y y (i + 1) - y * derFn y (Fy.y y) (i + 1)) := by ring
  simp only [coatedDetTM, coatedDetTE, CoreShellIn.data, fnIn, ex, edx]
  generalize y * Fy.j y (i + 1) = a, Fy.j y (i + 1) + y * derFn y (Fy.j y) (i + 1) = b, -y * Fy.y y (i + 1) = c,
    -Fy.y y (i + 1) - y * derFn y (Fy.y y) (i + 1) = d at jy ⊢
  generalize (m1 * x) * F1x.j (m1 * x) (i + 1) = p1, F1x.j (m1 * x) (i + 1) + (m1 * x) * derFn (m1 * x) (F1x.j (m1 * x)) (i + 1) = p1',
    -(m1 * x) * F1x.y (m1 * x) (i + 1) = e1, -F1x.y (m1 * x) (i + 1) - (m1 * x) * derFn (m1 * x) (F1x.y (m1 * x)) (i + 1) = e1' at j1 ⊢
  generalize (m2 * x) * F2x.j (m2 * x) (i + 1) = p2, F2x.j (m2 * x) (i + 1) + (m2 * x) * derFn (m2 * x) (F2x.j (m2 * x)) (i + 1) = p2',
    -(m2 * x) * F2x.y (m2 * x) (i + 1) = c2, -F2x.y (m2 * x) (i + 1) - (m2 * x) * derFn (m2 * x) (F2x.y (m2 * x)) (i + 1) = c2' at j2 ⊢
  generalize (m2 * y) * F2y.j (m2 * y) (i + 1) = q2, F2y.j (m2 * y) (i + 1) + (m2 * y) * derFn (m2 * y) (F2y.j (m2 * y)) (i + 1) = q2',
    -(m2 * y) * F2y.y (m2 * y) (i + 1) = e2, -F2y.y (m2 * y) (i + 1) - (m2 * y) * derFn (m2 * y) (F2y.y (m2 * y)) (i + 1) = e2' at j3 ⊢
  have w2 : c2' * p2 - c2 * p2' ≠ 0 := fun h => j2.w (by linear_combination h)
  have wy : ∀ s : ℂ, s ≠ 0 → (s * b) * c - a * (s * d) ≠ 0 := fun s hs h => jy.w (by
    have : s * (a * d - b * c) = 0 := by linear_combination -h
    exact (mul_eq_zero.1 this).resolve_left hs)
  constructor
  · intro h0
    have rA := real_sub (real_mul (real_mul r1 j2.dc) j1.p) (real_mul (real_mul r2 j2.c) j1.dp)
    have rB := real_sub (real_mul (real_mul r1 j2.dp) j1.p) (real_mul (real_mul r2 j2.p) j1.dp)
    obtain ⟨hP, hQ⟩ := pair_zero (a := a) (b := b) (c := c) (d := d)
      (P := m2 * ((m1 * c2' * p1 - m2 * c2 * p1') * q2 - (m1 * p2' * p1 - m2 * p2 * p1') * e2))
      (Q := (m1 * c2' * p1 - m2 * c2 * p1') * q2' - (m1 * p2' * p1 - m2 * p2 * p1') * e2') jy.p jy.dp jy.c jy.dc
      (real_mul r2 (real_sub (real_mul rA j3.p) (real_mul rB j3.c)))
      (real_sub (real_mul rA j3.dp) (real_mul rB j3.dc)) jy.w (by linear_combination h0)
    obtain ⟨hA, hB⟩ := lin_zero j3.w ((mul_eq_zero.1 hP).resolve_left n2) hQ
    have h1 : (m1 * p1) * c2' - (m2 * p1') * c2 = 0 := by linear_combination hA
    have h2 : (m1 * p1) * p2' - (m2 * p1') * p2 = 0 := by linear_combination hB
    obtain ⟨z1, z2⟩ := lin_zero (a := c2') (b := p2') (c := c2) (d := p2) (fun h => w2 (by linear_combination h)) h1 h2
    have z1 := (mul_eq_zero.1 z1).resolve_left n1
    have z2 := (mul_eq_zero.1 z2).resolve_left n2
    exact j1.w (by rw [z1, z2]; ring)
  · intro h0
    have rA := real_sub (real_mul (real_mul r2 j2.dc) j1.p) (real_mul (real_mul r1 j2.c) j1.dp)
    have rB := real_sub (real_mul (real_mul r2 j2.dp) j1.p) (real_mul (real_mul r1 j2.p) j1.dp)
    obtain ⟨hP, hQ⟩ := pair_zero (a := a) (b := b) (c := c) (d := d)
      (P := (m2 * c2' * p1 - m1 * c2 * p1') * q2 - (m2 * p2' * p1 - m1 * p2 * p1') * e2)
      (Q := m2 * ((m2 * c2' * p1 - m1 * c2 * p1') * q2' - (m2 * p2' * p1 - m1 * p2 * p1') * e2')) jy.p jy.dp jy.c jy.dc
      (real_sub (real_mul rA j3.p) (real_mul rB j3.c))
      (real_mul r2 (real_sub (real_mul rA j3.dp) (real_mul rB j3.dc))) jy.w (by linear_combination h0)
    obtain ⟨hA, hB⟩ := lin_zero j3.w hP ((mul_eq_zero.1 hQ).resolve_left n2)
    have h1 : (m2 * p1) * c2' - (m1 * p1') * c2 = 0 := by linear_combination hA
    have h2 : (m2 * p1) * p2' - (m1 * p1') * p2 = 0 := by linear_combination hB
    obtain ⟨z1, z2⟩ := lin_zero (a := c2') (b := p2') (c := c2) (d := p2) (fun h => w2 (by linear_combination h)) h1 h2
    have z1 := (mul_eq_zero.1 z1).resolve_left n2
    have z2 := (mul_eq_zero.1 z2).resolve_left n1
    exact j1.w (by rw [z1, z2]; ring)

/-! ## The computed sequences -/

theorem yUp_eq {z : ℂ} (hz : z ≠ 0) : ∀ k, yUp z k = sphY k z
  | 0 => by rw [yUp, sphY_zero]; ring
  | 1 => by rw [yUp, sphY_one hz]; ring
  | k + 2 => by
    rw [yUp, yUp_eq hz (k + 1), yUp_eq hz k, sphY_seq.three k hz]
    push_cast
    ring

theorem yUp_rec (z : ℂ) (k : ℕ) : yUp z (k + 2) = (2 * (k : ℂ) + 3) / z * yUp z (k + 1) - yUp z k := by
  rw [yUp]
  push_cast
  ring

theorem real_sin {z : ℂ} (h : z.im = 0) : (sin z).im = 0 := by
  lift z to ℝ using h
  rw [← ofReal_sin]
  exact ofReal_im _

theorem real_cos {z : ℂ} (h : z.im = 0) : (cos z).im = 0 := by
  lift z to ℝ using h
  rw [← ofReal_cos]
  exact ofReal_im _

theorem real_add {a b : ℂ} (ha : a.im = 0) (hb : b.im = 0) : (a + b).im = 0 := by simp [ha, hb]

theorem yUp_real {z : ℂ} (h : z.im = 0) : ∀ k, (yUp z k).im = 0
  | 0 => real_mul (by simp) (real_div (real_cos h) h)
  | 1 => real_mul (by simp) (real_add (real_div (real_cos h) (by rw [pow_two]; exact real_mul h h)) (real_div (real_sin h) h))
  | k + 2 => real_sub (real_mul (real_div (by simp) h) (yUp_real h (k + 1))) (yUp_real h k)

theorem real_num (m : ℕ) : (2 * (m : ℂ) + 1).im = 0 := by simp

theorem jDown_real {z : ℂ} (h : z.im = 0) (N : ℕ) : ∀ j, (jDown z N j).1.im = 0 ∧ (jDown z N j).2.im = 0
  | 0 => ⟨by simp [jDown], by
      change (1e-25 : ℂ).im = 0
      have : (1e-25 : ℂ) = ((1e-25 : ℝ) : ℂ) := by push_cast; rfl
      rw [this]; exact ofReal_im _⟩
  | j + 1 => ⟨real_sub (real_mul (real_div (real_num _) h) (jDown_real h N j).1) (jDown_real h N j).2, (jDown_real h N j).1⟩

/-- The unscaled sequence by order. -/
theorem jDown_rec (z : ℂ) {N k : ℕ} (hk : k + 2 ≤ N) :
    (jDown z N (N - (k + 2))).1 = (2 * (k : ℂ) + 3) / z * (jDown z N (N - (k + 1))).1 - (jDown z N (N - k)).1 := by
  obtain ⟨j, rfl⟩ : ∃ j, N = k + 2 + j := ⟨N - (k + 2), by omega⟩
  rw [show k + 2 + j - (k + 2) = j by omega, show k + 2 + j - (k + 1) = j + 1 by omega, show k + 2 + j - k = j + 2 by omega]
  have e : (jDown z (k + 2 + j) (j + 2)).1 =
      (2 * ((k + 2 + j - (j + 1) : ℕ) : ℂ) + 1) / z * (jDown z (k + 2 + j) (j + 1)).1 - (jDown z (k + 2 + j) (j + 1)).2 := rfl
  have e2 : (jDown z (k + 2 + j) (j + 1)).2 = (jDown z (k + 2 + j) j).1 := rfl
  rw [e, e2, show k + 2 + j - (j + 1) = k + 1 by omega]
  push_cast
  ring

theorem rec_realSeq {n d : ℕ} {z : ℂ} (hz : 1e-10 < ‖z‖) (hr : z.im = 0) (hn : 1 ≤ n) (hs : sin z ≠ 0)
    (h0 : (jDown z (n + d) (n + d)).1 ≠ 0) (hy : sphY (n + d) z ≠ 0) : RealSeq (Node.recFn n d) n z := by
  have hne : z ≠ 0 := by rintro rfl; norm_num at hz
  have g : guardSet 1e-10 z = z := guardSet_of_le hz.le
  have ej : ∀ k, (Node.recFn n d).j z k = (jDown z (n + d) (n + d - k)).1 * (sin z / z / (jDown z (n + d) (n + d)).1) := fun k => by
    simp only [Node.recFn, viaRecFn, g]
  have ey : ∀ k, (Node.recFn n d).y z k = yUp z k := fun k => by simp only [Node.recFn, g]
  refine ⟨hne, hr, fun k _ => ?_, fun k _ => ?_, fun k hk => ?_, fun k hk => ?_, ?_⟩
  · rw [ej]
    exact real_mul (jDown_real hr _ _).1 (real_div (real_div (real_sin hr) hr) (jDown_real hr _ _).1)
  · rw [ey]
    exact yUp_real hr k
  · rw [ej, ej, ej, jDown_rec z (by omega)]
    ring
  · rw [ey, ey, ey]
    exact yUp_rec z k
  · rw [ej, ej, ey, ey, Nat.sub_zero]
    have hc := casorati (J := fun k => (jDown z (n + d) (n + d - k)).1) (Y := yUp z) (n := n + d) (fun k hk => jDown_rec z hk)
      (fun k _ => yUp_rec z k) (n + d - 1) (by omega)
    rw [show n + d - 1 + 1 = n + d by omega] at hc
    simp only [Nat.sub_self, Nat.sub_zero] at hc
    have e0 : (jDown z (n + d) 0).1 = 0 := rfl
    have e1 : (jDown z (n + d) (n + d - (n + d - 1))).1 = -1e-25 := by
      rw [show n + d - (n + d - 1) = 0 + 1 by omega]
      simp [jDown]
    rw [e0, e1, yUp_eq hne (n + d)] at hc
    have h1 : (jDown z (n + d) (n + d - 1)).1 * (sin z / z / (jDown z (n + d) (n + d)).1) * yUp z 0 -
        (jDown z (n + d) (n + d)).1 * (sin z / z / (jDown z (n + d) (n + d)).1) * yUp z 1 =
        sin z / z / (jDown z (n + d) (n + d)).1 * (1e-25 * sphY (n + d) z) := by
      linear_combination -(sin z / z / (jDown z (n + d) (n + d)).1) * hc
    rw [h1]
    exact mul_ne_zero (div_ne_zero (div_ne_zero hs hne) h0) (mul_ne_zero (by norm_num) hy)

theorem cf_real {z : ℂ} (h : z.im = 0) {N : ℕ} (hc : Node.CfClear z N) : ∀ j ≤ N, (cfDown z N j).im = 0
  | 0, _ => by simp [cfDown]
  | j + 1, hj => by
    rw [cfDown, recip0_of_ne (hc j (by omega))]
    exact real_div (by simp) (real_sub (real_div (real_num _) h) (cf_real h hc j (by omega)))

theorem cfProd_real {z : ℂ} (h : z.im = 0) {N : ℕ} (hc : Node.CfClear z N) : ∀ k, (cfProd z N k).im = 0
  | 0 => by simp [cfProd]
  | k + 1 => real_mul (cfProd_real h hc k) (cf_real h hc _ (by omega))

theorem cf_ne {z : ℂ} {N : ℕ} (hc : Node.CfClear z N) {k : ℕ} (h1 : 1 ≤ k) (hk : k ≤ N) : cf z N k ≠ 0 := by
  unfold cf
  obtain ⟨j, hj⟩ : ∃ j, N + 1 - k = j + 1 := ⟨N - k, by omega⟩
  have h0 := hc j (by omega)
  rw [hj, cfDown, recip0_of_ne h0]
  exact one_div_ne_zero h0

theorem cfProd_ne {z : ℂ} {N : ℕ} (hc : Node.CfClear z N) : ∀ k ≤ N, cfProd z N k ≠ 0
  | 0, _ => one_ne_zero
  | k + 1, hk => mul_ne_zero (cfProd_ne hc k (by omega)) (cf_ne hc (by omega) hk)

theorem cfProd_rec {z : ℂ} {N : ℕ} (hc : Node.CfClear z N) {k : ℕ} (hk : k + 1 ≤ N) :
    cfProd z N (k + 2) = (2 * (k : ℂ) + 3) / z * cfProd z N (k + 1) - cfProd z N k := by
  have h0 := hc (N - (k + 1)) (by omega)
  have e := cf_step z hk
  have ec : cfDown z N (N - (k + 1)) = cf z N (k + 1 + 1) := by unfold cf; congr 1; omega
  rw [show N - (N - (k + 1)) = k + 1 by omega, ec] at h0
  rw [recip0_of_ne h0] at e
  have e2 : cf z N (k + 1) * ((2 * ((k + 1 : ℕ) : ℂ) + 1) / z - cf z N (k + 1 + 1)) = 1 := by rw [e]; exact one_div_mul_cancel h0
  simp only [cfProd]
  push_cast at e2
  linear_combination cfProd z N k * (-e2)

theorem ratio_realSeq {n d : ℕ} {z : ℂ} (hz : 1e-10 < ‖z‖) (hr : z.im = 0) (hs : sin z ≠ 0)
    (h0 : Node.CfClear z (n + d)) (hy : sphY (n + d + 1) z ≠ 0) : RealSeq (Node.ratFn n d) n z := by
  have hne : z ≠ 0 := by rintro rfl; norm_num at hz
  have g : guardSet 1e-10 z = z := guardSet_of_le hz.le
  have ej : ∀ k, (Node.ratFn n d).j z k = sin z / z * cfProd z (n + d) k := fun k => by
    cases k with
    | zero => simp only [Node.ratFn, ratioFn, if_neg hne, cfProd, mul_one]
    | succ k => simp only [Node.ratFn, ratioFn, if_neg hne]
  have ey : ∀ k, (Node.ratFn n d).y z k = yUp z k := fun k => by simp only [Node.ratFn, g]
  refine ⟨hne, hr, fun k _ => ?_, fun k _ => ?_, fun k hk => ?_, fun k hk => ?_, ?_⟩
  · rw [ej]
    exact real_mul (real_div (real_sin hr) hr) (cfProd_real hr h0 k)
  · rw [ey]
    exact yUp_real hr k
  · rw [ej, ej, ej, cfProd_rec h0 (by omega)]
    ring
  · rw [ey, ey, ey]
    exact yUp_rec z k
  · rw [ej, ej, ey, ey]
    have hc := casorati (J := cfProd z (n + d)) (Y := yUp z) (n := n + d + 1) (fun k hk => cfProd_rec h0 (by omega))
      (fun k _ => yUp_rec z k) (n + d) le_rfl
    have e0 : cfProd z (n + d) (n + d + 1) = 0 := by rw [cfProd, cf_top, mul_zero]
    rw [e0, yUp_eq hne (n + d + 1)] at hc
    have h1 : sin z / z * cfProd z (n + d) 1 * yUp z 0 - sin z / z * cfProd z (n + d) 0 * yUp z 1 =
        sin z / z * -(cfProd z (n + d) (n + d) * sphY (n + d + 1) z) := by
      linear_combination -(sin z / z) * hc
    rw [h1]
    exact mul_ne_zero (div_ne_zero hs hne) (neg_ne_zero.2 (mul_ne_zero (cfProd_ne h0 _ le_rfl) hy))

theorem sphJ_real {z : ℂ} (hz : z ≠ 0) (h : z.im = 0) : ∀ k, (sphJ k z).im = 0
  | 0 => by rw [sphJ_zero]; exact real_div (real_sin h) h
  | 1 => by
    rw [sphJ_one hz]
    exact real_sub (real_div (real_sin h) (by rw [pow_two]; exact real_mul h h)) (real_div (real_cos h) h)
  | k + 2 => by
    rw [sphJ_seq.three k hz]
    exact real_sub (real_mul (real_div (by simp) h) (sphJ_real hz h (k + 1))) (sphJ_real hz h k)

theorem exact_realSeq {n : ℕ} {z : ℂ} (hne : z ≠ 0) (hr : z.im = 0) : RealSeq Node.exactFn n z := by
  refine ⟨hne, hr, fun k _ => sphJ_real hne hr k, fun k _ => ?_, fun k _ => sphJ_seq.three k hne, fun k _ => sphY_seq.three k hne, ?_⟩
  · change (sphY k z).im = 0
    rw [← yUp_eq hne]
    exact yUp_real hr k
  · change sphJ 1 z * sphY 0 z - sphJ 0 z * sphY 1 z ≠ 0
    rw [sphJ_one hne, sphY_zero, sphJ_zero, sphY_one hne]
    have : (sin z / z ^ 2 - cos z / z) * (-cos z / z) - sin z / z * -(cos z / z ^ 2 + sin z / z) = 1 / z ^ 2 := by
      have h1 := sin_sq_add_cos_sq z
      field_simp
      linear_combination z * h1
    rw [this]
    exact one_div_ne_zero (pow_ne_zero 2 hne)

/-- The computed function of the first kind is not a multiple of that of the second kind. -/
def ShellKind.Independent (n : ℕ) (z : ℂ) : ShellKind → Prop
  | .scipy => True
  | .recurrence => sin z ≠ 0 ∧ sphY (n + Node.recDepth z) z ≠ 0
  | .ratios => sin z ≠ 0 ∧ sphY (n + Node.ratioDepth z + 1) z ≠ 0

theorem ShellKind.realSeq {k : ShellKind} {n : ℕ} {z : ℂ} (hn : 1 ≤ n) (hr : z.im = 0) (hc : k.Clear n z) (hi : k.Independent n z) :
    RealSeq (k.fn n z) n z := by
  cases k with
  | scipy => exact exact_realSeq hc hr
  | recurrence => exact rec_realSeq hc.1 hr hn hi.1 hc.2 hi.2
  | ratios => exact ratio_realSeq hc.1 hr hi.1 hc.2 hi.2

/-! ## Arguments of norm at most 3/2 -/

theorem coef_ge {z : ℂ} (hz : z ≠ 0) (h : ‖z‖ ≤ 3 / 2) {m : ℕ} (hm : 1 ≤ m) : 2 ≤ ‖(2 * (m : ℂ) + 1) / z‖ := by
  have hp : 0 < ‖z‖ := norm_pos_iff.2 hz
  have e : ‖(2 * (m : ℂ) + 1)‖ = 2 * m + 1 := by
    have : (2 * (m : ℂ) + 1) = ((2 * m + 1 : ℕ) : ℂ) := by push_cast; ring
    rw [this, Complex.norm_natCast]
    push_cast
    ring
  have hm' : (1 : ℝ) ≤ m := by exact_mod_cast hm
  rw [norm_div, e, le_div_iff₀ hp]
  linarith

theorem grow {c t s : ℂ} (hc : 2 ≤ ‖c‖) (h : ‖s‖ ≤ ‖t‖) : ‖t‖ ≤ ‖c * t - s‖ := by
  have h1 : ‖c * t‖ - ‖s‖ ≤ ‖c * t - s‖ := norm_sub_norm_le _ _
  rw [norm_mul] at h1
  nlinarith [norm_nonneg t]

theorem jDown_grow {z : ℂ} (hz : z ≠ 0) (h : ‖z‖ ≤ 3 / 2) {N : ℕ} : ∀ j, j + 1 ≤ N →
    ‖(jDown z N (j + 1)).2‖ ≤ ‖(jDown z N (j + 1)).1‖ ∧ (jDown z N (j + 1)).1 ≠ 0
  | 0, _ => by
    have e : jDown z N (0 + 1) = (-1e-25, 0) := by simp [jDown]
    rw [e]
    exact ⟨by simp, by norm_num⟩
  | j + 1, hj => by
    obtain ⟨h1, h2⟩ := jDown_grow hz h (N := N) j (by omega)
    have e : (jDown z N (j + 1 + 1)).1 =
      (2 * ((N - (j + 1) : ℕ) : ℂ) + 1) / z * (jDown z N (j + 1)).1 - (jDown z N (j + 1)).2 := rfl
    have hg : ‖(jDown z N (j + 1)).1‖ ≤ ‖(jDown z N (j + 1 + 1)).1‖ := by
      rw [e]
      exact grow (coef_ge hz h (by omega)) h1
    refine ⟨hg, fun h0 => ?_⟩
    rw [h0, norm_zero] at hg
    exact h2 (norm_le_zero_iff.1 hg)

theorem cfDown_le {z : ℂ} (hz : z ≠ 0) (h : ‖z‖ ≤ 3 / 2) {N : ℕ} : ∀ j ≤ N, ‖cfDown z N j‖ ≤ 1 ∧
    (∀ i < j, (2 * ((N - i : ℕ) : ℂ) + 1) / z - cfDown z N i ≠ 0)
  | 0, _ => ⟨by simp [cfDown], fun i hi => absurd hi (by omega)⟩
  | j + 1, hj => by
    obtain ⟨h1, h2⟩ := cfDown_le hz h (N := N) j (by omega)
    have hc := coef_ge hz h (m := N - j) (by omega)
    have hn : 1 ≤ ‖(2 * ((N - j : ℕ) : ℂ) + 1) / z - cfDown z N j‖ := by
      have := norm_sub_norm_le ((2 * ((N - j : ℕ) : ℂ) + 1) / z) (cfDown z N j)
      linarith
    have h0 : (2 * ((N - j : ℕ) : ℂ) + 1) / z - cfDown z N j ≠ 0 := by
      intro h0
      rw [h0, norm_zero] at hn
      linarith
    refine ⟨?_, fun i hi => ?_⟩
    · rw [cfDown, recip0_of_ne h0, norm_div, norm_one]
      exact div_le_one_of_le₀ hn (norm_nonneg _)
    · rcases Nat.lt_succ_iff_lt_or_eq.1 hi with hi | rfl
      · exact h2 i hi
      · exact h0

theorem small_clear {k : ShellKind} {n : ℕ} {z : ℂ} (hn : 1 ≤ n) (h1 : 1e-10 < ‖z‖) (h2 : ‖z‖ ≤ 3 / 2) : k.Clear n z := by
  have hne : z ≠ 0 := by rintro rfl; norm_num at h1
  cases k with
  | scipy => exact hne
  | recurrence =>
    refine ⟨h1, ?_⟩
    obtain ⟨j, hj⟩ : ∃ j, n + Node.recDepth z = j + 1 := ⟨n + Node.recDepth z - 1, by omega⟩
    have := (jDown_grow hne h2 (N := n + Node.recDepth z) j (by omega)).2
    rwa [← hj] at this
  | ratios => exact ⟨h1, fun j hj => (cfDown_le hne h2 (N := n + Node.ratioDepth z) (n + Node.ratioDepth z) le_rfl).2 j hj⟩

theorem small_stable {k : ShellKind} {z : ℂ} (h1 : z ≠ 0) (h2 : ‖z‖ ≤ 3 / 2) : k.Stable z := by
  cases k with
  | scipy => exact h1
  | recurrence => exact Or.inl (by linarith)
  | ratios => exact Or.inl (by linarith)

theorem sphY_grow {t : ℝ} (h0 : 0 < t) (h : t ≤ 3 / 2) : ∀ k, ‖sphY k (t : ℂ)‖ ≤ ‖sphY (k + 1) (t : ℂ)‖ ∧ sphY (k + 1) (t : ℂ) ≠ 0
  | 0 => by
    have hne : (t : ℂ) ≠ 0 := by exact_mod_cast h0.ne'
    have hpi : t < Real.pi / 2 := by have := Real.pi_gt_d2; linarith
    have hc : 0 < Real.cos t := Real.cos_pos_of_mem_Ioo ⟨by linarith, hpi⟩
    have hs : 0 < Real.sin t := Real.sin_pos_of_pos_of_lt_pi h0 (by linarith)
    have e0 : sphY 0 (t : ℂ) = ((-Real.cos t / t : ℝ) : ℂ) := by rw [sphY_zero]; push_cast; rfl
    have e1 : sphY 1 (t : ℂ) = ((-(Real.cos t / t ^ 2 + Real.sin t / t) : ℝ) : ℂ) := by rw [sphY_one hne]; push_cast; rfl
    have p1 : 0 < Real.cos t / t ^ 2 + Real.sin t / t := by positivity
    rw [show (0 : ℕ) + 1 = 1 from rfl, e0, e1, Complex.norm_real, Complex.norm_real]
    refine ⟨?_, by exact_mod_cast (neg_ne_zero.2 p1.ne')⟩
    rw [Real.norm_eq_abs, Real.norm_eq_abs, abs_neg, abs_of_pos p1, neg_div, abs_neg, abs_of_pos (by positivity)]
    have e : Real.cos t / t ^ 2 + Real.sin t / t - Real.cos t / t = (Real.cos t + t * Real.sin t - t * Real.cos t) / t ^ 2 := by
      field_simp
    have hts : t ≤ Real.tan t := Real.le_tan h0.le hpi
    have hst : t * Real.cos t ≤ Real.sin t := by
      rw [Real.tan_eq_sin_div_cos, le_div_iff₀ hc] at hts
      exact hts
    have : 0 ≤ (Real.cos t + t * Real.sin t - t * Real.cos t) / t ^ 2 := by
      refine div_nonneg ?_ (by positivity)
      nlinarith [mul_nonneg hc.le (sq_nonneg (t - 1)), mul_le_mul_of_nonneg_left hst h0.le]
    linarith
  | k + 1 => by
    have hne : (t : ℂ) ≠ 0 := by exact_mod_cast h0.ne'
    obtain ⟨h1, h2⟩ := sphY_grow h0 h k
    have hc := coef_ge hne (by rw [Complex.norm_real, Real.norm_eq_abs, abs_of_pos h0]; exact h) (m := k + 1) (by omega)
    have e : sphY (k + 1 + 1) (t : ℂ) = (2 * ((k + 1 : ℕ) : ℂ) + 1) / (t : ℂ) * sphY (k + 1) (t : ℂ) - sphY k (t : ℂ) := by
      rw [show k + 1 + 1 = k + 2 from rfl, sphY_seq.three k hne]
      push_cast
      ring
    have hg := grow (t := sphY (k + 1) (t : ℂ)) hc h1
    rw [← e] at hg
    refine ⟨hg, fun h0 => ?_⟩
    rw [h0, norm_zero] at hg
    exact h2 (norm_le_zero_iff.1 hg)

theorem small_independent {k : ShellKind} {n : ℕ} {t : ℝ} (hn : 1 ≤ n) (h1 : 0 < t) (h2 : t ≤ 3 / 2) : k.Independent n (t : ℂ) := by
  have hs : sin (t : ℂ) ≠ 0 := by
    rw [← ofReal_sin]
    have := Real.sin_pos_of_pos_of_lt_pi h1 (by have := Real.pi_gt_d2; linarith)
    exact_mod_cast this.ne'
  have hy : ∀ N, 1 ≤ N → sphY N (t : ℂ) ≠ 0 := by
    intro N hN
    obtain ⟨j, rfl⟩ : ∃ j, N = j + 1 := ⟨N - 1, by omega⟩
    exact (sphY_grow h1 h2 j).2
  cases k with
  | scipy => trivial
  | recurrence => exact ⟨hs, hy _ (by omega)⟩
  | ratios => exact ⟨hs, hy _ (by omega)⟩

end MieDiff
