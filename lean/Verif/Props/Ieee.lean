import Verif.Proofs.SmallZeta
import Verif.Proofs.Double
import Verif.Props.Helper
import Verif.Props.Rounded
import Verif.Spec.Ieee

/-!
# C90: one large particle in a batch makes the cross sections of the small ones nan

`mie_coefficients` with the pena backend evaluates all particles and wavenumbers of a batch up to the order that the largest of them needs,
and a single particle up to the order that its largest `|m x|` needs.  At small outer size parameters the outgoing functions of
these orders exceed the range of double precision; from there on they become nan.
-/

namespace MieDiff

open Complex

/-! ## Special values -/

/-- Infinite or nan. -/
def Fl.Bad : Fl → Prop
  | .fin _ => False
  | _ => True

variable {F : FArith} {A : Arith} {u : ℝ}

theorem FC.val_ofC (z : ℂ) : (FC.ofC z).val = some z := rfl

theorem FC.val_some {x : FC} {z : ℂ} (h : x.val = some z) : x = FC.ofC z := by
  obtain ⟨re, im⟩ := x
  cases re <;> cases im <;> simp_all [FC.val, FC.ofC]
  obtain rfl := h
  simp

theorem FC.val_none {x : FC} (h : x.val = none) : x.re.Bad ∨ x.im.Bad := by
  obtain ⟨re, im⟩ := x
  cases re <;> cases im <;> simp_all [FC.val, Fl.Bad]

theorem FC.val_of_bad {x : FC} (h : x.re.Bad ∨ x.im.Bad) : x.val = none := by
  obtain ⟨re, im⟩ := x
  cases re <;> cases im <;> simp_all [FC.val, Fl.Bad]

theorem addF_bad_left {x : Fl} (h : x.Bad) (y : Fl) : (F.addF x y).Bad := by
  cases x <;> cases y <;> simp_all [FArith.addF, Fl.Bad]
  split_ifs <;> trivial

theorem addF_bad_right (x : Fl) {y : Fl} (h : y.Bad) : (F.addF x y).Bad := by
  cases x <;> cases y <;> simp_all [FArith.addF, Fl.Bad]
  split_ifs <;> trivial

theorem subF_bad_left {x : Fl} (h : x.Bad) (y : Fl) : (F.subF x y).Bad := by
  cases x <;> cases y <;> simp_all [FArith.subF, Fl.Bad]
  split_ifs <;> trivial

theorem subF_bad_right (x : Fl) {y : Fl} (h : y.Bad) : (F.subF x y).Bad := by
  cases x <;> cases y <;> simp_all [FArith.subF, Fl.Bad]
  split_ifs <;> trivial

theorem mulF_bad_left {x : Fl} (h : x.Bad) (y : Fl) : (F.mulF x y).Bad := by
  cases x <;> cases y <;> simp_all [FArith.mulF, FArith.mulInf, FArith.sign, Fl.Bad]
  split_ifs <;> trivial

theorem mulF_nan_left (y : Fl) : F.mulF .nan y = .nan := by cases y <;> simp [FArith.mulF, FArith.mulInf, FArith.sign]
theorem mulF_nan_right (x : Fl) : F.mulF x .nan = .nan := by cases x <;> simp [FArith.mulF, FArith.mulInf, FArith.sign]
theorem addF_nan_left (y : Fl) : F.addF .nan y = .nan := by cases y <;> rfl
theorem addF_nan_right (x : Fl) : F.addF x .nan = .nan := by cases x <;> rfl
theorem subF_nan_left (y : Fl) : F.subF .nan y = .nan := by cases y <;> rfl
theorem subF_nan_right (x : Fl) : F.subF x .nan = .nan := by cases x <;> rfl

theorem mulC_special {x : FC} (h : x.val = none) (y : FC) :
    F.mulC x y = ⟨F.subF (F.mulF x.re y.re) (F.mulF x.im y.im), F.addF (F.mulF x.re y.im) (F.mulF x.im y.re)⟩ := by
  unfold FArith.mulC; rw [h]

/-- One step: both parts are infinite or nan. -/
theorem mulC_bad {x : FC} (h : x.val = none) (y : FC) : (F.mulC x y).re.Bad ∧ (F.mulC x y).im.Bad := by
  rw [mulC_special h]
  rcases FC.val_none h with h | h
  · exact ⟨subF_bad_left (mulF_bad_left h _) _, addF_bad_left (mulF_bad_left h _) _⟩
  · exact ⟨subF_bad_right _ (mulF_bad_left h _), addF_bad_right _ (mulF_bad_left h _)⟩

/-- Two steps: one part is nan. -/
theorem mulC_one_nan {x : FC} (h1 : x.re.Bad) (h2 : x.im.Bad) (y : FC) : (F.mulC x y).re = .nan ∨ (F.mulC x y).im = .nan := by
  rw [mulC_special (FC.val_of_bad (Or.inl h1))]
  obtain ⟨a, b⟩ := x
  obtain ⟨c, d⟩ := y
  simp only at h1 h2
  rcases a with a | s | _
  · exact h1.elim
  · rcases b with b | t | _
    · exact h2.elim
    · have e : ∀ (r : Bool) (v : Fl), F.mulF (.inf r) v = FArith.mulInf (.inf r) v := fun r v => by cases v <;> rfl
      simp only [e, FArith.mulInf]
      rcases hc : FArith.sign c with _ | p
      · left; simp [FArith.sign, subF_nan_left]
      · rcases hd : FArith.sign d with _ | q
        · left; simp [FArith.sign, subF_nan_right]
        · simp only [FArith.sign, FArith.subF, FArith.addF]
          cases s <;> cases t <;> cases p <;> cases q <;> simp
    · left; simp [mulF_nan_left, subF_nan_right]
  · left; simp [mulF_nan_left, subF_nan_left]

/-- Three steps: both parts are nan. -/
theorem mulC_nan {x : FC} (h : x.re = .nan ∨ x.im = .nan) (y : FC) : F.mulC x y = FC.nan := by
  have hb : x.val = none := FC.val_of_bad (by rcases h with h | h <;> rw [h] <;> simp [Fl.Bad])
  rw [mulC_special hb]
  rcases h with h | h <;> rw [h] <;> simp [mulF_nan_left, subF_nan_left, subF_nan_right, addF_nan_left, addF_nan_right, FC.nan]

/-- A product that has overflowed is nan three factors later. -/
theorem prodSeq_nan {f0 z : ℂ} {D : ℕ → ℂ} {m : ℕ} (h : (F.prodSeq A f0 z D m).val = none) :
    ∀ i, m + 3 ≤ i → F.prodSeq A f0 z D i = FC.nan := by
  intro i hi
  induction i, hi using Nat.le_induction with
  | base =>
    have h1 := mulC_bad (F := F) h (FC.ofC (A.sub (A.div ((m + 1 : ℕ) : ℂ) (A.guard z)) (D m)))
    have h2 := mulC_one_nan (F := F) h1.1 h1.2 (FC.ofC (A.sub (A.div ((m + 1 + 1 : ℕ) : ℂ) (A.guard z)) (D (m + 1))))
    exact mulC_nan h2 _
  | succ i hi ih =>
    rw [FArith.prodSeq, ih]
    exact mulC_nan (Or.inl rfl) _

/-- Finite products are those of the arithmetic without range. -/
theorem prodSeq_val (hF : F.Limits A) {f0 z : ℂ} {D : ℕ → ℂ} : ∀ {m : ℕ} {c : ℂ}, (F.prodSeq A f0 z D m).val = some c →
    c = A.prodSeq f0 z D m ∧ (m ≠ 0 → InRange c)
  | 0, c, h => by
    rw [FArith.prodSeq, FC.val_ofC] at h
    exact ⟨(Option.some.inj h).symm, fun h => absurd rfl h⟩
  | m + 1, c, h => by
    rcases hv : (F.prodSeq A f0 z D m).val with _ | b
    · rw [FArith.prodSeq] at h
      have := mulC_bad (F := F) hv (FC.ofC (A.sub (A.div ((m + 1 : ℕ) : ℂ) (A.guard z)) (D m)))
      rw [FC.val_of_bad (Or.inl this.1)] at h
      cases h
    · obtain ⟨rfl, -⟩ := prodSeq_val hF hv
      rw [FArith.prodSeq] at h
      have h2 := FC.val_some h
      unfold FArith.mulC at h2
      rw [hv, FC.val_ofC] at h2
      obtain ⟨e, r⟩ := hF.mul h2
      exact ⟨e, fun _ => r⟩

theorem inRange_norm {c : ℂ} (h : InRange c) : ‖c‖ < 2 ^ 1025 := by
  have := Complex.norm_le_abs_re_add_abs_im c
  have e : (2 : ℝ) ^ 1025 = 2 ^ 1024 + 2 ^ 1024 := by rw [pow_succ]; ring
  rw [e]
  linarith [h.1, h.2]

/-- The start value `sin z - i cos z`. -/
theorem zeta_start (hA : A.Within u) (hu : u ≤ 1 / 2 ^ 50) {z : ℂ} (hz : ‖z‖ ≤ 1 / 4) : 0.7 ≤ ‖A.sub (A.sin z) (A.mul I (A.cos z))‖ := by
  have hu0 := hA.nonneg
  have hu9 : u ≤ 1e-9 := hu.trans (by norm_num)
  have he : ∀ w : ℂ, ‖w‖ ≤ 1 / 4 → ‖exp w‖ ≤ 3 := fun w hw => by
    refine (Complex.norm_exp_le_exp_norm w).trans ?_
    have h1 : Real.exp ‖w‖ ≤ Real.exp 1 := Real.exp_le_exp.2 (hw.trans (by norm_num))
    have h2 := Real.exp_one_lt_d9
    norm_num at h2
    linarith
  have n1 : ‖z * I‖ ≤ 1 / 4 := by rw [norm_mul, norm_I, mul_one]; exact hz
  have n2 : ‖-z * I‖ ≤ 1 / 4 := by rw [norm_mul, norm_I, mul_one, norm_neg]; exact hz
  have hs : ‖sin z‖ ≤ 3 := by
    unfold Complex.sin
    rw [norm_div, norm_mul, norm_I]
    have := norm_sub_le (exp (-z * I)) (exp (z * I))
    have a1 := he _ n1
    have a2 := he _ n2
    rw [show ‖(2 : ℂ)‖ = 2 by norm_num]
    linarith
  have hc : ‖cos z‖ ≤ 3 := by
    unfold Complex.cos
    rw [norm_div]
    have := norm_add_le (exp (z * I)) (exp (-z * I))
    have a1 := he _ n1
    have a2 := he _ n2
    rw [show ‖(2 : ℂ)‖ = 2 by norm_num]
    linarith
  have ex : sin z - I * cos z = -I * exp (z * I) := by
    rw [Complex.exp_mul_I]
    linear_combination (sin z) * I_mul_I
  have hn : 0.75 ≤ ‖sin z - I * cos z‖ := by
    rw [ex, norm_mul, norm_neg, norm_I, one_mul, Complex.norm_exp]
    have h1 := Real.add_one_le_exp (z * I).re
    have h2 := Complex.abs_re_le_norm (z * I)
    have h3 := (abs_le.1 (h2.trans n1)).1
    generalize (z * I).re = t at *
    norm_num
    linarith
  have e1 : ‖A.sin z - sin z‖ ≤ 1e-8 := (hA.sin z).trans ((mul_le_mul hu9 hs (norm_nonneg _) (by norm_num)).trans (by norm_num))
  have e2 : ‖A.cos z - cos z‖ ≤ 1e-8 := (hA.cos z).trans ((mul_le_mul hu9 hc (norm_nonneg _) (by norm_num)).trans (by norm_num))
  have e3 : ‖A.mul I (A.cos z) - I * A.cos z‖ ≤ 1e-8 := by
    have h1 := norm_sub_norm_le (A.cos z) (cos z)
    have h2 : ‖I * A.cos z‖ ≤ 4 := by
      rw [norm_mul, norm_I, one_mul]
      norm_num at e2
      linarith
    exact (hA.mul I _).trans ((mul_le_mul hu9 h2 (norm_nonneg _) (by norm_num)).trans (by norm_num))
  have e4 : ‖(A.sin z - A.mul I (A.cos z)) - (sin z - I * cos z)‖ ≤ 3e-8 := by
    rw [show (A.sin z - A.mul I (A.cos z)) - (sin z - I * cos z) = (A.sin z - sin z) - (A.mul I (A.cos z) - I * A.cos z) - I * (A.cos z - cos z) by ring]
    refine (norm_sub_le _ _).trans ?_
    have h1 := norm_sub_le (A.sin z - sin z) (A.mul I (A.cos z) - I * A.cos z)
    rw [norm_mul, norm_I, one_mul]
    norm_num at e1 e2 e3 ⊢
    linarith
  have h1 := norm_sub_norm_le (sin z - I * cos z) (A.sin z - A.mul I (A.cos z))
  rw [norm_sub_rev (sin z - I * cos z)] at h1
  have h2 := (within_bounds hu9 (hA.sub (A.sin z) (A.mul I (A.cos z)))).1
  norm_num at hn e4 h2 ⊢
  linarith

/-- The sequence `zeta` of `_miecoef_pena` with the range of double precision. -/
noncomputable def FArith.zetaSeq (F : FArith) (A : Arith) (n N : ℕ) (z : ℂ) : ℕ → FC :=
  F.prodSeq A (A.sub (A.sin z) (A.mul I (A.cos z))) z (A.d3 z (A.d1 n N z))

/-- **C90** (the outgoing function).  For arguments between `10⁻⁴` and `1/4`: if `0.2 (0.8/|x|)^m (2m-1)!!` exceeds `2^1025`
for some order `m`, then the computed `zeta` has nan as real and imaginary part from order `m + 3` to the end, whatever the rounding of
the operations.  `n` is `n_max`, at least `m + 6`; `N` is the number of additional orders of `pena_D1_n`. -/
theorem C90_zeta (hA : A.Within u) (hF : F.Limits A) (hu : u ≤ 1 / 2 ^ 50) {z : ℂ} (hz : 1e-4 ≤ ‖z‖) (hz1 : ‖z‖ ≤ 1 / 4) {n N m : ℕ}
    (hN : 15 ≤ N) (hm : 2 ≤ m) (hm2 : m ≤ 132) (hn : m + 6 ≤ n)
    (hbig : 2 ^ 1025 ≤ 0.2 * (0.8 / ‖z‖) ^ m * ∏ j ∈ Finset.range m, (2 * (j : ℝ) + 1)) :
    ∀ i, m + 3 ≤ i → F.zetaSeq A n N z i = FC.nan := by
  obtain ⟨k, rfl⟩ : ∃ k, m = k + 2 := ⟨m - 2, by omega⟩
  refine prodSeq_nan ?_
  rcases hv : (F.prodSeq A (A.sub (A.sin z) (A.mul I (A.cos z))) z (A.d3 z (A.d1 n N z)) (k + 2)).val with _ | c
  · rfl
  · obtain ⟨e, r⟩ := prodSeq_val hF hv
    have h1 := inRange_norm (r (by omega))
    rw [e] at h1
    have h2 := zeta_small_growth hA hu hz hz1 (n := n) hN (zeta_start hA hu hz1) k (by omega) (by omega)
    exact absurd (hbig.trans h2) (not_le.2 h1)

set_option exponentiation.threshold 1100 in
/-- Order 126 exceeds the range at arguments below `1/4`. -/
theorem big_quarter {z : ℂ} (hz : 0 < ‖z‖) (hz1 : ‖z‖ ≤ 1 / 4) :
    2 ^ 1025 ≤ 0.2 * (0.8 / ‖z‖) ^ 126 * ∏ j ∈ Finset.range 126, (2 * (j : ℝ) + 1) := by
  have h1 : (16 / 5 : ℝ) ≤ 0.8 / ‖z‖ := by rw [le_div_iff₀ hz]; norm_num; linarith
  have h2 : (16 / 5 : ℝ) ^ 126 ≤ (0.8 / ‖z‖) ^ 126 := by gcongr
  have hP : (0 : ℝ) ≤ ∏ j ∈ Finset.range 126, (2 * (j : ℝ) + 1) := Finset.prod_nonneg fun j _ => by positivity
  refine le_trans ?_ (mul_le_mul_of_nonneg_right (mul_le_mul_of_nonneg_left h2 (by norm_num : (0 : ℝ) ≤ 0.2)) hP)
  have key : 5 * (2 ^ 1025 * 5 ^ 126) ≤ 16 ^ 126 * ∏ j ∈ Finset.range 126, (2 * j + 1) := by decide +kernel
  have key' : (5 : ℝ) * (2 ^ 1025 * 5 ^ 126) ≤ 16 ^ 126 * ∏ j ∈ Finset.range 126, (2 * (j : ℝ) + 1) := by exact_mod_cast key
  rw [div_pow, show (0.2 : ℝ) = 1 / 5 by norm_num, div_mul_div_comm, div_mul_eq_mul_div, le_div_iff₀ (by positivity)]
  rw [one_mul]
  calc (2 : ℝ) ^ 1025 * (5 * 5 ^ 126) = 5 * (2 ^ 1025 * 5 ^ 126) := by ring
    _ ≤ _ := key'

set_option exponentiation.threshold 1100 in
/-- Order 84 exceeds the range at arguments below `1/100`. -/
theorem big_hundredth {z : ℂ} (hz : 0 < ‖z‖) (hz1 : ‖z‖ ≤ 1 / 100) :
    2 ^ 1025 ≤ 0.2 * (0.8 / ‖z‖) ^ 84 * ∏ j ∈ Finset.range 84, (2 * (j : ℝ) + 1) := by
  have h1 : (80 : ℝ) ≤ 0.8 / ‖z‖ := by rw [le_div_iff₀ hz]; norm_num; linarith
  have h2 : (80 : ℝ) ^ 84 ≤ (0.8 / ‖z‖) ^ 84 := by gcongr
  have hP : (0 : ℝ) ≤ ∏ j ∈ Finset.range 84, (2 * (j : ℝ) + 1) := Finset.prod_nonneg fun j _ => by positivity
  refine le_trans ?_ (mul_le_mul_of_nonneg_right (mul_le_mul_of_nonneg_left h2 (by norm_num : (0 : ℝ) ≤ 0.2)) hP)
  have key : 5 * 2 ^ 1025 ≤ 80 ^ 84 * ∏ j ∈ Finset.range 84, (2 * j + 1) := by decide +kernel
  have key' : (5 : ℝ) * 2 ^ 1025 ≤ 80 ^ 84 * ∏ j ∈ Finset.range 84, (2 * (j : ℝ) + 1) := by exact_mod_cast key
  rw [show (0.2 : ℝ) = 1 / 5 by norm_num, mul_assoc, one_div, inv_mul_eq_div, le_div_iff₀ (by norm_num)]
  rw [mul_comm]
  exact key'

/-! ## Coefficients and cross sections -/

theorem subC_nan (x y : FC) (h : x = FC.nan ∨ y = FC.nan) : F.subC x y = FC.nan := by
  unfold FArith.subC
  rcases h with rfl | rfl
  · simp [FC.nan, FC.val, subF_nan_left]
  · rcases hx : x.val with _ | a <;> simp [FC.nan, FC.val, subF_nan_right]

theorem mulC_nan_right (x : FC) {y : FC} (h : y.re = .nan) : (F.mulC x y).re = .nan := by
  have hb : y.val = none := FC.val_of_bad (Or.inl (by rw [h]; simp [Fl.Bad]))
  have e : F.mulC x y = ⟨F.subF (F.mulF x.re y.re) (F.mulF x.im y.im), F.addF (F.mulF x.re y.im) (F.mulF x.im y.re)⟩ := by
    unfold FArith.mulC
    rw [hb]
    rcases x.val with _ | a <;> rfl
  rw [e, h]
  simp [mulF_nan_right, subF_nan_left]

theorem mulC_nan_right' (x : FC) : F.mulC x FC.nan = FC.nan := by
  have e : F.mulC x FC.nan = ⟨F.subF (F.mulF x.re .nan) (F.mulF x.im .nan), F.addF (F.mulF x.re .nan) (F.mulF x.im .nan)⟩ := by
    unfold FArith.mulC
    rcases x.val with _ | a <;> rfl
  rw [e]
  simp [mulF_nan_right, subF_nan_left, addF_nan_left, FC.nan]

theorem guardC_nan : F.guardC FC.nan = FC.nan := rfl

theorem final_nan (hF : F.Limits A) (term psi psiPrev zetaPrev : FC) : F.final term psi psiPrev FC.nan zetaPrev = FC.nan := by
  unfold FArith.final
  rw [mulC_nan_right', subC_nan _ _ (Or.inl rfl), guardC_nan]
  unfold FArith.divC
  rw [show FC.nan.val = none from rfl]
  rcases (F.subC (F.mulC term psi) psiPrev).val with _ | a
  · exact hF.div_nan _
  · exact hF.div_nan _

/-- The outer size parameter of a particle as the code computes it. -/
noncomputable def Arith.xOuter (A : Arith) (p : Particle1) : ℂ := ((A.layers p).getLastD (0, 0)).2

theorem foldl_step_x (A : Arith) (n N : ℕ) : ∀ (rest : List (ℂ × ℂ)) (st : Arith.State),
    (rest.foldl (A.step n N) st).x = (rest.getLastD (st.m, st.x)).2
  | [], _ => rfl
  | l :: rest, st => by
    rw [List.foldl_cons, foldl_step_x A n N rest]
    cases rest <;> rfl

/-- **C90** (the coefficients).  Every particle whose outer size parameter is between `10⁻⁴` and `1/4`: with a truncation order of 132 or
more, `mie_coefficients` returns nan for `a_n` and `b_n` of all orders from 129 on. -/
theorem C90_coefficients (hA : A.Within u) (hF : F.Limits A) (hu : u ≤ 1 / 2 ^ 50) {n N : ℕ} (hN : 15 ≤ N) (hn : 132 ≤ n) (p : Particle1)
    (hz : 1e-4 ≤ ‖A.xOuter p‖) (hz1 : ‖A.xOuter p‖ ≤ 1 / 4) (i : ℕ) (hi : 129 ≤ i) : F.mie A n N p i = (FC.nan, FC.nan) := by
  unfold FArith.mie
  unfold Arith.xOuter at hz hz1
  rcases hl : A.layers p with _ | ⟨l, rest⟩
  · rw [hl] at hz; norm_num at hz
  · rw [hl] at hz hz1
    have hx : (rest.foldl (A.step n N) (A.init n N l)).x = ((l :: rest).getLastD (0, 0)).2 := by
      rw [foldl_step_x]; cases rest <;> rfl
    rw [← hx] at hz hz1
    have hzn := C90_zeta hA hF hu hz hz1 hN (by norm_num) (by norm_num) hn
      (big_quarter (lt_of_lt_of_le (by norm_num) hz) hz1) i hi
    unfold FArith.zetaSeq at hzn
    simp only [FArith.coefs, hzn, final_nan hF]

/-- All six cross sections from one order whose coefficients are nan. -/
theorem cross_nan (hF : F.Limits A) {n N : ℕ} {p : Particle1} {i : ℕ} (hi : i < n) (h : F.mie A n N p (i + 1) = (FC.nan, FC.nan)) :
    F.cross A n N p = ⟨.nan, .nan, .nan, .nan, .nan, .nan⟩ := by
  have he : ∀ k : ℂ, (F.mpTerm A k i .nan).re = .nan := fun k => mulC_nan_right _ rfl
  have hsq : F.mulF (F.absC FC.nan) (F.absC FC.nan) = .nan := rfl
  have hre : FC.nan.re = .nan := rfl
  have tot : ∀ f g : ℕ → FC, (f i).re = .nan →
      (F.sum ((List.range n).map f ++ (List.range n).map g)).re = .nan := fun f g hf =>
    hF.sum_nan _ ⟨f i, List.mem_append_left _ (List.mem_map_of_mem (List.mem_range.2 hi)), hf⟩
  have hdiv : ∀ g : Fl, F.divF .nan g = .nan := fun g => by cases g <;> rfl
  have hsub : ∀ x y : FC, x.re = .nan → (F.subC x y).re = .nan := fun x y hx => by
    have hb : x.val = none := FC.val_of_bad (Or.inl (by rw [hx]; simp [Fl.Bad]))
    unfold FArith.subC
    rw [hb]
    simp only [hx]
    exact subF_nan_left _
  unfold FArith.cross
  simp only
  rw [tot _ _ (by simp only [h, hre]; exact he _), tot _ _ (by simp only [h, hsq]; exact he _),
    tot _ _ (by simp only [h, hre]; exact hsub _ _ (he _))]
  simp only [hdiv]

/-- **C90** (the cross sections).  Extinction, scattering and absorption cross section and the three efficiencies of every
particle with an outer size parameter between `10⁻⁴` and `1/4` are nan if the truncation order is 132 or larger. -/
theorem C90_cross (hA : A.Within u) (hF : F.Limits A) (hu : u ≤ 1 / 2 ^ 50) {n N : ℕ} (hN : 15 ≤ N) (hn : 132 ≤ n) (p : Particle1)
    (hz : 1e-4 ≤ ‖A.xOuter p‖) (hz1 : ‖A.xOuter p‖ ≤ 1 / 4) : F.cross A n N p = ⟨.nan, .nan, .nan, .nan, .nan, .nan⟩ :=
  cross_nan hF (i := 128) (by omega) (C90_coefficients hA hF hu hN hn p hz hz1 129 le_rfl)

/-- **C90** (smaller particles).  Below a size parameter of `1/100` a truncation order of 90 is enough. -/
theorem C90_smaller (hA : A.Within u) (hF : F.Limits A) (hu : u ≤ 1 / 2 ^ 50) {n N : ℕ} (hN : 15 ≤ N) (hn : 90 ≤ n) (p : Particle1)
    (hz : 1e-4 ≤ ‖A.xOuter p‖) (hz1 : ‖A.xOuter p‖ ≤ 1 / 100) : F.cross A n N p = ⟨.nan, .nan, .nan, .nan, .nan, .nan⟩ := by
  refine cross_nan hF (i := 86) (by omega) ?_
  unfold FArith.mie
  unfold Arith.xOuter at hz hz1
  rcases hl : A.layers p with _ | ⟨l, rest⟩
  · rw [hl] at hz; norm_num at hz
  · rw [hl] at hz hz1
    have hx : (rest.foldl (A.step n N) (A.init n N l)).x = ((l :: rest).getLastD (0, 0)).2 := by
      rw [foldl_step_x]; cases rest <;> rfl
    rw [← hx] at hz hz1
    have hzn := C90_zeta hA hF hu hz (hz1.trans (by norm_num)) hN (by norm_num) (by norm_num) hn
      (big_hundredth (lt_of_lt_of_le (by norm_num) hz) hz1) 87 (by norm_num)
    unfold FArith.zetaSeq at hzn
    simp only [FArith.coefs, hzn, final_nan hF]

/-- **C90** (the batch).  The truncation order of a batch that contains a particle with `|m_l x_l| ≥ 118` for one layer is 132 or larger,
so all particles of the batch with an outer size parameter between `10⁻⁴` and `1/4` have nan cross sections. -/
theorem C90_batch (hA : A.Within u) (hF : F.Limits A) (hu : u ≤ 1 / 2 ^ 50) {batch : List TruncEntry} {n : ℕ} (hn : penaNmax batch = .ok n)
    {e : TruncEntry} (he : e ∈ batch) {z : ℂ} (hz : z ∈ e.mx) (hbig : 118 ≤ ‖z‖) (p : Particle1)
    (h1 : 1e-4 ≤ ‖A.xOuter p‖) (h2 : ‖A.xOuter p‖ ≤ 1 / 4) : F.cross A n 15 p = ⟨.nan, .nan, .nan, .nan, .nan, .nan⟩ := by
  have h3 := ((C25_pena hn).2 e he).1 z hz
  refine C90_cross hA hF hu le_rfl ?_ p h1 h2
  have h4 : (131 : ℝ) < n := by
    have : ((n : ℤ) : ℝ) = n := by norm_cast
    rw [this] at h3
    norm_num at h3
    linarith
  exact_mod_cast h4

/-- Nothing overflows in the last step. -/
structure FArith.FinalFinite (F : FArith) (A : Arith) (term psi psiPrev zeta zetaPrev : ℂ) : Prop where
  num1 : (F.mulC (FC.ofC term) (FC.ofC psi)).val ≠ none
  num : (F.subC (F.mulC (FC.ofC term) (FC.ofC psi)) (FC.ofC psiPrev)).val ≠ none
  den1 : (F.mulC (FC.ofC term) (FC.ofC zeta)).val ≠ none
  den : (F.subC (F.mulC (FC.ofC term) (FC.ofC zeta)) (FC.ofC zetaPrev)).val ≠ none
  abs : |A.abs (A.sub (A.mul term zeta) zetaPrev)| < 2 ^ 1024
  guard : (F.guardC (F.subC (F.mulC (FC.ofC term) (FC.ofC zeta)) (FC.ofC zetaPrev))).val ≠ none
  quot : (F.final (FC.ofC term) (FC.ofC psi) (FC.ofC psiPrev) (FC.ofC zeta) (FC.ofC zetaPrev)).val ≠ none

theorem final_val (hF : F.Limits A) {term psi psiPrev zeta zetaPrev : ℂ} (h : F.FinalFinite A term psi psiPrev zeta zetaPrev) :
    F.final (FC.ofC term) (FC.ofC psi) (FC.ofC psiPrev) (FC.ofC zeta) (FC.ofC zetaPrev) =
      FC.ofC (A.final term psi psiPrev zeta zetaPrev) := by
  have hm : ∀ a b, (F.mulC (FC.ofC a) (FC.ofC b)).val ≠ none → F.mulC (FC.ofC a) (FC.ofC b) = FC.ofC (A.mul a b) := fun a b hv => by
    obtain ⟨c, hc⟩ := Option.ne_none_iff_exists'.1 hv
    have e := FC.val_some hc
    rw [e, (hF.mul (show F.mul a b = _ from e)).1]
  have hs : ∀ a b, (F.subC (FC.ofC a) (FC.ofC b)).val ≠ none → F.subC (FC.ofC a) (FC.ofC b) = FC.ofC (A.sub a b) := fun a b hv => by
    obtain ⟨c, hc⟩ := Option.ne_none_iff_exists'.1 hv
    have e := FC.val_some hc
    rw [e, (hF.sub (show F.sub a b = _ from e)).1]
  obtain ⟨h1, h2, h3, h4, h5, h6, h7⟩ := h
  have e1 := hm _ _ h1
  have e3 := hm _ _ h3
  rw [e1] at h2
  rw [e3] at h4 h6
  have e2 := hs _ _ h2
  have e4 := hs _ _ h4
  rw [e4] at h6
  have e6 : F.guardC (FC.ofC (A.sub (A.mul term zeta) zetaPrev)) = FC.ofC (A.guard (A.sub (A.mul term zeta) zetaPrev)) := by
    have e : F.absC (FC.ofC (A.sub (A.mul term zeta) zetaPrev)) = .fin (A.abs (A.sub (A.mul term zeta) zetaPrev)) := hF.abs _ h5
    unfold FArith.guardC Arith.guard at *
    rw [e] at h6 ⊢
    simp only at h6 ⊢
    split_ifs at h6 ⊢
    · obtain ⟨c, hc⟩ := Option.ne_none_iff_exists'.1 h6
      have e := FC.val_some hc
      rw [e, (hF.add (show F.add _ _ = _ from e)).1]
    · rfl
  unfold FArith.final at h7 ⊢
  rw [e1, e2, e3, e4, e6] at h7 ⊢
  obtain ⟨c, hc⟩ := Option.ne_none_iff_exists'.1 h7
  have e := FC.val_some hc
  rw [e, (hF.div (show F.div _ _ = _ from e)).1]
  rfl

/-- **C90** (the model).  If the functions `psi` and `zeta` of the orders `i - 1` and `i` are finite and nothing overflows in the last step,
the coefficients of order `i` are those of the arithmetic without range (`Model/Rounded.lean`). -/
theorem C90_model (hF : F.Limits A) (n N : ℕ) (st : Arith.State) (i : ℕ)
    (hz : ∀ j ∈ [i - 1, i], (F.zetaSeq A n N st.x j).val ≠ none)
    (hp : ∀ j ∈ [i - 1, i], (F.prodSeq A (A.sin st.x) st.x (A.d1 n N st.x) j).val ≠ none)
    (hfin : ∀ term ∈ [A.add (A.div (st.Ha i) st.m) (A.div (i : ℂ) (A.guard st.x)), A.add (A.mul st.m (st.Hb i)) (A.div (i : ℂ) (A.guard st.x))],
      F.FinalFinite A term (A.prodSeq (A.sin st.x) st.x (A.d1 n N st.x) i) (A.prodSeq (A.sin st.x) st.x (A.d1 n N st.x) (i - 1))
        (A.prodSeq (A.sub (A.sin st.x) (A.mul I (A.cos st.x))) st.x (A.d3 st.x (A.d1 n N st.x)) i)
        (A.prodSeq (A.sub (A.sin st.x) (A.mul I (A.cos st.x))) st.x (A.d3 st.x (A.d1 n N st.x)) (i - 1))) :
    F.coefs A n N st i = (FC.ofC (A.coefs n N st i).1, FC.ofC (A.coefs n N st i).2) := by
  have key : ∀ f0 D j, (F.prodSeq A f0 st.x D j).val ≠ none → F.prodSeq A f0 st.x D j = FC.ofC (A.prodSeq f0 st.x D j) := fun f0 D j h => by
    obtain ⟨c, hc⟩ := Option.ne_none_iff_exists'.1 h
    rw [FC.val_some hc, (prodSeq_val hF hc).1]
  have z1 := key _ _ _ (hz i (by simp))
  have z0 := key _ _ _ (hz (i - 1) (by simp))
  have p1 := key _ _ _ (hp i (by simp))
  have p0 := key _ _ _ (hp (i - 1) (by simp))
  simp only [FArith.coefs, z1, z0, p1, p0]
  rw [final_val hF (hfin _ (by simp)), final_val hF (hfin _ (by simp))]
  rfl

/-! ## Examples -/

theorem chkR_bad {x y : ℝ} (h : chkR x = .fin y) : y = x ∧ |x| < 2 ^ 1024 := by
  unfold chkR at h
  split_ifs at h with hx
  · exact ⟨(Fl.fin.inj h).symm, hx⟩

theorem chkC_fin {z c : ℂ} (h : chkC z = FC.ofC c) : c = z ∧ InRange c := by
  unfold chkC FC.ofC at h
  obtain ⟨h1, h2⟩ := FC.mk.inj h
  obtain ⟨e1, r1⟩ := chkR_bad h1
  obtain ⟨e2, r2⟩ := chkR_bad h2
  exact ⟨Complex.ext e1 e2, by rw [InRange, e1, e2]; exact ⟨r1, r2⟩⟩

/-- Every arithmetic can be given the range of double precision. -/
theorem limited_limits (A : Arith) : A.limited.Limits A where
  mul := chkC_fin
  add := chkC_fin
  sub := chkC_fin
  div := chkC_fin
  abs a h := by show chkR _ = _; unfold chkR; rw [if_pos h]
  div_nan _ := rfl
  sum_nan l h := by
    obtain ⟨x, hx, hn⟩ := h
    show (if ∀ x ∈ l, x.val ≠ none then chkC (A.sum (l.filterMap FC.val)) else FC.nan).re = .nan
    rw [if_neg]
    · rfl
    · push Not
      exact ⟨x, hx, FC.val_of_bad (Or.inl (by rw [hn]; trivial))⟩

theorem exactArith_within : exactArith.Within 0 := by constructor <;> intros <;> simp [exactArith]

theorem csqrt_one' : csqrt 1 = 1 := by unfold csqrt; simp

/-- A sphere of size parameter `1/4` in vacuum. -/
noncomputable def smallSphere : Particle1 := ⟨1, [1 / 4], [4], 1⟩

theorem smallSphere_x : ‖exactArith.xOuter smallSphere‖ = 1 / 4 := by
  simp [Arith.xOuter, Arith.layers, Arith.host, smallSphere, exactArith, csqrt_one']

/-- The sphere has nan cross sections at order 132. -/
example : exactArith.limited.cross exactArith 132 15 smallSphere = ⟨.nan, .nan, .nan, .nan, .nan, .nan⟩ :=
  C90_cross exactArith_within (limited_limits _) (by norm_num) le_rfl le_rfl _ (by rw [smallSphere_x]; norm_num) (by rw [smallSphere_x])

/-- A batch of this sphere and a sphere of size parameter 120. -/
example : ∃ n : ℕ, penaNmax [smallSphere.trunc, ⟨1, 1, [(120, 1)]⟩] = .ok n ∧
    exactArith.limited.cross exactArith n 15 smallSphere = ⟨.nan, .nan, .nan, .nan, .nan, .nan⟩ := by
  have hex : ∃ n : ℤ, penaNmax [smallSphere.trunc, ⟨1, 1, [(120, 1)]⟩] = .ok n := by
    obtain ⟨a, ha, -⟩ := maxAbs_spec (l := [smallSphere.trunc, (⟨1, 1, [(120, 1)]⟩ : TruncEntry)].map TruncEntry.xOuter) (by simp)
    obtain ⟨b, hb, -⟩ := maxAbs_spec (l := [smallSphere.trunc, (⟨1, 1, [(120, 1)]⟩ : TruncEntry)].flatMap TruncEntry.mx)
      (by simp [TruncEntry.mx])
    obtain ⟨c, hc, -⟩ := maxAbs_spec (l := [smallSphere.trunc, (⟨1, 1, [(120, 1)]⟩ : TruncEntry)].flatMap TruncEntry.mxPrev)
      (by simp [TruncEntry.mxPrev, Particle1.trunc, smallSphere])
    exact ⟨_, by unfold penaNmax; rw [ha, hb, hc]; rfl⟩
  obtain ⟨n, hn⟩ := hex
  have hmx : (120 : ℂ) ∈ (⟨1, 1, [(120, 1)]⟩ : TruncEntry).mx := by simp [TruncEntry.mx, csqrt_one']
  have h0 := ((C25_pena hn).2 ⟨1, 1, [(120, 1)]⟩ (by simp)).1 120 hmx
  have h1 : 0 ≤ n := by
    have : (0 : ℝ) ≤ n := le_trans (by norm_num) h0
    exact_mod_cast this
  obtain ⟨k, rfl⟩ := Int.eq_ofNat_of_zero_le h1
  exact ⟨k, hn, C90_batch exactArith_within (limited_limits _) (by norm_num) hn (e := ⟨1, 1, [(120, 1)]⟩) (by simp) hmx (by norm_num) _
    (by rw [smallSphere_x]; norm_num) (by rw [smallSphere_x])⟩

/-- A last step without overflow. -/
example : exactArith.limited.final (FC.ofC 1) (FC.ofC 1) (FC.ofC 0) (FC.ofC 2) (FC.ofC 0) = FC.ofC (1 / 2) := by
  have h1 : (1 : ℝ) < 2 ^ 1024 := one_lt_pow₀ (by norm_num) (by norm_num)
  have h2 : (2 : ℝ) < 2 ^ 1024 := by
    calc (2 : ℝ) = 2 ^ 1 := by norm_num
      _ < 2 ^ 1024 := pow_lt_pow_right₀ (by norm_num) (by norm_num)
  have h3 : |(1 / 2 : ℝ)| < 2 ^ 1024 := by rw [abs_of_pos (by norm_num)]; exact lt_trans (by norm_num) h1
  have c1 : chkC 1 = FC.ofC 1 := by simp [chkC, chkR, FC.ofC, h1]
  have c2 : chkC 2 = FC.ofC 2 := by simp [chkC, chkR, FC.ofC, h2]
  have m1 : exactArith.limited.mulC (FC.ofC 1) (FC.ofC 1) = FC.ofC 1 := by
    show chkC ((1 : ℂ) * 1) = _
    rw [one_mul, c1]
  have m2 : exactArith.limited.mulC (FC.ofC 1) (FC.ofC 2) = FC.ofC 2 := by
    show chkC ((1 : ℂ) * 2) = _
    rw [one_mul, c2]
  have s1 : exactArith.limited.subC (FC.ofC 1) (FC.ofC 0) = FC.ofC 1 := by
    show chkC ((1 : ℂ) - 0) = _
    rw [sub_zero, c1]
  have s2 : exactArith.limited.subC (FC.ofC 2) (FC.ofC 0) = FC.ofC 2 := by
    show chkC ((2 : ℂ) - 0) = _
    rw [sub_zero, c2]
  have ab : exactArith.limited.absC (FC.ofC 2) = .fin 2 := by
    show chkR ‖(2 : ℂ)‖ = _
    simp [chkR, h2]
  have g : exactArith.limited.guardC (FC.ofC 2) = FC.ofC 2 := by
    unfold FArith.guardC
    rw [ab]
    exact if_neg (by unfold solverEps; norm_num)
  have q : exactArith.limited.divC (FC.ofC 1) (FC.ofC 2) = FC.ofC (1 / 2) := by
    show chkC ((1 : ℂ) / 2) = _
    have e1 : ((1 : ℂ) / 2).re = 1 / 2 := by norm_num
    have e2 : ((1 : ℂ) / 2).im = 0 := by norm_num
    simp only [chkC, FC.ofC, e1, e2, chkR, if_pos h3]
    simp
  have hf : exactArith.limited.FinalFinite exactArith 1 1 0 2 0 := by
    refine ⟨?_, ?_, ?_, ?_, ?_, ?_, ?_⟩
    · rw [m1]; simp [FC.val_ofC]
    · rw [m1, s1]; simp [FC.val_ofC]
    · rw [m2]; simp [FC.val_ofC]
    · rw [m2, s2]; simp [FC.val_ofC]
    · simpa [exactArith] using h2
    · rw [m2, s2, g]; simp [FC.val_ofC]
    · unfold FArith.final; rw [m1, m2, s1, s2, g, q]; simp [FC.val_ofC]
  rw [final_val (limited_limits _) hf]
  simp only [Arith.final, exactArith, Arith.guard, solverEps]
  norm_num

/-- A finite sum of the limited arithmetic is the sum of finite values. -/
theorem limited_sum (A : Arith) {n : ℕ} {f1 f2 : ℕ → FC} {g1 g2 : ℕ → ℂ} {x : ℝ}
    (h : (A.limited.sum ((List.range n).map f1 ++ (List.range n).map f2)).re = .fin x)
    (h1 : ∀ i < n, ∀ c, (f1 i).val = some c → c = g1 i) (h2 : ∀ i < n, ∀ c, (f2 i).val = some c → c = g2 i) :
    x = (A.sum ((List.range n).map g1 ++ (List.range n).map g2)).re := by
  change (if ∀ x ∈ (List.range n).map f1 ++ (List.range n).map f2, x.val ≠ none then
    chkC (A.sum (((List.range n).map f1 ++ (List.range n).map f2).filterMap FC.val)) else FC.nan).re = .fin x at h
  split_ifs at h with hv
  · have key : ∀ (f : ℕ → FC) (g : ℕ → ℂ), (∀ i < n, (f i).val ≠ none) → (∀ i < n, ∀ c, (f i).val = some c → c = g i) →
        ((List.range n).map f).filterMap FC.val = (List.range n).map g := by
      intro f g hf hg
      rw [List.filterMap_map, ← List.filterMap_eq_map]
      refine List.filterMap_congr fun i hi => ?_
      have hi := List.mem_range.1 hi
      obtain ⟨c, hc⟩ := Option.ne_none_iff_exists'.1 (hf i hi)
      simp only [Function.comp, hc, hg i hi c hc]
    rw [List.filterMap_append, key f1 g1 (fun i hi => hv _ (by simp; exact .inl ⟨i, hi, rfl⟩)) h1,
      key f2 g2 (fun i hi => hv _ (by simp; exact .inr ⟨i, hi, rfl⟩)) h2] at h
    exact (chkR_bad h).1
  · exact absurd h (by simp [FC.nan])

theorem limited_term {k : ℂ} {i : ℕ} {v : Fl} {c : ℂ} (h : (exactArith.limited.mpTerm exactArith k i v).val = some c) :
    ∃ y : ℝ, v = .fin y ∧ c = exactArith.mpTerm k i y := by
  unfold FArith.mpTerm at h
  have bad : ∀ w : Fl, (∀ y, w ≠ .fin y) → ∀ a : ℂ, (exactArith.limited.mulC (FC.ofC a) ⟨w, .fin 0⟩).val = none := by
    intro w hw a
    apply FC.val_of_bad
    left
    cases w with
    | fin y => exact absurd rfl (hw y)
    | inf s =>
      show Fl.Bad (exactArith.limited.subF (FArith.mulInf (.fin a.re) (.inf s)) _)
      refine subF_bad_left ?_ _
      unfold FArith.mulInf
      split <;> trivial
    | nan =>
      show Fl.Bad (exactArith.limited.subF (FArith.mulInf (.fin a.re) .nan) _)
      refine subF_bad_left ?_ _
      unfold FArith.mulInf
      split <;> trivial
  cases v with
  | fin y =>
    refine ⟨y, rfl, ?_⟩
    have h' := FC.val_some h
    exact (chkC_fin h').1
  | inf s => rw [bad _ (by simp)] at h; exact absurd h (by simp)
  | nan => rw [bad _ (by simp)] at h; exact absurd h (by simp)

theorem limited_sub {a b : FC} {c : ℂ} (h : (exactArith.limited.subC a b).val = some c) :
    ∃ x y, a.val = some x ∧ b.val = some y ∧ c = x - y := by
  rcases ha : a.val with _ | x
  · exfalso
    have e : exactArith.limited.subC a b = ⟨exactArith.limited.subF a.re b.re, exactArith.limited.subF a.im b.im⟩ := by
      simp [FArith.subC, ha]
    rw [e, FC.val_of_bad] at h
    · exact absurd h (by simp)
    · rcases FC.val_none ha with h1 | h1
      exacts [.inl (subF_bad_left h1 _), .inr (subF_bad_left h1 _)]
  · rcases hb : b.val with _ | y
    · exfalso
      have e : exactArith.limited.subC a b = ⟨exactArith.limited.subF a.re b.re, exactArith.limited.subF a.im b.im⟩ := by
        simp [FArith.subC, ha, hb]
      rw [e, FC.val_of_bad] at h
      · exact absurd h (by simp)
      · rcases FC.val_none hb with h1 | h1
        exacts [.inl (subF_bad_right _ h1), .inr (subF_bad_right _ h1)]
    · refine ⟨x, y, rfl, rfl, ?_⟩
      have e : exactArith.limited.subC a b = chkC (x - y) := by simp [FArith.subC, ha, hb]; rfl
      rw [e] at h
      exact (chkC_fin (FC.val_some h)).1

theorem limited_div {v : Fl} {y x : ℝ} (h : exactArith.limited.divF v (.fin y) = .fin x) : ∃ c : ℝ, v = .fin c ∧ x = (c / y : ℝ) := by
  cases v with
  | fin c =>
    refine ⟨c, rfl, ?_⟩
    have := (chkR_bad h).1
    rw [this]
    show ((c : ℂ) / (y : ℂ)).re = _
    rw [← ofReal_div, ofReal_re]
  | inf s => simp [FArith.divF] at h
  | nan => simp [FArith.divF] at h

/-- **C90** (the model of the cross sections).  If the coefficients are finite then every cross section and efficiency of double range that is
finite is that of the arithmetic without range. -/
theorem C90_model_cross (n N : ℕ) (p : Particle1)
    (hm : ∀ i < n, exactArith.limited.mie exactArith n N p (i + 1) =
      (FC.ofC (exactArith.mie n N p (i + 1)).1, FC.ofC (exactArith.mie n N p (i + 1)).2)) (x : ℝ) :
    ((exactArith.limited.cross exactArith n N p).ext = .fin x → x = (exactArith.cross n N p).ext) ∧
    ((exactArith.limited.cross exactArith n N p).sca = .fin x → x = (exactArith.cross n N p).sca) ∧
    ((exactArith.limited.cross exactArith n N p).abs = .fin x → x = (exactArith.cross n N p).abs) ∧
    ((exactArith.limited.cross exactArith n N p).qExt = .fin x → x = (exactArith.cross n N p).qExt) ∧
    ((exactArith.limited.cross exactArith n N p).qSca = .fin x → x = (exactArith.cross n N p).qSca) ∧
    ((exactArith.limited.cross exactArith n N p).qAbs = .fin x → x = (exactArith.cross n N p).qAbs) := by
  have re1 : ∀ i < n, ∀ k c, (exactArith.limited.mpTerm exactArith k i (exactArith.limited.mie exactArith n N p (i + 1)).1.re).val = some c →
      c = exactArith.mpTerm k i ((exactArith.mie n N p (i + 1)).1.re : ℝ) := fun i hi k c h => by
    obtain ⟨y, e, rfl⟩ := limited_term h
    rw [hm i hi] at e
    rw [← Fl.fin.inj e]
  have re2 : ∀ i < n, ∀ k c, (exactArith.limited.mpTerm exactArith k i (exactArith.limited.mie exactArith n N p (i + 1)).2.re).val = some c →
      c = exactArith.mpTerm k i ((exactArith.mie n N p (i + 1)).2.re : ℝ) := fun i hi k c h => by
    obtain ⟨y, e, rfl⟩ := limited_term h
    rw [hm i hi] at e
    rw [← Fl.fin.inj e]
  have sqv : ∀ (z : ℂ) (y : ℝ), exactArith.limited.mulF (exactArith.limited.absC (FC.ofC z)) (exactArith.limited.absC (FC.ofC z)) = .fin y →
      (y : ℂ) = exactArith.mul (exactArith.abs z) (exactArith.abs z) := by
    intro z y h
    have ha : exactArith.limited.absC (FC.ofC z) = chkR (exactArith.abs z) := rfl
    rw [ha] at h
    unfold chkR at h
    split_ifs at h with h1
    · have := (chkR_bad h).1
      rw [this]
      show (((((exactArith.abs z : ℝ) : ℂ) * ((exactArith.abs z : ℝ) : ℂ)).re : ℝ) : ℂ) = ((exactArith.abs z : ℝ) : ℂ) * ((exactArith.abs z : ℝ) : ℂ)
      rw [← ofReal_mul, ofReal_re]
    · simp [FArith.mulF, FArith.mulInf, FArith.sign] at h
  have sq1 : ∀ i < n, ∀ k c, (exactArith.limited.mpTerm exactArith k i
      (exactArith.limited.mulF (exactArith.limited.absC (exactArith.limited.mie exactArith n N p (i + 1)).1)
        (exactArith.limited.absC (exactArith.limited.mie exactArith n N p (i + 1)).1))).val = some c →
      c = exactArith.mpTerm k i (exactArith.mul (exactArith.abs (exactArith.mie n N p (i + 1)).1) (exactArith.abs (exactArith.mie n N p (i + 1)).1)) :=
    fun i hi k c h => by
    obtain ⟨y, e, rfl⟩ := limited_term h
    rw [hm i hi] at e
    rw [sqv _ _ e]
  have sq2 : ∀ i < n, ∀ k c, (exactArith.limited.mpTerm exactArith k i
      (exactArith.limited.mulF (exactArith.limited.absC (exactArith.limited.mie exactArith n N p (i + 1)).2)
        (exactArith.limited.absC (exactArith.limited.mie exactArith n N p (i + 1)).2))).val = some c →
      c = exactArith.mpTerm k i (exactArith.mul (exactArith.abs (exactArith.mie n N p (i + 1)).2) (exactArith.abs (exactArith.mie n N p (i + 1)).2)) :=
    fun i hi k c h => by
    obtain ⟨y, e, rfl⟩ := limited_term h
    rw [hm i hi] at e
    rw [sqv _ _ e]
  have hE : ∀ x, (exactArith.limited.cross exactArith n N p).ext = .fin x → x = (exactArith.cross n N p).ext := fun x h =>
    limited_sum exactArith h (fun i hi c hc => re1 i hi _ c hc) (fun i hi c hc => re2 i hi _ c hc)
  have hS : ∀ x, (exactArith.limited.cross exactArith n N p).sca = .fin x → x = (exactArith.cross n N p).sca := fun x h =>
    limited_sum exactArith h (fun i hi c hc => sq1 i hi _ c hc) (fun i hi c hc => sq2 i hi _ c hc)
  have hA : ∀ x, (exactArith.limited.cross exactArith n N p).abs = .fin x → x = (exactArith.cross n N p).abs := fun x h =>
    limited_sum exactArith h
      (fun i hi c hc => by
        obtain ⟨a, b, ha, hb, rfl⟩ := limited_sub hc
        rw [re1 i hi _ a ha, sq1 i hi _ b hb]; rfl)
      (fun i hi c hc => by
        obtain ⟨a, b, ha, hb, rfl⟩ := limited_sub hc
        rw [re2 i hi _ a ha, sq2 i hi _ b hb]; rfl)
  have hq : ∀ (v : Fl) (e : ℝ), (∀ x, v = .fin x → x = e) → ∀ x, exactArith.limited.divF v
      (.fin (exactArith.mul exactArith.pi (exactArith.mul ((p.rLayers.getLastD 0 : ℝ) : ℂ) ((p.rLayers.getLastD 0 : ℝ) : ℂ))).re) = .fin x →
      x = (exactArith.div e (exactArith.mul exactArith.pi (exactArith.mul ((p.rLayers.getLastD 0 : ℝ) : ℂ) ((p.rLayers.getLastD 0 : ℝ) : ℂ)))).re := by
    intro v e he x h
    obtain ⟨c, hc, rfl⟩ := limited_div h
    rw [he c hc]
    generalize p.rLayers.getLastD 0 = r
    generalize exactArith.pi = q
    show e / (((q : ℝ) : ℂ) * ((r : ℂ) * (r : ℂ))).re = ((e : ℂ) / ((q : ℂ) * ((r : ℂ) * (r : ℂ)))).re
    rw [show ((q : ℝ) : ℂ) * ((r : ℂ) * (r : ℂ)) = ((q * (r * r) : ℝ) : ℂ) by push_cast; ring, ofReal_re, ← ofReal_div, ofReal_re]
  exact ⟨hE x, hS x, hA x, hq _ _ hE x, hq _ _ hS x, hq _ _ hA x⟩

theorem chkC_of_norm {z : ℂ} (h : ‖z‖ ≤ 10) : chkC z = FC.ofC z := by
  have h10 : (10 : ℝ) < 2 ^ 1024 := lt_of_lt_of_le (by norm_num : (10 : ℝ) < 2 ^ 4) (pow_le_pow_right₀ (by norm_num) (by norm_num))
  have h1 : |z.re| < 2 ^ 1024 := lt_of_le_of_lt ((abs_re_le_norm z).trans h) h10
  have h2 : |z.im| < 2 ^ 1024 := lt_of_le_of_lt ((abs_im_le_norm z).trans h) h10
  simp [chkC, chkR, FC.ofC, h1, h2]

theorem csqrt_four' : csqrt 4 = 2 := by
  have := csqrt_ofReal (show (0 : ℝ) ≤ 4 by norm_num)
  rw [show Real.sqrt 4 = 2 by rw [show (4 : ℝ) = 2 ^ 2 by norm_num]; exact Real.sqrt_sq (by norm_num)] at this
  exact_mod_cast this

theorem exact_guard_big {z : ℂ} (h : 1 ≤ ‖z‖) : exactArith.guard z = z := by
  unfold Arith.guard
  rw [if_neg]
  show ¬ ‖z‖ < solverEps
  unfold solverEps
  norm_num
  linarith

/-- Without large numbers the last step is exact. -/
theorem limited_final {t p p' z z' : ℂ} (h1 : ‖t * p‖ ≤ 10) (h2 : ‖t * p - p'‖ ≤ 10) (h3 : ‖t * z‖ ≤ 10) (h4 : ‖t * z - z'‖ ≤ 10)
    (h5 : 1 ≤ ‖t * z - z'‖) : exactArith.limited.final (FC.ofC t) (FC.ofC p) (FC.ofC p') (FC.ofC z) (FC.ofC z') =
      FC.ofC (exactArith.final t p p' z z') := by
  have m1 : exactArith.limited.mulC (FC.ofC t) (FC.ofC p) = FC.ofC (t * p) := chkC_of_norm h1
  have m2 : exactArith.limited.mulC (FC.ofC t) (FC.ofC z) = FC.ofC (t * z) := chkC_of_norm h3
  have s1 : exactArith.limited.subC (FC.ofC (t * p)) (FC.ofC p') = FC.ofC (t * p - p') := chkC_of_norm h2
  have s2 : exactArith.limited.subC (FC.ofC (t * z)) (FC.ofC z') = FC.ofC (t * z - z') := chkC_of_norm h4
  have a1 : exactArith.limited.absC (FC.ofC (t * z - z')) = .fin ‖t * z - z'‖ := by
    show chkR ‖t * z - z'‖ = _
    unfold chkR
    rw [if_pos]
    rw [abs_of_nonneg (norm_nonneg _)]
    exact lt_of_le_of_lt h4 (lt_of_lt_of_le (by norm_num : (10 : ℝ) < 2 ^ 4) (pow_le_pow_right₀ (by norm_num) (by norm_num)))
  have g1 : exactArith.limited.guardC (FC.ofC (t * z - z')) = FC.ofC (t * z - z') := by
    unfold FArith.guardC
    rw [a1]
    simp only
    rw [if_neg]
    unfold solverEps
    norm_num
    linarith
  have d1 : exactArith.limited.divC (FC.ofC (t * p - p')) (FC.ofC (t * z - z')) = FC.ofC ((t * p - p') / (t * z - z')) := by
    refine chkC_of_norm ?_
    show ‖(t * p - p') / (t * z - z')‖ ≤ 10
    rw [norm_div]
    exact (div_le_self (norm_nonneg _) h5).trans h2
  unfold FArith.final
  rw [m1, m2, s1, s2, g1, d1]
  congr 1
  unfold Arith.final
  rw [exact_guard_big (by exact h5)]
  rfl

/-- `C90_model_cross` applies to a glass sphere of size parameter 1 with one order: its coefficients are finite. -/
example (x : ℝ) : (exactArith.limited.cross exactArith 1 1 ⟨1, [1], [4], 1⟩).ext = .fin x → x = (exactArith.cross 1 1 ⟨1, [1], [4], 1⟩).ext := by
  refine (C90_model_cross 1 1 ⟨1, [1], [4], 1⟩ (fun i hi => ?_) x).1
  obtain rfl : i = 0 := by omega
  have hlay : exactArith.layers ⟨1, [1], [4], 1⟩ = [((2 : ℂ), (1 : ℂ))] := by
    simp [Arith.layers, Arith.host, exactArith, csqrt_one', csqrt_four']
  have g1 : exactArith.guard 1 = 1 := exact_guard_big (by norm_num)
  have g2 : exactArith.guard 2 = 2 := exact_guard_big (by norm_num)
  have D2 : exactArith.d1 1 1 2 1 = 0 := by
    show exactArith.d1Down (exactArith.guard 2) 2 1 = 0
    rw [g2]
    show ((2 : ℕ) : ℂ) / 2 - 1 / exactArith.guard (0 + ((2 : ℕ) : ℂ) / 2) = 0
    rw [show (0 : ℂ) + ((2 : ℕ) : ℂ) / 2 = 1 by norm_num, g1]
    norm_num
  have D1 : exactArith.d1 1 1 1 0 = 3 / 5 := by
    show exactArith.d1Down (exactArith.guard 1) 2 2 = 3 / 5
    rw [g1]
    have e1 : exactArith.d1Down 1 2 1 = 3 / 2 := by
      show ((2 : ℕ) : ℂ) / 1 - 1 / exactArith.guard (0 + ((2 : ℕ) : ℂ) / 1) = 3 / 2
      rw [show (0 : ℂ) + ((2 : ℕ) : ℂ) / 1 = 2 by norm_num, g2]
      norm_num
    show ((1 : ℕ) : ℂ) / 1 - 1 / exactArith.guard (exactArith.d1Down 1 2 1 + ((1 : ℕ) : ℂ) / 1) = 3 / 5
    rw [e1, show (3 / 2 : ℂ) + ((1 : ℕ) : ℂ) / 1 = 5 / 2 by norm_num, exact_guard_big (by norm_num)]
    norm_num
  have D3 : exactArith.d3 1 (exactArith.d1 1 1 1) 0 = I := rfl
  have hsin : ‖Complex.sin 1‖ ≤ 1 := by
    rw [show (1 : ℂ) = ((1 : ℝ) : ℂ) by simp, ← ofReal_sin, norm_real]; exact Real.abs_sin_le_one 1
  have hz0 : ‖Complex.sin 1 - I * Complex.cos 1‖ = 1 := by
    have : Complex.sin 1 - I * Complex.cos 1 = -I * Complex.exp (((1 : ℝ) : ℂ) * I) := by
      rw [exp_mul_I]
      push_cast
      linear_combination (Complex.sin 1) * I_mul_I
    rw [this, norm_mul, norm_exp_ofReal_mul_I]
    simp
  have p1 : exactArith.limited.prodSeq exactArith (Complex.sin 1) 1 (exactArith.d1 1 1 1) 1 = FC.ofC (Complex.sin 1 * (2 / 5)) := by
    show chkC (Complex.sin 1 * (((1 : ℕ) : ℂ) / exactArith.guard 1 - exactArith.d1 1 1 1 0)) = _
    rw [g1, D1, show ((1 : ℕ) : ℂ) / 1 - 3 / 5 = 2 / 5 by norm_num]
    refine chkC_of_norm ?_
    rw [norm_mul]
    norm_num
    linarith
  have q1 : exactArith.prodSeq (Complex.sin 1) 1 (exactArith.d1 1 1 1) 1 = Complex.sin 1 * (2 / 5) := by
    show Complex.sin 1 * (((1 : ℕ) : ℂ) / exactArith.guard 1 - exactArith.d1 1 1 1 0) = _
    rw [g1, D1, show ((1 : ℕ) : ℂ) / 1 - 3 / 5 = 2 / 5 by norm_num]
  have n1 : ‖(1 : ℂ) - I‖ ≤ 2 := (norm_sub_le _ _).trans (by norm_num)
  have p3 : exactArith.limited.prodSeq exactArith (Complex.sin 1 - I * Complex.cos 1) 1 (exactArith.d3 1 (exactArith.d1 1 1 1)) 1 =
      FC.ofC ((Complex.sin 1 - I * Complex.cos 1) * (1 - I)) := by
    show chkC ((Complex.sin 1 - I * Complex.cos 1) * (((1 : ℕ) : ℂ) / exactArith.guard 1 - exactArith.d3 1 (exactArith.d1 1 1 1) 0)) = _
    rw [g1, D3, show ((1 : ℕ) : ℂ) / 1 - I = 1 - I by norm_num]
    refine chkC_of_norm ?_
    rw [norm_mul, hz0]
    linarith
  have q3 : exactArith.prodSeq (Complex.sin 1 - I * Complex.cos 1) 1 (exactArith.d3 1 (exactArith.d1 1 1 1)) 1 =
      (Complex.sin 1 - I * Complex.cos 1) * (1 - I) := by
    show (Complex.sin 1 - I * Complex.cos 1) * (((1 : ℕ) : ℂ) / exactArith.guard 1 - exactArith.d3 1 (exactArith.d1 1 1 1) 0) = _
    rw [g1, D3, show ((1 : ℕ) : ℂ) / 1 - I = 1 - I by norm_num]
  have tA : (0 : ℂ) / 2 + ((1 : ℕ) : ℂ) / 1 = 1 := by norm_num
  have tB : (2 : ℂ) * 0 + ((1 : ℕ) : ℂ) / 1 = 1 := by norm_num
  have fin : exactArith.limited.final (FC.ofC 1) (FC.ofC (Complex.sin 1 * (2 / 5))) (FC.ofC (Complex.sin 1))
      (FC.ofC ((Complex.sin 1 - I * Complex.cos 1) * (1 - I))) (FC.ofC (Complex.sin 1 - I * Complex.cos 1)) =
      FC.ofC (exactArith.final 1 (Complex.sin 1 * (2 / 5)) (Complex.sin 1) ((Complex.sin 1 - I * Complex.cos 1) * (1 - I))
        (Complex.sin 1 - I * Complex.cos 1)) := by
    have e : (1 : ℂ) * ((Complex.sin 1 - I * Complex.cos 1) * (1 - I)) - (Complex.sin 1 - I * Complex.cos 1) =
        -I * (Complex.sin 1 - I * Complex.cos 1) := by ring
    have s : ‖Complex.sin 1 * (2 / 5)‖ ≤ 1 := by rw [norm_mul]; norm_num; linarith
    refine limited_final ?_ ?_ ?_ ?_ ?_
    · rw [one_mul]; linarith
    · rw [one_mul]; exact (norm_sub_le _ _).trans (by linarith)
    · rw [one_mul, norm_mul, hz0]; linarith
    · rw [e, norm_mul, hz0]; norm_num
    · rw [e, norm_mul, hz0]; norm_num
  unfold FArith.mie Arith.mie
  simp only [hlay, List.foldl_nil]
  have st : exactArith.init 1 1 ((2 : ℂ), (1 : ℂ)) = ⟨2, 1, exactArith.d1 1 1 2, exactArith.d1 1 1 2⟩ := by
    show (⟨2, 1, exactArith.d1 1 1 (2 * 1), exactArith.d1 1 1 (2 * 1)⟩ : Arith.State) = _
    rw [mul_one]
  rw [st]
  have cF : exactArith.limited.coefs exactArith 1 1 ⟨2, 1, exactArith.d1 1 1 2, exactArith.d1 1 1 2⟩ (0 + 1) =
      (exactArith.limited.final (FC.ofC (exactArith.d1 1 1 2 1 / 2 + ((1 : ℕ) : ℂ) / exactArith.guard 1))
        (exactArith.limited.prodSeq exactArith (Complex.sin 1) 1 (exactArith.d1 1 1 1) 1) (FC.ofC (Complex.sin 1))
        (exactArith.limited.prodSeq exactArith (Complex.sin 1 - I * Complex.cos 1) 1 (exactArith.d3 1 (exactArith.d1 1 1 1)) 1)
        (FC.ofC (Complex.sin 1 - I * Complex.cos 1)),
       exactArith.limited.final (FC.ofC (2 * exactArith.d1 1 1 2 1 + ((1 : ℕ) : ℂ) / exactArith.guard 1))
        (exactArith.limited.prodSeq exactArith (Complex.sin 1) 1 (exactArith.d1 1 1 1) 1) (FC.ofC (Complex.sin 1))
        (exactArith.limited.prodSeq exactArith (Complex.sin 1 - I * Complex.cos 1) 1 (exactArith.d3 1 (exactArith.d1 1 1 1)) 1)
        (FC.ofC (Complex.sin 1 - I * Complex.cos 1))) := rfl
  have cA : exactArith.coefs 1 1 ⟨2, 1, exactArith.d1 1 1 2, exactArith.d1 1 1 2⟩ (0 + 1) =
      (exactArith.final (exactArith.d1 1 1 2 1 / 2 + ((1 : ℕ) : ℂ) / exactArith.guard 1)
        (exactArith.prodSeq (Complex.sin 1) 1 (exactArith.d1 1 1 1) 1) (Complex.sin 1)
        (exactArith.prodSeq (Complex.sin 1 - I * Complex.cos 1) 1 (exactArith.d3 1 (exactArith.d1 1 1 1)) 1)
        (Complex.sin 1 - I * Complex.cos 1),
       exactArith.final (2 * exactArith.d1 1 1 2 1 + ((1 : ℕ) : ℂ) / exactArith.guard 1)
        (exactArith.prodSeq (Complex.sin 1) 1 (exactArith.d1 1 1 1) 1) (Complex.sin 1)
        (exactArith.prodSeq (Complex.sin 1 - I * Complex.cos 1) 1 (exactArith.d3 1 (exactArith.d1 1 1 1)) 1)
        (Complex.sin 1 - I * Complex.cos 1)) := rfl
  rw [cF, cA, g1, D2, p1, p3, q1, q3, tA, tB, fin]

end MieDiff
