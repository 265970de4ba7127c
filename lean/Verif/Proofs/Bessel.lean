import Verif.Spec.Bessel
import Mathlib.Analysis.Complex.CauchyIntegral
import Mathlib.Analysis.Calculus.Deriv.Inv
import Mathlib.Analysis.Calculus.Deriv.Mul
import Mathlib.Analysis.Calculus.Deriv.Pow
import Mathlib.Tactic.Ring
import Mathlib.Tactic.FieldSimp
import Mathlib.Tactic.LinearCombination

namespace MieDiff.Spec

open Complex

/-- The two differentiation rules shared by all spherical Bessel functions. -/
structure BesselSeq (f : ℕ → ℂ → ℂ) : Prop where
  raise : ∀ n z, z ≠ 0 → HasDerivAt (f n) ((n : ℂ) / z * f n z - f (n + 1) z) z
  lower : ∀ n z, z ≠ 0 → HasDerivAt (f (n + 1)) (f n z - ((n : ℂ) + 2) / z * f (n + 1) z) z

theorem isOpen_ne0 : IsOpen {z : ℂ | z ≠ 0} := isOpen_ne

theorem rayleigh_diff {f : ℂ → ℂ} (hf : DifferentiableOn ℂ f {z | z ≠ 0}) (n : ℕ) :
    DifferentiableOn ℂ (rayleighOp^[n] f) {z | z ≠ 0} := by
  induction n with
  | zero => simpa using hf
  | succ n ih =>
    rw [Function.iterate_succ_apply']
    have := ih.deriv isOpen_ne0
    unfold rayleighOp
    exact this.neg.div differentiableOn_id (fun z hz => hz)

theorem rayleigh_raise {f : ℂ → ℂ} (hf : DifferentiableOn ℂ f {z | z ≠ 0}) (n : ℕ) (z : ℂ)
    (hz : z ≠ 0) :
    HasDerivAt (rayleigh f n) ((n : ℂ) / z * rayleigh f n z - rayleigh f (n + 1) z) z := by
  have hd : DifferentiableAt ℂ (rayleighOp^[n] f) z :=
    (rayleigh_diff hf n).differentiableAt (isOpen_ne0.mem_nhds hz)
  have h := (hasDerivAt_pow n z).mul hd.hasDerivAt
  refine h.congr_deriv ?_
  unfold rayleigh
  rw [Function.iterate_succ_apply']
  simp only [rayleighOp]
  cases n with
  | zero => simp; field_simp
  | succ n =>
    simp only [Nat.add_sub_cancel]
    rw [pow_succ z (n + 1), pow_succ z n]
    field_simp
    ring

theorem rayleigh_lower {f : ℂ → ℂ} (hf : DifferentiableOn ℂ f {z | z ≠ 0})
    (h0 : ∀ z, z ≠ 0 → HasDerivAt (rayleigh f 1) (f z - 2 / z * rayleigh f 1 z) z)
    (n : ℕ) :
    ∀ z, z ≠ 0 → HasDerivAt (rayleigh f (n + 1))
      (rayleigh f n z - ((n : ℂ) + 2) / z * rayleigh f (n + 1) z) z := by
  induction n with
  | zero =>
    intro z hz
    have := h0 z hz
    simpa [rayleigh] using this
  | succ n ih =>
    have three : ∀ z, z ≠ 0 → rayleigh f (n + 2) z =
        (2 * (n : ℂ) + 3) / z * rayleigh f (n + 1) z - rayleigh f n z := by
      intro z hz
      have h1 := (rayleigh_raise hf (n + 1) z hz).unique (ih z hz)
      push_cast at h1
      field_simp at h1 ⊢
      linear_combination -h1
    intro z hz
    have hd : HasDerivAt (fun w => (2 * (n : ℂ) + 3) / w * rayleigh f (n + 1) w - rayleigh f n w)
        ((-(2 * (n : ℂ) + 3) / z ^ 2) * rayleigh f (n + 1) z +
          (2 * (n : ℂ) + 3) / z * (rayleigh f n z - ((n : ℂ) + 2) / z * rayleigh f (n + 1) z) -
          ((n : ℂ) / z * rayleigh f n z - rayleigh f (n + 1) z)) z := by
      have h1 : HasDerivAt (fun w : ℂ => (2 * (n : ℂ) + 3) / w) (-(2 * (n : ℂ) + 3) / z ^ 2) z := by
        have := (hasDerivAt_inv hz).const_mul (2 * (n : ℂ) + 3)
        simp only [div_eq_mul_inv]
        refine this.congr_deriv ?_
        ring
      exact (h1.mul (ih z hz)).sub (rayleigh_raise hf n z hz)
    have he : rayleigh f (n + 2) =ᶠ[nhds z]
        (fun w => (2 * (n : ℂ) + 3) / w * rayleigh f (n + 1) w - rayleigh f n w) := by
      filter_upwards [isOpen_ne0.mem_nhds hz] with w hw
      exact three w hw
    have h2 := hd.congr_of_eventuallyEq he
    refine h2.congr_deriv ?_
    have e : n + 1 + 1 = n + 2 := rfl
    rw [e, three z hz]
    push_cast
    field_simp
    ring

theorem sinc_diff : DifferentiableOn ℂ (fun w : ℂ => sin w / w) {z | z ≠ 0} :=
  differentiable_sin.differentiableOn.div differentiableOn_id (fun _ h => h)

theorem cosc_diff : DifferentiableOn ℂ (fun w : ℂ => -cos w / w) {z | z ≠ 0} :=
  differentiable_cos.neg.differentiableOn.div differentiableOn_id (fun _ h => h)

theorem rayleigh_zero (f : ℂ → ℂ) (z : ℂ) : rayleigh f 0 z = f z := by simp [rayleigh]

theorem sphJ_zero (z : ℂ) : sphJ 0 z = sin z / z := rayleigh_zero _ _

theorem sphY_zero (z : ℂ) : sphY 0 z = -cos z / z := rayleigh_zero _ _

theorem sphJ_one {z : ℂ} (hz : z ≠ 0) : sphJ 1 z = sin z / z ^ 2 - cos z / z := by
  have h1 := rayleigh_raise sinc_diff 0 z hz
  have h2 : HasDerivAt (rayleigh (fun w : ℂ => sin w / w) 0) ((cos z * z - sin z * 1) / z ^ 2) z := by
    have : rayleigh (fun w : ℂ => sin w / w) 0 = fun w => sin w / w := funext (rayleigh_zero _)
    rw [this]
    exact (hasDerivAt_sin z).div (hasDerivAt_id z) hz
  have h3 := h1.unique h2
  unfold sphJ
  simp only [Nat.cast_zero, zero_div, zero_mul, zero_sub] at h3
  have h4 : rayleigh (fun w : ℂ => sin w / w) (0 + 1) z = -((cos z * z - sin z * 1) / z ^ 2) := by
    linear_combination -h3
  rw [show (1 : ℕ) = 0 + 1 from rfl, h4]
  field_simp
  ring

theorem sphY_one {z : ℂ} (hz : z ≠ 0) : sphY 1 z = -(cos z / z ^ 2 + sin z / z) := by
  have h1 := rayleigh_raise cosc_diff 0 z hz
  have h2 : HasDerivAt (rayleigh (fun w : ℂ => -cos w / w) 0) ((-(-sin z) * z - -cos z * 1) / z ^ 2) z := by
    have : rayleigh (fun w : ℂ => -cos w / w) 0 = fun w => -cos w / w := funext (rayleigh_zero _)
    rw [this]
    exact (hasDerivAt_cos z).neg.div (hasDerivAt_id z) hz
  have h3 := h1.unique h2
  unfold sphY
  simp only [Nat.cast_zero, zero_div, zero_mul, zero_sub] at h3
  have h4 : rayleigh (fun w : ℂ => -cos w / w) (0 + 1) z = -((-(-sin z) * z - -cos z * 1) / z ^ 2) := by
    linear_combination -h3
  rw [show (1 : ℕ) = 0 + 1 from rfl, h4]
  field_simp
  ring

theorem sphJ_seq : BesselSeq sphJ where
  raise := fun n z hz => rayleigh_raise sinc_diff n z hz
  lower := fun n z hz => by
    refine rayleigh_lower sinc_diff ?_ n z hz
    intro z hz
    have he : rayleigh (fun w : ℂ => sin w / w) 1 =ᶠ[nhds z] fun w => sin w / w ^ 2 - cos w / w := by
      filter_upwards [isOpen_ne0.mem_nhds hz] with w hw
      exact sphJ_one hw
    have hd : HasDerivAt (fun w : ℂ => sin w / w ^ 2 - cos w / w)
        ((cos z * z ^ 2 - sin z * (2 * z)) / (z ^ 2) ^ 2 - (-sin z * z - cos z * 1) / z ^ 2) z := by
      refine HasDerivAt.sub ?_ ((hasDerivAt_cos z).div (hasDerivAt_id z) hz)
      have := (hasDerivAt_sin z).div (hasDerivAt_pow 2 z) (pow_ne_zero 2 hz)
      exact this.congr_deriv (by simp)
    refine (hd.congr_of_eventuallyEq he).congr_deriv ?_
    have := sphJ_one hz
    unfold sphJ at this
    rw [this]
    field_simp
    ring

theorem sphY_seq : BesselSeq sphY where
  raise := fun n z hz => rayleigh_raise cosc_diff n z hz
  lower := fun n z hz => by
    refine rayleigh_lower cosc_diff ?_ n z hz
    intro z hz
    have he : rayleigh (fun w : ℂ => -cos w / w) 1 =ᶠ[nhds z] fun w => -(cos w / w ^ 2 + sin w / w) := by
      filter_upwards [isOpen_ne0.mem_nhds hz] with w hw
      exact sphY_one hw
    have hd : HasDerivAt (fun w : ℂ => -(cos w / w ^ 2 + sin w / w))
        (-((-sin z * z ^ 2 - cos z * (2 * z)) / (z ^ 2) ^ 2 + (cos z * z - sin z * 1) / z ^ 2)) z := by
      refine (HasDerivAt.add ?_ ((hasDerivAt_sin z).div (hasDerivAt_id z) hz)).neg
      have := (hasDerivAt_cos z).div (hasDerivAt_pow 2 z) (pow_ne_zero 2 hz)
      exact this.congr_deriv (by simp)
    refine (hd.congr_of_eventuallyEq he).congr_deriv ?_
    have := sphY_one hz
    unfold sphY at this
    rw [this]
    field_simp
    ring

theorem BesselSeq.combine {f g : ℕ → ℂ → ℂ} (hf : BesselSeq f) (hg : BesselSeq g) (c : ℂ) :
    BesselSeq (fun n z => f n z + c * g n z) where
  raise := fun n z hz => by
    refine ((hf.raise n z hz).add ((hg.raise n z hz).const_mul c)).congr_deriv ?_
    ring
  lower := fun n z hz => by
    refine ((hf.lower n z hz).add ((hg.lower n z hz).const_mul c)).congr_deriv ?_
    ring

theorem sphH_seq : BesselSeq sphH := sphJ_seq.combine sphY_seq I

/-- Three-term recurrence. -/
theorem BesselSeq.three {f : ℕ → ℂ → ℂ} (hf : BesselSeq f) (n : ℕ) {z : ℂ} (hz : z ≠ 0) :
    f (n + 2) z = (2 * (n : ℂ) + 3) / z * f (n + 1) z - f n z := by
  have h1 := (hf.raise (n + 1) z hz).unique (hf.lower n z hz)
  push_cast at h1
  field_simp at h1 ⊢
  linear_combination -h1

/-- Derivative of the Riccati form, in terms of the order below. -/
theorem BesselSeq.ric_lower {f : ℕ → ℂ → ℂ} (hf : BesselSeq f) (n : ℕ) {z : ℂ} (hz : z ≠ 0) :
    HasDerivAt (fun w => w * f (n + 1) w) (z * f n z - ((n : ℂ) + 1) / z * (z * f (n + 1) z)) z := by
  refine ((hasDerivAt_id z).mul (hf.lower n z hz)).congr_deriv ?_
  simp only [id]
  field_simp
  ring

/-- Derivative of the Riccati form, in terms of the order above. -/
theorem BesselSeq.ric_raise {f : ℕ → ℂ → ℂ} (hf : BesselSeq f) (n : ℕ) {z : ℂ} (hz : z ≠ 0) :
    HasDerivAt (fun w => w * f n w) (((n : ℂ) + 1) / z * (z * f n z) - z * f (n + 1) z) z := by
  refine ((hasDerivAt_id z).mul (hf.raise n z hz)).congr_deriv ?_
  simp only [id]
  field_simp
  ring

/-- Cross product of neighbouring orders. -/
theorem ric_cross (n : ℕ) {z : ℂ} (hz : z ≠ 0) :
    ricPsi (n + 1) z * ricZeta n z - ricPsi n z * ricZeta (n + 1) z = I := by
  induction n with
  | zero =>
    simp only [ricPsi, ricZeta, sphH]
    rw [show 0 + 1 = 1 from rfl, sphJ_one hz, sphY_one hz, sphJ_zero, sphY_zero]
    have := sin_sq_add_cos_sq z
    field_simp
    linear_combination z * I * this
  | succ n ih =>
    rw [← ih]
    simp only [ricPsi, ricZeta]
    rw [sphJ_seq.three n hz, sphH_seq.three n hz]
    ring

end MieDiff.Spec
