import Verif.Spec.Field
import Mathlib.Topology.Instances.Complex

/-!
# Specification: scattering by a layered sphere

The boundary value problem of Maxwell's equations for concentric spherical layers.  This file does not use the model.
-/

namespace MieDiff.Spec

open Filter Topology

def SVec.sub (v w : SVec) : SVec := ⟨v.r - w.r, v.t - w.t, v.p - w.p⟩

/-- All components are at most `M`. -/
def SVec.Le (v : SVec) (M : ℝ) : Prop := ‖v.r‖ ≤ M ∧ ‖v.t‖ ≤ M ∧ ‖v.p‖ ≤ M

/-- Convergence of the components. -/
def SVec.Tends {ι : Type*} (f : ι → SVec) (l : Filter ι) (v : SVec) : Prop :=
  Tendsto (fun i => (f i).r) l (𝓝 v.r) ∧ Tendsto (fun i => (f i).t) l (𝓝 v.t) ∧ Tendsto (fun i => (f i).p) l (𝓝 v.p)

/-- Silver-Müller radiation condition in a medium of index `m`: `r (m E - H × e_r) → 0` in every direction, and the radial
components decrease faster than `1 / r`. -/
def Radiates (m : ℂ) (E H : SField) : Prop := ∀ t p : ℝ,
  Tendsto (fun r : ℝ => (r : ℂ) * (m * (E r t p).t - (H r t p).p)) atTop (𝓝 0) ∧
  Tendsto (fun r : ℝ => (r : ℂ) * (m * (E r t p).p + (H r t p).t)) atTop (𝓝 0) ∧
  Tendsto (fun r : ℝ => (r : ℂ) * (E r t p).r) atTop (𝓝 0) ∧ Tendsto (fun r : ℝ => (r : ℂ) * (H r t p).r) atTop (𝓝 0)

/-- `E j`, `H j` are the total fields in region `j` of a sphere with `L` layers, the host being region `L`.  Region `j` has index `m j`
and lies between the radii `R j` and `R (j + 1)`, `R 0 = 0`; `Ei`, `Hi` is the incident field. -/
structure IsScattering (k0 : ℝ) (L : ℕ) (m : ℕ → ℂ) (R : ℕ → ℝ) (Ei Hi : SField) (E H : ℕ → SField) : Prop where
  /-- Maxwell's equations in every region, off the polar axis where spherical components have no meaning. -/
  maxwell : ∀ j ≤ L, ∀ r t p : ℝ, R j < r → (j < L → r ≤ R (j + 1)) → Real.sin t ≠ 0 → MaxwellAt k0 (m j) (E j) (H j) r t p
  /-- Tangential components are continuous. -/
  tang : ∀ j < L, ∀ t p : ℝ, (E j (R (j + 1)) t p).tang = (E (j + 1) (R (j + 1)) t p).tang ∧
    (H j (R (j + 1)) t p).tang = (H (j + 1) (R (j + 1)) t p).tang
  /-- Normal components of `m² E` and `H` are continuous. -/
  normal : ∀ j < L, ∀ t p : ℝ, m j ^ 2 * (E j (R (j + 1)) t p).r = m (j + 1) ^ 2 * (E (j + 1) (R (j + 1)) t p).r ∧
    (H j (R (j + 1)) t p).r = (H (j + 1) (R (j + 1)) t p).r
  /-- No singularity, neither at the centre nor on the axis. -/
  bounded : ∀ r1 : ℝ, ∃ M : ℝ, ∀ j ≤ L, ∀ r t p : ℝ, R j < r → (j < L → r ≤ R (j + 1)) → r ≤ r1 → (E j r t p).Le M ∧ (H j r t p).Le M
  /-- In the host the field without the incident one is radiated. -/
  radiates : Radiates (m L) (fun r t p => (E L r t p).sub (Ei r t p)) fun r t p => (H L r t p).sub (Hi r t p)

end MieDiff.Spec
