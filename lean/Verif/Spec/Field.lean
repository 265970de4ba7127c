import Verif.Spec.Legendre
import Verif.Spec.Bessel

/-!
# Specification: vector fields in spherical components

The curl in spherical coordinates and the vector spherical harmonics as curls of a scalar potential (Bohren & Huffman,
Eqs. 4.1-4.15).  This file does not use the model.
-/

namespace MieDiff.Spec

/-- Components along the unit vectors `e_r`, `e_theta`, `e_phi`. -/
@[ext] structure SVec where
  r : ℂ
  t : ℂ
  p : ℂ

/-- A vector field in spherical coordinates `(r, theta, phi)`. -/
abbrev SField := ℝ → ℝ → ℝ → SVec

def SVec.smul (c : ℂ) (v : SVec) : SVec := ⟨c * v.r, c * v.t, c * v.p⟩

def SVec.add (v w : SVec) : SVec := ⟨v.r + w.r, v.t + w.t, v.p + w.p⟩

/-- Components tangential to a sphere. -/
def SVec.tang (v : SVec) : ℂ × ℂ := (v.t, v.p)

/-- All partial derivatives entering the curl exist at the point and the curl is `C`. -/
def HasCurlAt (F : SField) (C : SVec) (r t p : ℝ) : Prop :=
  ∃ d1 d2 d3 d4 d5 d6 : ℂ,
    HasDerivAt (fun s : ℝ => (Real.sin s : ℂ) * (F r s p).p) d1 t ∧
    HasDerivAt (fun s : ℝ => (F r t s).t) d2 p ∧
    HasDerivAt (fun s : ℝ => (F r t s).r) d3 p ∧
    HasDerivAt (fun s : ℝ => (s : ℂ) * (F s t p).p) d4 r ∧
    HasDerivAt (fun s : ℝ => (s : ℂ) * (F s t p).t) d5 r ∧
    HasDerivAt (fun s : ℝ => (F r s p).r) d6 t ∧
    C = ⟨(d1 - d2) / (r * Real.sin t), (d3 / Real.sin t - d4) / r, (d5 - d6) / r⟩

/-- Dependence of the scalar potential on `phi`. -/
inductive Parity
  | even
  | odd

noncomputable def Parity.fn : Parity → ℝ → ℝ
  | .even => Real.cos
  | .odd => Real.sin

/-- The scalar potential times the position vector: `r e_r {cos, sin}(phi) P_n^1(cos theta) z(k r)` with
`P_n^1 = sin theta P_n'(cos theta)`. -/
noncomputable def debye (q : Parity) (n : ℕ) (z : ℂ → ℂ) (k : ℂ) : SField := fun r t p =>
  ⟨(r : ℂ) * ((q.fn p * (Real.sin t * angPi n (Real.cos t)) : ℝ) : ℂ) * z (k * r), 0, 0⟩

/-- `M = curl(r psi)`, `N = curl M / k`, and `curl N = k M`, at every point off the axis. -/
structure IsVSH (q : Parity) (n : ℕ) (z : ℂ → ℂ) (k : ℂ) (M N : SField) : Prop where
  potential : ∀ r t p, 0 < r → Real.sin t ≠ 0 → HasCurlAt (debye q n z k) (M r t p) r t p
  curlM : ∀ r t p, 0 < r → Real.sin t ≠ 0 → HasCurlAt M ((N r t p).smul k) r t p
  curlN : ∀ r t p, 0 < r → Real.sin t ≠ 0 → HasCurlAt N ((M r t p).smul k) r t p

/-- Maxwell's curl equations in a medium of index `m` in the units of the code (`H` relative to the vacuum
impedance): `curl E = i k0 H`, `curl H = -i k0 m^2 E`. -/
structure MaxwellAt (k0 m : ℂ) (E H : SField) (r t p : ℝ) : Prop where
  faraday : HasCurlAt E ((H r t p).smul (Complex.I * k0)) r t p
  ampere : HasCurlAt H ((E r t p).smul (-(Complex.I * k0 * m ^ 2))) r t p

end MieDiff.Spec
