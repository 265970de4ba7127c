import Mathlib.Data.Complex.Basic

/-!
# Specification: boundary conditions of a coated sphere

The eight equations (8.1) of Bohren & Huffman for one order, with equal permeabilities.  Inside the core the amplitudes
are `c` (magnetic) and `d` (electric), in the shell `f, g` on `psi` and `v, w` on `chi`, outside `a, b` on `xi`.  This file
does not use the model.
-/

namespace MieDiff.Spec

/-- Value and derivative of a function at one point. -/
structure Jet where
  val : ℂ
  der : ℂ

/-- Riccati-Bessel values entering the coated-sphere problem at one order: `psi` at `m1 x`; `psi`, `chi` at `m2 x` and
`m2 y`; `psi`, `xi` at `y`. -/
structure CoatedData where
  m1 : ℂ
  m2 : ℂ
  psi1x : Jet
  psi2x : Jet
  chi2x : Jet
  psi2y : Jet
  chi2y : Jet
  psiy : Jet
  xiy : Jet

/-- Magnetic multipole: tangential continuity at the core and at the outer surface. -/
structure CoatedTE (p : CoatedData) (b c f v : ℂ) : Prop where
  e_core : p.m1 * (f * p.psi2x.val - v * p.chi2x.val) = p.m2 * (c * p.psi1x.val)
  h_core : f * p.psi2x.der - v * p.chi2x.der = c * p.psi1x.der
  e_out : f * p.psi2y.val - v * p.chi2y.val = p.m2 * (p.psiy.val - b * p.xiy.val)
  h_out : f * p.psi2y.der - v * p.chi2y.der = p.psiy.der - b * p.xiy.der

/-- Electric multipole. -/
structure CoatedTM (p : CoatedData) (a d g w : ℂ) : Prop where
  e_core : p.m1 * (g * p.psi2x.der - w * p.chi2x.der) = p.m2 * (d * p.psi1x.der)
  h_core : g * p.psi2x.val - w * p.chi2x.val = d * p.psi1x.val
  e_out : g * p.psi2y.der - w * p.chi2y.der = p.m2 * (p.psiy.der - a * p.xiy.der)
  h_out : g * p.psi2y.val - w * p.chi2y.val = p.psiy.val - a * p.xiy.val

/-- Determinant of the electric system. -/
def coatedDetTM (p : CoatedData) : ℂ :=
  let A := p.m1 * p.chi2x.der * p.psi1x.val - p.m2 * p.chi2x.val * p.psi1x.der
  let B := p.m1 * p.psi2x.der * p.psi1x.val - p.m2 * p.psi2x.val * p.psi1x.der
  p.m2 * p.xiy.der * (A * p.psi2y.val - B * p.chi2y.val) - p.xiy.val * (A * p.psi2y.der - B * p.chi2y.der)

/-- Determinant of the magnetic system. -/
def coatedDetTE (p : CoatedData) : ℂ :=
  let A := p.m2 * p.chi2x.der * p.psi1x.val - p.m1 * p.chi2x.val * p.psi1x.der
  let B := p.m2 * p.psi2x.der * p.psi1x.val - p.m1 * p.psi2x.val * p.psi1x.der
  p.xiy.der * (A * p.psi2y.val - B * p.chi2y.val) - p.m2 * p.xiy.val * (A * p.psi2y.der - B * p.chi2y.der)

end MieDiff.Spec
