import Verif.Spec.Interface
import Mathlib.Analysis.SpecialFunctions.Trigonometric.Basic
import Mathlib.Topology.Algebra.InfiniteSum.Basic

/-!
# Specification: the full multipole series of the cross sections

`k` is the wavenumber in a transparent host; index `i` of a series is the order `i + 1`.  This file does not use the
model.
-/

namespace MieDiff.Spec

open Classical in
/-- The scattering coefficient of order `n` (0 where the interface problem has no solution). -/
noncomputable def coef (p : Pol) (n : ℕ) (layers : List (ℂ × ℂ)) : ℂ :=
  if h : ∃ a, Solves p n layers a then h.choose else 0

/-- Contribution of order `i + 1` of both types to the extinction cross section. -/
noncomputable def extTerm (k : ℝ) (layers : List (ℂ × ℂ)) (i : ℕ) : ℝ :=
  2 * Real.pi / k ^ 2 * (2 * ((i : ℝ) + 1) + 1) *
    ((coef .tm (i + 1) layers).re + (coef .te (i + 1) layers).re)

/-- Contribution of order `i + 1` of both types to the scattering cross section. -/
noncomputable def scaTerm (k : ℝ) (layers : List (ℂ × ℂ)) (i : ℕ) : ℝ :=
  2 * Real.pi / k ^ 2 * (2 * ((i : ℝ) + 1) + 1) *
    (‖coef .tm (i + 1) layers‖ ^ 2 + ‖coef .te (i + 1) layers‖ ^ 2)

/-- The cross sections with all orders. -/
noncomputable def csExtFull (k : ℝ) (layers : List (ℂ × ℂ)) : ℝ := ∑' i, extTerm k layers i

noncomputable def csScaFull (k : ℝ) (layers : List (ℂ × ℂ)) : ℝ := ∑' i, scaTerm k layers i

end MieDiff.Spec
