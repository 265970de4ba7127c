import Verif.Model.Rounded

/-!
# Radial factors of `vsh_pena` operation by operation
-/

namespace MieDiff

/-- special.py:1491 and 1498-1512 with `kind=1`: `(zn, rho_zn_der_over_rho)` of `vsh_pena` at order `i`, computed with the
operations of `A`; the code has `nAdd = 15` and `epsilon = 1e-8`. -/
noncomputable def Arith.vshRadial (A : Arith) (n nAdd : ℕ) (k0 nMed : ℂ) (r : ℝ) (i : ℕ) : ℂ × ℂ :=
  let rho := A.add (A.mul (A.mul k0 nMed) (r : ℂ)) ((1e-8 : ℝ) : ℂ)
  let D1 := A.d1 n nAdd rho
  let zn := A.div (A.prodSeq (A.sin rho) rho D1 i) rho
  (zn, A.mul (D1 i) zn)

end MieDiff
