import Verif.Model.RoundedVsh
import Verif.Model.Multishell

/-!
# The field in the core with the range of double precision

`none` is a non-finite number (infinity or nan).  A sum, difference or product with a non-finite operand is non-finite, also
`0 * inf`, and so is a non-finite number divided by a finite one; no other divisions occur below.
-/

namespace MieDiff

open Complex

/-- A number whose real or imaginary part is out of the range of double precision is not finite. Code: `complex128`, multishell.py:314. -/
noncomputable def finite (x : ℂ) : Option ℂ := if |x.re| < 2 ^ 1024 ∧ |x.im| < 2 ^ 1024 then some x else none

/-- An operation with finite operands and range check of the result. Code: operations of special.py:688-694. -/
noncomputable def lim2 (f : ℂ → ℂ → ℂ) (x y : Option ℂ) : Option ℂ := x.bind fun a => y.bind fun b => finite (f a b)

namespace Arith

variable (A : Arith)

/-- `+` in special.py:688-694. -/
noncomputable def addL := lim2 A.add
/-- `-` in special.py:688-694. -/
noncomputable def subL := lim2 A.sub
/-- `*` in special.py:688-694. -/
noncomputable def mulL := lim2 A.mul
/-- `/` in special.py:688-694. -/
noncomputable def divL (x : Option ℂ) (y : ℂ) := lim2 A.div x (some y)

/-- special.py:682-694 one sequence of `pena_psi_zeta_n`; the logarithmic derivatives are given. -/
noncomputable def prodSeqL (f0 z : ℂ) (D : ℕ → ℂ) : ℕ → Option ℂ
  | 0 => finite f0
  | n + 1 => A.mulL (prodSeqL f0 z D n) (finite (A.sub (A.div ((n + 1 : ℕ) : ℂ) (A.guard z)) (D n)))

/-- special.py:1491 -/
noncomputable def vshRho (k0 nMed : ℂ) (r : ℝ) : ℂ := A.add (A.mul (A.mul k0 nMed) (r : ℂ)) ((1e-8 : ℝ) : ℂ)

/-- special.py:1498-1512 of `vsh_pena`: `zn` and `rho_zn_der_over_rho` at order `i` for `kind=1` and `kind=3`. -/
noncomputable def radialL (n nAdd : ℕ) (k0 nMed : ℂ) (r : ℝ) (kind3 : Bool) (i : ℕ) : Option ℂ × Option ℂ :=
  let rho := A.vshRho k0 nMed r
  let D1 := A.d1 n nAdd rho
  let D3 := A.d3 rho D1
  let rz := if kind3 then A.prodSeqL (A.sub (A.sin rho) (A.mul I (A.cos rho))) rho D3 i else A.prodSeqL (A.sin rho) rho D1 i
  let zn := A.divL rz rho
  (zn, A.mulL (finite (if kind3 then D3 i else D1 i)) zn)

/-- special.py:1527: component `j` of `M_o1n`; `cp`, `sp` are `cos(phi)`, `sin(phi)`. -/
noncomputable def MoL (cp sp pi tau : ℂ) (zn : Option ℂ) (j : ℕ) : Option ℂ :=
  A.subL (A.mulL (A.mulL (some (cp * pi)) zn) (some (if j = 1 then 1 else 0)))
    (A.mulL (A.mulL (some (sp * tau)) zn) (some (if j = 2 then 1 else 0)))

/-- special.py:1535-1538: component `j` of `N_e1n`. -/
noncomputable def NeL (n : ℕ) (cp sp st rho pi tau : ℂ) (zn dz : Option ℂ) (j : ℕ) : Option ℂ :=
  A.addL (A.mulL (A.mulL (some (cp * n * (n + 1) * st * pi)) (A.divL zn rho)) (some (if j = 0 then 1 else 0)))
    (A.subL (A.mulL (A.mulL (some (cp * tau)) dz) (some (if j = 1 then 1 else 0)))
      (A.mulL (A.mulL (some (sp * pi)) dz) (some (if j = 2 then 1 else 0))))

/-- multishell.py:1242-1248: component `j` of the electric field of order `i` inside a layer. -/
noncomputable def fieldL (n nAdd : ℕ) (k0 nMed : ℂ) (r theta phi : ℝ) (pi tau : ℕ → ℝ) (E0 : ℂ) (a b c d : ℕ → ℂ) (i j : ℕ) : Option ℂ :=
  let cp : ℂ := (Real.cos phi : ℝ)
  let sp : ℂ := (Real.sin phi : ℝ)
  let st : ℂ := (Real.sin theta : ℝ)
  let rho := A.vshRho k0 nMed r
  let z1 := A.radialL n nAdd k0 nMed r false i
  let z3 := A.radialL n nAdd k0 nMed r true i
  let M1 := A.MoL cp sp (pi i : ℝ) (tau i : ℝ) z1.1 j
  let N1 := A.NeL i cp sp st rho (pi i : ℝ) (tau i : ℝ) z1.1 z1.2 j
  let M3 := A.MoL cp sp (pi i : ℝ) (tau i : ℝ) z3.1 j
  let N3 := A.NeL i cp sp st rho (pi i : ℝ) (tau i : ℝ) z3.1 z3.2 j
  A.mulL (some (EnCoef E0 i)) (A.subL (A.addL (A.subL (A.mulL (some (c i)) M1) (A.mulL (some (I * d i)) N1))
    (A.mulL (some (I * a i)) N3)) (A.mulL (some (b i)) M3))

/-- helper.py:201-210, transform_fields_spherical_to_cartesian: component `x`, `y`, `z` for `j = 0, 1, 2`. -/
noncomputable def cartL (theta phi : ℝ) (E : ℕ → Option ℂ) (j : ℕ) : Option ℂ :=
  let st : ℂ := (Real.sin theta : ℝ)
  let ct : ℂ := (Real.cos theta : ℝ)
  let sp : ℂ := (Real.sin phi : ℝ)
  let cp : ℂ := (Real.cos phi : ℝ)
  A.addL (A.addL (A.mulL (E 0) (some (if j = 0 then st * cp else if j = 1 then st * sp else ct)))
    (A.mulL (E 1) (some (if j = 0 then ct * cp else if j = 1 then ct * sp else -st))))
    (A.mulL (E 2) (some (if j = 0 then -sp else if j = 1 then cp else 0)))

/-- multishell.py:1257-1264: the electric field in a layer, summed over the orders `1..n`. -/
noncomputable def layerEL (n nAdd : ℕ) (k0 nMed : ℂ) (r theta phi : ℝ) (pi tau : ℕ → ℝ) (E0 : ℂ) (a b c d : ℕ → ℂ) (j : ℕ) : Option ℂ :=
  (List.range n).foldl (fun acc i => A.addL acc
    (A.cartL theta phi (A.fieldL n nAdd k0 nMed r theta phi pi tau E0 a b c d (i + 1)) j)) (some 0)

end Arith

end MieDiff
