import Verif.Model.BackwardNear

/-!
# Reverse-mode differentiation of `nearfields`, backend `pena`

The recorded run of the branch multishell.py:1041-1291 for one particle, wavenumber and probe point, in the vocabulary of Model/Backward and
Model/BackwardNear, with `n_add = N` in place of the constant 15.  Simplifications as there; the order 0, which is cut off before the sums
(multishell.py:1157-1160) and so receives no gradient, is carried as in the code.
-/

namespace MieDiff

open Complex

namespace Node

variable {V : Type*} [AddCommGroup V]

/-- The kernels at one argument (multishell.py:1111-1121, special.py:1496-1498). -/
structure Ker (V : Type*) where
  d1 : ℕ → Node V
  d3 : ℕ → Node V
  psi : ℕ → Node V
  zeta : ℕ → Node V

/-- special.py:451-694 `pena_D1_n`, `pena_D3_n`, `pena_psi_zeta_n`. -/
noncomputable def ker (n N : ℕ) (z : Node V) : Ker V :=
  let D1 := d1 n N z
  let D3 := d3 z D1
  ⟨D1, D3, prodSeq (sin z) z D1, prodSeq (sub (sin z) (mul (const I) (cos z))) z D3⟩

/-- Expansion coefficients in one region. Code: multishell.py:1094-1101. -/
structure Reg (V : Type*) where
  a : ℕ → Node V
  b : ℕ → Node V
  c : ℕ → Node V
  d : ℕ → Node V

/-- multishell.py:1076-1080: the host, from the external coefficients, with zeros in the slot of order 0. -/
noncomputable def extReg (co : ℕ → Node V × Node V) : Reg V where
  a i := if i = 0 then const 0 else (co i).1
  b i := if i = 0 then const 0 else (co i).2
  c _ := const 1
  d _ := const 1

/-- multishell.py:1103-1154: from the region outside to the region inside an interface. -/
noncomputable def regStep (n N : ℕ) (ml mlp1 xl : Node V) (isCore : Bool) (nxt : Reg V) : Reg V :=
  let K := ker n N (mul ml xl)
  let K' := ker n N (mul mlp1 xl)
  let T1 i := sub (mul (nxt.a i) (K'.zeta i)) (mul (nxt.d i) (K'.psi i))
  let T2 i := sub (mul (nxt.b i) (K'.zeta i)) (mul (nxt.c i) (K'.psi i))
  let T3 i := sub (mul (mul (nxt.d i) (K'.d1 i)) (K'.psi i)) (mul (mul (nxt.a i) (K'.d3 i)) (K'.zeta i))
  let T4 i := sub (mul (mul (nxt.c i) (K'.d1 i)) (K'.psi i)) (mul (mul (nxt.b i) (K'.d3 i)) (K'.zeta i))
  let U i := sub (K.d1 i) (K.d3 i)
  let denA i := guard (mul (K.zeta i) (U i))
  let denC i := guard (mul (K.psi i) (U i))
  let mr := div ml mlp1
  { a := fun i => if isCore then const 0 else div (add (mul (K.d1 i) (T1 i)) (mul (T3 i) mr)) (denA i)
    b := fun i => if isCore then const 0 else div (add (mul (mul (K.d1 i) (T2 i)) mr) (T4 i)) (denA i)
    c := fun i => div (add (mul (mul (K.d3 i) (T2 i)) mr) (T4 i)) (denC i)
    d := fun i => div (add (mul (K.d3 i) (T1 i)) (mul (T3 i) mr)) (denC i) }

/-- multishell.py:1083-1089 `m_ext`: index of the medium outside, given the layers further out. -/
def nextIdx : List (Node V × Node V) → Node V
  | [] => const 1
  | l :: _ => l.1

/-- multishell.py:1091-1154: the innermost of the given layers. -/
noncomputable def region (n N : ℕ) (ext : Reg V) : Bool → List (Node V × Node V) → Reg V
  | _, [] => ext
  | isCore, l :: rest => regStep n N l.1 (nextIdx rest) l.2 isCore (region n N ext false rest)

/-- special.py:1451-1540 `vsh_pena` at order `i`. -/
noncomputable def vshPenaAt (n N : ℕ) (k0 nMed r theta phi : Node V) (kind : ℤ) (i : ℕ) : Vsh V :=
  let rho := add (mul (mul k0 nMed) r) (const ((1e-8 : ℝ) : ℂ))
  let mu := cos theta
  let K := ker n N rho
  let zn := div (if kind = 1 then K.psi i else K.zeta i) rho
  vshOf i theta phi rho (piN mu i) (tauN mu i) zn (mul (if kind = 1 then K.d1 i else K.d3 i) zn)

/-- multishell.py:1231-1255: electric and magnetic field of order `i` as expanded in one region, spherical components. -/
noncomputable def regionFields (n N : ℕ) (k0 nMed r theta phi : Node V) (E0 : ℂ) (isOut : Bool) (g : Reg V) (i : ℕ) : V3 (Node V) × V3 (Node V) :=
  let v1 := vshPenaAt n N k0 nMed r theta phi 1 i
  let v3 := vshPenaAt n N k0 nMed r theta phi 3 i
  let En : Node V := const (EnCoef E0 i)
  let j : Node V := const I
  if isOut then
    (scale En (sub3 (scale (mul j (g.a i)) v3.Ne) (scale (g.b i) v3.Mo)),
     scale (mul nMed En) (add3 (scale (mul j (g.b i)) v3.No) (scale (g.a i) v3.Me)))
  else
    (scale En (sub3 (add3 (sub3 (scale (g.c i) v1.Mo) (scale (mul j (g.d i)) v1.Ne)) (scale (mul j (g.a i)) v3.Ne)) (scale (g.b i) v3.Mo)),
     scale (mul (neg nMed) En) (sub3 (sub3 (add3 (scale (g.d i) v1.Me) (scale (mul j (g.c i)) v1.No)) (scale (mul j (g.b i)) v3.No))
       (scale (g.a i) v3.Me)))

/-- multishell.py:1228-1258: `Es = zeros; for li: Es[mask_li] = E_l[mask_li]`. -/
noncomputable def maskedFold (masks : List Bool) (vals : List (V3 (Node V))) : V3 (Node V) :=
  (masks.zip vals).foldl (fun acc mv => where3 (mv.1 = true) mv.2 acc) ⟨const 0, const 0, const 0⟩

/-- multishell.py:1041-1291 from the coefficients `co` at the probe point `(x, y, z)`. -/
noncomputable def penaNear (n N : ℕ) (p : Inputs V) (E0 : ℂ) (co : ℕ → Node V × Node V) (x y z : Node V) : NearFields V :=
  let s := sph eps10Double x y z
  let r := s.c0
  let theta := s.c1
  let phi := s.c2
  let nE := (host p).1
  let k := (host p).2
  let media := p.eps.map sqrt ++ [nE]
  let L := p.r.length
  let f (li i : ℕ) := regionFields n N p.k0 (media.getD li (const 0)) r theta phi E0 (li == L)
    (region n N (extReg co) (li == 0) ((layers p).drop li)) i
  let masks := regionMasks (p.r.map (·.val.re)) r.val.re
  let Es := sumOrders n theta phi fun i => maskedFold masks ((List.range (L + 1)).map fun li => (f li i).1)
  let Hs := sumOrders n theta phi fun i => maskedFold masks ((List.range (L + 1)).map fun li => (f li i).2)
  let wave := exp (mul (mul (mul (const I) k) r) (cos theta))
  let Ei : V3 (Node V) := ⟨mul (const E0) wave, const 0, const 0⟩
  let Hi : V3 (Node V) := ⟨const 0, mul (mul (const E0) nE) wave, const 0⟩
  { Ei := Ei
    Hi := Hi
    Es := Es
    Hs := Hs
    Et := where3 (masks.getLastD false = true) (add3 Es Ei) Es
    Ht := where3 (masks.getLastD false = true) (add3 Hs Hi) Hs }

end Node

end MieDiff
