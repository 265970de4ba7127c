import Verif.Model.Autograd

/-!
# Model of the differentiable derivatives `sph_jn_der`, `sph_yn_der`, `sph_h1n_der` (special.py)

The wrappers on all entries of a tensor (flattened, indexed by order first), with the order argument as the user passes it, and the
backward pass of `sph_h1n_der`, whose two terms share the storage of the argument (see Model/Autograd).
-/

namespace MieDiff

open Complex

/-- SciPy's `spherical_jn`, `spherical_yn` and their `derivative=True` by order and argument. Code: imported in special.py:17. -/
structure SciPy where
  j : ℕ → ℂ → ℂ
  dj : ℕ → ℂ → ℂ
  y : ℕ → ℂ → ℂ
  dy : ℕ → ℂ → ℂ

/-- special.py:43-45 of `_expand_n_z`: the orders `0..n`. `n` lists the elements of the order argument (one for an `int`).  `torch.arange(n + 1)`
is empty for `n = -1` and raises below. -/
def expandOrders : List ℤ → Py (List ℕ)
  | [n] => if n < -1 then .error .runtimeError else .ok (List.range (n + 1).toNat)
  | _ => .error .assertionError

/-- special.py:444-448 `_pena_nmax`: the largest element of a tensor; the maximum of no element raises. `n` lists the elements of the tensor; a Python
`int` is the case of one element, other types are left out. -/
def penaMaxOrder : List ℤ → Py ℤ
  | [] => .error .runtimeError
  | n :: ns => .ok (ns.foldl max n)

/-- special.py:110-128 `sph_jn`, 166-184 `sph_jn_der`, 222-240 `sph_yn`, 278-296 `sph_yn_der`: the function `f` at all orders and entries. -/
def sphWrapper (f : ℕ → ℂ → ℂ) (n : List ℤ) (zs : List ℂ) : Py (List (List ℂ)) := do
  let orders ← expandOrders n
  .ok (orders.map fun i => zs.map (f i))

/-- special.py:166-184 `sph_jn_der`. -/
def sphJnDer (S : SciPy) (n : List ℤ) (zs : List ℂ) : Py (List (List ℂ)) := sphWrapper S.dj n zs

/-- special.py:278-296 `sph_yn_der`. -/
def sphYnDer (S : SciPy) (n : List ℤ) (zs : List ℂ) : Py (List (List ℂ)) := sphWrapper S.dy n zs

/-- special.py:318-334 `sph_h1n_der`. -/
noncomputable def sphH1nDer (S : SciPy) (n : List ℤ) (zs : List ℂ) : Py (List (List ℂ)) := do
  let j ← sphJnDer S n zs
  let y ← sphYnDer S n zs
  .ok (List.zipWith h1Of j y)

/-- Backward pass of `sph_h1n_der` (special.py:334): the gradient goes to both terms, the factor `1j` is conjugated; each node writes into the
storage.  `yFirst` is the order in which the engine visits the two nodes. -/
noncomputable def h1nDerBackward (S : SciPy) (n : ℕ) (g : ℕ → ℕ → ℂ) (zs : List ℂ) (yFirst : Bool) : List ℂ × List ℂ :=
  if yFirst then
    let ry := derBackward n S.y (fun i j => g i j * (starRingEnd ℂ) I) zs
    let rj := derBackward n S.j g ry.2
    (List.zipWith (· + ·) rj.1 ry.1, rj.2)
  else
    let rj := derBackward n S.j g zs
    let ry := derBackward n S.y (fun i j => g i j * (starRingEnd ℂ) I) rj.2
    (List.zipWith (· + ·) rj.1 ry.1, ry.2)

end MieDiff
