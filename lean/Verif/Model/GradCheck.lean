import Verif.Model.Autograd

/-!
# Model of the finite-difference helpers `num_center_diff` and `funct_grad_checker`

A function called as `Funct(n, z)` returns one row per order `0..n`; it is represented by `F : ℕ → ℂ → ℂ`
(order, argument).  Tensors of arguments are lists.  The final `.numpy().squeeze()` calls only drop axes of length one
and are left out.
-/

namespace MieDiff

open Complex

/-- Default step of helper/helper.py:262. -/
noncomputable def diffStep : ℂ := 0.0001 + 0.0001 * I

/-- helper/helper.py:281-284 for one order and one element: `z = z.conj()`, `fm`, `fp`, `(fp - fm) / (2 * eps)`. -/
noncomputable def centerDiff1 (f : ℂ → ℂ) (eps z : ℂ) : ℂ :=
  let zc := (starRingEnd ℂ) z
  let fm := f (zc - eps)
  let fp := f (zc + eps)
  (fp - fm) / (2 * eps)

/-- helper/helper.py:262-285 `num_center_diff`: one row per order. -/
noncomputable def numCenterDiff (F : ℕ → ℂ → ℂ) (n : ℕ) (z : List ℂ) (eps : ℂ := diffStep) : List (List ℂ) :=
  (List.range (n + 1)).map fun k => z.map (centerDiff1 (F k) eps)

/-- What `torch.autograd.grad` does with the function under test: incoming gradient per order and element, buffer of
the argument ↦ gradient, buffer afterwards (see `valBackward`, `derBackward`). Code: helper/helper.py:307-309. -/
abbrev Backward := (ℕ → ℕ → ℂ) → List ℂ → List ℂ × List ℂ

/-- `sph_h1n = sph_jn(n, z) + 1j * sph_yn(n, z)` (special.py:315): the engine sends the incoming gradient to `sph_jn` and
`grad * conj(1j)` to `sph_yn` and adds the two results. -/
noncomputable def hankelBackward (n : ℕ) (dj dy : ℕ → ℂ → ℂ) : Backward := fun g buf =>
  let gj := (valBackward n dj g buf).1
  let gy := (valBackward n dy (fun k i => g k i * (starRingEnd ℂ) I) buf).1
  (List.zipWith (· + ·) gj gy, buf)

/-- helper/helper.py:288-315 `funct_grad_checker(z, funct, (n, z))`: `z` as it is after the backward pass, the numerical
derivative (computed before it), and the gradient with `grad_outputs = ones`. -/
noncomputable def functGradChecker (F : ℕ → ℂ → ℂ) (back : Backward) (n : ℕ) (z : List ℂ) (eps : ℂ := diffStep) :
    List ℂ × List (List ℂ) × List ℂ :=
  let num := numCenterDiff F n z eps
  let grad := back (fun _ _ => 1) z
  (grad.2, num, grad.1)

end MieDiff
