import Verif.Model.Batch

/-!
# The former broadcaster of core-shell inputs

`_broadcast_mie_config`, which is still in `multishell.py` but no longer called.
-/

namespace MieDiff

namespace Ten

variable {α : Type}

/-- Position of an index in row-major order. Code: multishell.py:456, 463, see `reshape`. -/
def position : List ℕ → List ℕ → ℕ
  | _ :: s, i :: idx => i * s.prod + position s idx
  | _, _ => 0

/-- Index at a position in row-major order. Code: multishell.py:456, 463, see `reshape`. -/
def indexAt : List ℕ → ℕ → List ℕ
  | [], _ => []
  | _ :: s, f => f / s.prod :: indexAt s (f % s.prod)

/-- `t.reshape(sh)`: the entries in row-major order; `RuntimeError` if the numbers of entries differ. Code: multishell.py:456, 463. -/
def reshape (t : Ten α) (sh : List ℕ) : Py (Ten α) :=
  if t.shape.prod = sh.prod then .ok ⟨sh, fun idx => t.get (indexAt t.shape (position sh idx))⟩ else .error .runtimeError

end Ten

/-- Result of `_broadcast_mie_config` (multishell.py:475). -/
structure Config where
  k0 : Ten ℂ
  rC : Ten ℝ
  rS : Ten ℝ
  epsC : Ten ℂ
  epsS : Ten ℂ
  env : Ten ℂ

/-- multishell.py:439-443 and 445-449: radii as `(N_part, N_k0)`. -/
def configRadii (nk : ℕ) (r : Ten ℝ) : Py (Ten ℝ) :=
  match r.atleast1.shape with
  | [np] => (r.atleast1.unsqueeze 1).broadcastTo [np, nk]
  | _ => .error .assertionError

/-- multishell.py:452-457 and 459-464: permittivities as `(N_part, N_k0)`. -/
def configEps (np nk : ℕ) (eps : Ten ℂ) : Py (Ten ℂ) :=
  if eps.atleast1.shape = [np] then eps.atleast1.broadcastTo [np, nk] else eps.atleast1.reshape [np, nk]

/-- multishell.py:412-475 `_broadcast_mie_config`. -/
def broadcastMieConfig (k0 : Ten ℂ) (rC rS : Ten ℝ) (epsC epsS env : Ten ℂ) : Py Config := do
  let k := k0.squeeze.atleast1
  match k.shape with
  | [nk] =>
    let rc ← configRadii nk rC
    let rs ← configRadii nk rS
    if rc.shape ≠ rs.shape then .error .assertionError else do
    let np := rc.shape.headD 0
    let ec ← configEps np nk epsC
    let es ← configEps np nk epsS
    if ec.shape ≠ [np, nk] ∨ es.shape ≠ [np, nk] then .error .assertionError else
    .ok ⟨k.unsqueeze 0, rc, rs, ec, es, env.atleast1.unsqueeze 0⟩
  | _ => .error .assertionError

end MieDiff
