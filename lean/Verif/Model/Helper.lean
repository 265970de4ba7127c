import Verif.Model.Py
import Mathlib.Analysis.SpecialFunctions.Pow.Real
import Mathlib.Analysis.SpecialFunctions.Trigonometric.Inverse
import Mathlib.Analysis.SpecialFunctions.Complex.Arg
import Mathlib.Data.List.Sort

/-!
# Model of `src/pymiediff/helper/helper.py`
-/

namespace MieDiff

open Complex

/-- `torch.round`: round to the nearest integer, halves to the even one. Code: helper/helper.py:69-73, 127-131, 144. -/
noncomputable def torchRound (x : ℝ) : ℤ :=
  let f := ⌊x⌋
  if x - f < 1 / 2 then f
  else if 1 / 2 < x - f then f + 1
  else if f % 2 = 0 then f else f + 1

/-- `torch.max(torch.abs(t))` over all entries; `RuntimeError` on an empty tensor. Code: helper/helper.py:66, 123. -/
noncomputable def maxAbs : List ℂ → Py ℝ
  | [] => .error .runtimeError
  | z :: zs => .ok (zs.foldl (fun m w => max m ‖w‖) ‖z‖)

/-- helper.py:66-73, the three branches of Wiscombe's rule for one size parameter `ka >= 0`. -/
noncomputable def wiscombe1 (ka : ℝ) : ℤ :=
  if ka ≤ 8 then torchRound (1 + ka + 4 * ka ^ (1 / 3 : ℝ))
  else if 8 < ka ∧ ka < 4200 then torchRound (2 + ka + 4.05 * ka ^ (1 / 3 : ℝ))
  else torchRound (2 + ka + 4 * ka ^ (1 / 3 : ℝ))

/-- helper.py:48-75 `get_truncution_criteroin_wiscombe` on all entries of the tensor `ka`. -/
noncomputable def wiscombe (ka : List ℂ) : Py ℤ := do
  let m ← maxAbs ka
  .ok (wiscombe1 m)

/-- helper.py:125-131: `N_stop`, the same three branches (summands in another order), as a float. -/
noncomputable def penaNStop (x : ℝ) : ℤ :=
  if x ≤ 8 then torchRound (x + 4 * x ^ (1 / 3 : ℝ) + 1)
  else if x < 4200 then torchRound (x + 4.05 * x ^ (1 / 3 : ℝ) + 2)
  else torchRound (x + 4 * x ^ (1 / 3 : ℝ) + 2)

/-- One particle at one wavenumber as seen by the truncation rule: vacuum wavenumber, host
permittivity, outer radii of the layers with the layer permittivities. Code: helper/helper.py:78. -/
structure TruncEntry where
  k0 : ℂ
  epsEnv : ℂ
  layers : List (ℝ × ℂ)

/-- helper.py:122-123: outer size parameter `k0 * sqrt(eps_env) * r_L` (`x_layers[:, -1, :]`). -/
noncomputable def TruncEntry.xOuter (e : TruncEntry) : ℂ :=
  e.k0 * csqrt e.epsEnv * ((e.layers.getLastD (0, 0)).1 : ℂ)

/-- helper.py:134: `k0 * n_l * r_l`, all layers. -/
noncomputable def TruncEntry.mx (e : TruncEntry) : List ℂ :=
  e.layers.map fun l => e.k0 * csqrt l.2 * (l.1 : ℂ)

/-- helper.py:137-141: `k0 * n_l * r_{l-1}` with `r_0 = 0`. -/
noncomputable def TruncEntry.mxPrev (e : TruncEntry) : List ℂ :=
  List.zipWith (fun l rp => e.k0 * csqrt l.2 * ((rp : ℝ) : ℂ)) e.layers
    (0 :: (e.layers.map Prod.fst).dropLast)

/-- helper.py:78-145 `get_truncution_criteroin_pena2009`.  The batch is the list of all
(particle, wavenumber) entries. -/
noncomputable def penaNmax (batch : List TruncEntry) : Py ℤ := do
  let xOuter ← maxAbs (batch.map TruncEntry.xOuter)
  let nStop := penaNStop xOuter
  let m1 ← maxAbs (batch.flatMap TruncEntry.mx)
  let m2 ← maxAbs (batch.flatMap TruncEntry.mxPrev)
  let nRaw : ℝ := max (nStop : ℝ) (max m1 m2)
  .ok (torchRound (nRaw + 15))

/-- helper.py:149-174 `plane_wave_expansion`. -/
noncomputable def planeWaveExpansion (n : ℤ) : Py (List ℂ) :=
  if n < 0 then .error .assertionError
  else .ok ((List.range n.toNat).map fun i =>
    let k : ℕ := i + 1
    I ^ k * (2 * (k : ℂ) + 1) / ((k : ℂ) * ((k : ℂ) + 1)))

/-- A vector with three components. Code: helper/helper.py:178-210. -/
structure V3 (α : Type*) where
  c0 : α
  c1 : α
  c2 : α

/-- helper.py:178-210 `transform_fields_spherical_to_cartesian`. -/
noncomputable def fieldsSphToCart (E : V3 ℂ) (theta phi : ℝ) : V3 ℂ :=
  let st : ℂ := (Real.sin theta : ℝ)
  let ct : ℂ := (Real.cos theta : ℝ)
  let sp : ℂ := (Real.sin phi : ℝ)
  let cp : ℂ := (Real.cos phi : ℝ)
  ⟨E.c0 * (st * cp) + E.c1 * (ct * cp) + E.c2 * (-sp),
   E.c0 * (st * sp) + E.c1 * (ct * sp) + E.c2 * cp,
   E.c0 * ct + E.c1 * (-st) + E.c2 * 0⟩

/-- helper.py:213-233 `transform_spherical_to_xyz`. -/
noncomputable def sphToXyz (r theta phi : ℝ) : V3 ℝ :=
  ⟨r * Real.sin theta * Real.cos phi, r * Real.sin theta * Real.sin phi, r * Real.cos theta⟩

/-- `torch.atan2(y, x)`, the argument of `x + i y` in `(-pi, pi]`. Code: helper/helper.py:257. -/
noncomputable def atan2 (y x : ℝ) : ℝ := Complex.arg (⟨x, y⟩ : ℂ)

/-- `torch.clamp(v, lo, hi)`. Code: helper/helper.py:253. -/
noncomputable def clampR (v lo hi : ℝ) : ℝ := min (max v lo) hi

/-- helper.py:236-258 `transform_xyz_to_spherical`; `eps10` is `10 * finfo(dtype).eps`. -/
noncomputable def xyzToSph (eps10 : ℝ) (x y z : ℝ) : V3 ℝ :=
  let r := Real.sqrt (x ^ 2 + y ^ 2 + z ^ 2)
  let rSafe := if r = 0 then 1e-12 else r
  let zOverR := clampR (z / rSafe) (-1 + eps10) (1 - eps10)
  let theta := Real.arccos zOverR
  let xSafe := x + (if x = 0 then 1 else 0) * eps10
  let phi := atan2 y xSafe
  ⟨r, theta, phi⟩

/-- `torch.finfo(torch.float64).eps * 10`. Code: helper/helper.py:252, 255. -/
noncomputable def eps10Double : ℝ := 10 / 2 ^ 52

/-- `torch.bucketize(v, xs)` (`right=False`) for sorted `xs`: number of entries `< v`. Code: helper/helper.py:350. -/
noncomputable def bucketize (v : ℝ) (xs : List ℝ) : ℕ := (xs.takeWhile (fun x => decide (x < v))).length

/-- helper.py:356-360, the distances to the left and right neighbour used as weights. -/
noncomputable def interpWeights (x xl xr : ℝ) : ℝ × ℝ :=
  let dL := x - xl
  let dR := xr - x
  let dL := if dL < 0 then 0 else dL
  let dR := if dR < 0 then 0 else dR
  let dL := if dL = 0 ∧ dR = 0 then 1 else dL
  (dL, dR)

/-- helper.py:350-366, `interp1d` at one point on rows `s` already sorted by abscissa. -/
noncomputable def interpSorted (x : ℝ) (s : List (ℝ × ℂ)) : Py ℂ :=
  let idxR := bucketize x (s.map Prod.fst)
  let n : ℤ := s.length
  let idxL : ℤ := (idxR : ℤ) - 1
  let iR : ℕ := (min (max (idxR : ℤ) 0) (n - 1)).toNat
  let iL : ℕ := (min (max idxL 0) (n - 1)).toNat
  match s[iL]?, s[iR]? with
  | some l, some r =>
    let w := interpWeights x l.1 r.1
    .ok ((l.2 * (w.2 : ℂ) + r.2 * (w.1 : ℂ)) / ((w.1 + w.2 : ℝ) : ℂ))
  | _, _ => .error .indexError

/-- helper.py:318-368 `interp1d` at one point `x`.  `dat` is the list of `(x_dat, y_dat)` rows; the assertion on equal
lengths is built into the type.  `torch.argsort` is not stable: the model picks one order of equal abscissae, and the
theorems on row order assume distinct ones.  An empty table gives an index error. -/
noncomputable def interp1d (x : ℝ) (dat : List (ℝ × ℂ)) : Py ℂ :=
  interpSorted x (dat.mergeSort (fun a b => decide (a.1 ≤ b.1)))

end MieDiff
