import Verif.Model.NearTorch

/-!
# Batched model of the torch and scipy backends

`_miecoef` (multishell.py:24-266) combines arrays of one shape entry by entry, except that the torch special functions choose
their depth from the largest absolute value of the whole argument array.
-/

namespace MieDiff

open Complex

/-! ## `sph_jn_torch` on tensors -/

/-- special.py:846-857: shape of `jn_small` for `s` small entries of a tensor with `d` axes; `_n` has shape
`(n+1, 1, ..., 1)` with `d` ones (lines 43-47), `z_small.unsqueeze(0)` has shape `(1, s)`. -/
def smallShape (n d s : ℕ) : Py (List ℕ) := do
  let zpow ← Ten.bShape [1, s] ((n + 1) :: List.replicate d 1)
  Ten.bShape zpow (1 :: (n + 1) :: List.replicate d 1)

/-- `dst[...] = v` for a value of shape `v` and a slice of shape `target`: torch drops leading axes of length 1 of the value and
broadcasts the rest; `RuntimeError` if it does not fit. Code: special.py:860. -/
def assignCheck (v target : List ℕ) : Py Unit := do
  let _ ← Ten.broadcastTo (⟨v.dropWhile (· == 1), fun _ => ()⟩ : Ten Unit) target
  .ok ()

open Classical in
/-- special.py:786-922 `sph_jn_torch` on a tensor. -/
noncomputable def sphJnTorchT (n : ℤ) (z : Ten ℂ) : Py (Ten ℂ) :=
  if n < 0 then .error .runtimeError
  else do
    let z := z.atleast1
    let small := z.entries.filter fun v => decide (‖v‖ < 1e-8)
    let big := z.entries.filter fun v => decide (¬‖v‖ < 1e-8)
    let _ ← (if small.isEmpty then .ok () else do
      let sh ← smallShape n.toNat z.ndim small.length
      assignCheck sh [n.toNat + 1, small.length] : Py Unit)
    let zm ← (if big.isEmpty then .ok 0 else maxAbs big : Py ℝ)
    let _ ← z.entries.mapM fun v => sphJnTorch n v zm
    .ok ⟨(n.toNat + 1) :: z.shape, fun idx => (okD [] (sphJnTorch n (z.get idx.tail) zm)).getD (idx.headD 0) 0⟩

/-! ## Special functions of array arguments -/

/-- Special functions of an array: `depth` is the number the recurrence depths are chosen from, read off the entries, and `fns` the
functions of single entries for that number. Code: special.py:757 and 869-876 (depth), special.py:700-975 (functions). -/
structure ArrFns where
  depth : List ℂ → Py ℝ
  fns : TorchFns

/-- The special functions of the backends on arrays with two axes: `sph_jn_torch_via_rec` (whose `max()` of an empty array
raises, special.py:757), `sph_jn_torch` (which does not look for a maximum without entries, lines 863-871), both with
`sph_yn_torch`, and functions of the entries for scipy. -/
noncomputable def codeArr (sp : BesselBackend) : BackendsOf ArrFns where
  torchRec := ⟨maxAbs, fun zm => ⟨fun n z => sphJnViaRec n z zm, fun n z => sphYnTorch n z⟩⟩
  torchRatio := ⟨fun l => if l.isEmpty then .ok 0 else maxAbs l, torchFns⟩
  scipy := ⟨fun _ => .ok 0, fun _ => sp⟩

/-- The same functions on an array with one entry, which then determines the depth alone. Code: multishell.py:60-70. -/
noncomputable def codeBackends (sp : BesselBackend) : Backends where
  torchRec := ⟨fun n z => sphJnViaRec n z ‖z‖, fun n z => sphYnTorch n z⟩
  torchRatio := ⟨fun n z => sphJnTorchNd n z ‖z‖, fun n z => sphYnTorch n z⟩
  scipy := sp

/-- Coefficients of an order that does not exist. Code: no counterpart; fills positions past `n_max` (multishell.py:739). -/
def noOrder : CoreShellOut := ⟨0, 0, 0, 0, 0, 0, 0, 0⟩

/-- multishell.py:24-266 `_miecoef` on arrays `x`, `y`, `m1`, `m2` of one shape; the result has an order axis in front.
If several entries raise, which exception comes first is not modelled. -/
noncomputable def miecoefT (A : ArrFns) (x y m1 m2 : Ten ℂ) (n : ℤ) : Py (Ten CoreShellOut) := do
  let m1x ← Ten.op2 (· * ·) m1 x
  let m2x ← Ten.op2 (· * ·) m2 x
  let m2y ← Ten.op2 (· * ·) m2 y
  let dy ← A.depth y.entries
  let d1x ← A.depth m1x.entries
  let d2x ← A.depth m2x.entries
  let d2y ← A.depth m2y.entries
  let f (idx : List ℕ) : Py (List CoreShellOut) :=
    miecoef4 (A.fns dy) (A.fns d1x) (A.fns d2x) (A.fns d2y) (x.get idx) (y.get idx) n (m1.get idx) (m2.get idx)
  let _ ← (Ten.indices y.shape).mapM f
  .ok ⟨n.toNat :: y.shape, fun idx => (okD [] (f idx.tail)).getD (idx.headD 0) noOrder⟩

/-! ## `mie_coefficients` -/

/-- multishell.py:733-737: `ka = r_outer * k0 * sqrt(eps_env)` and the Wiscombe rule. -/
noncomputable def wiscombeT (b : Bcast) : Py ℤ := do
  let r1 ← b.r.selectLast 1
  let rO ← (r1.unsqueeze 1).broadcastTo [b.nPart, b.nK]
  let rk ← Ten.op2 (fun (u : ℝ) v => (u : ℂ) * v) rO b.k0
  let ka ← Ten.op2 (· * ·) rk (b.env.map csqrt)
  wiscombe ka.entries

/-- multishell.py:722-739 for the torch and scipy backends. -/
noncomputable def orderChoiceB (b : Bcast) (nMax : Option ℤ) : Py ℤ :=
  match nMax with
  | some n => .ok n
  | none => wiscombeT b

/-- multishell.py:641-799 `mie_coefficients` on arrays with any backend; second component: all eight coefficients of `_miecoef`, if
`return_internal` was set. -/
noncomputable def mieCoefficientsB (A : BackendsOf ArrFns) (args : LayerArgs) (backend : String := "pena")
    (whichJn : String := "recurrence") (nMax : Option ℤ := none) (returnInternal : Bool := false) :
    Py (BatchOut × Option (Ten CoreShellOut)) := do
  let backendL := backend.toLower
  if ¬(backendL = "torch" ∨ backendL = "scipy" ∨ backendL = "pena") then .error .valueError
  else if backendL = "pena" then do
    let o ← mieCoefficientsT args nMax returnInternal
    .ok (o, none)
  else do
    let (rl, el) ← asLayerInputs args
    let b ← broadcastMieLayers args.k0 rl el args.epsEnv
    let r0 ← b.r.select 1 0
    let rC ← (r0.unsqueeze 1).broadcastTo [b.nPart, b.nK]
    let rS ← aliasR b rC
    let epsC ← b.eps.select 1 0
    let epsS ← aliasEps b epsC
    let n ← orderChoiceB b nMax
    let _ ← orderRange n
    let nEnv := b.env.map csqrt
    let k ← Ten.op2 (· * ·) b.k0 nEnv
    if b.nLayers > 2 then .error .valueError else do
    let x ← Ten.op2 (fun u (v : ℝ) => u * (v : ℂ)) k rC
    let y ← Ten.op2 (fun u (v : ℝ) => u * (v : ℂ)) k rS
    let mC ← Ten.op2 (· / ·) (epsC.map csqrt) nEnv
    let mS ← Ten.op2 (· / ·) (epsS.map csqrt) nEnv
    let F ← selectBessel A backend whichJn
    let out ← miecoefT F x y mC mS n
    let m ← Ten.op2 (· / ·) (b.eps.map csqrt) (nEnv.unsqueeze 1)
    .ok ({ b := b, k := k, nMax := n, rC := rC, rS := rS, epsC := epsC, epsS := epsS, nEnv := nEnv, m := m
           a := out.map (·.a), bn := out.map (·.b) }, if returnInternal then some out else none)

/-- multishell.py:803-893 `cross_sections` on arrays with any backend. -/
noncomputable def crossSectionsB (A : BackendsOf ArrFns) (args : LayerArgs) (backend : String := "pena")
    (whichJn : String := "recurrence") (nMax : Option ℤ := none) : Py CrossT := do
  let o ← mieCoefficientsB A args backend whichJn nMax
  crossSectionsFromT o.1

/-- multishell.py:896-990 `angular_scattering` on arrays with any backend. -/
noncomputable def angularB (A : BackendsOf ArrFns) (args : LayerArgs) (theta : Ten ℝ) (backend : String := "pena")
    (whichJn : String := "recurrence") (nMax : Option ℤ := none) : Py AngularT := do
  let o ← mieCoefficientsB A args backend whichJn nMax
  angularFromT o.1 theta

/-! ## `nearfields` with the torch and scipy backends -/

/-- multishell.py:1312-1336: what the torch/scipy branch of `nearfields` takes from `mie_coefficients`. -/
noncomputable def torchCoefs (o : BatchOut) (out : Ten CoreShellOut) : TorchCoefs where
  nMax := o.nMax.toNat
  k := o.k
  k0 := o.b.k0
  rC := o.rC
  rS := o.rS
  nEnv := o.nEnv
  nC := o.epsC.map csqrt
  nS := o.epsS.map csqrt
  a := out.map (·.a)
  b := out.map (·.b)
  c := out.map (·.c)
  d := out.map (·.d)
  f := out.map (·.f)
  g := out.map (·.g)
  v := out.map (·.v)
  w := out.map (·.w)

/-- multishell.py:1294-1490: the torch/scipy branch of `nearfields` from the user arguments; `probe` has shape `(N_pos, 3)`. -/
noncomputable def nearfieldsB (A : BackendsOf ArrFns) (J : TorchFns) (args : LayerArgs) (probe : Ten ℝ) (E0 : ℂ := 1)
    (backend : String := "torch") (whichJn : String := "recurrence") (nMax : Option ℤ := none) : Py FieldsT := do
  let o ← mieCoefficientsB A args backend whichJn nMax true
  match o.2 with
  | none => .error .valueError  -- not reached with these backends
  | some out =>
    let x ← probe.selLast 0
    let y ← probe.selLast 1
    let z ← probe.selLast 2
    let sph (i : List ℕ) : V3 ℝ := xyzToSph eps10Double (x.get i) (y.get i) (z.get i)
    torchFieldsFrom J (torchCoefs o.1 out) ⟨x.shape, fun i => (sph i).c0⟩ ⟨x.shape, fun i => (sph i).c1⟩
      ⟨x.shape, fun i => (sph i).c2⟩ E0

end MieDiff
