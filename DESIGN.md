# Formal model of pymiediff: design

## Layout

The Lean 4 project `lean/` holds

* `Verif/Model/*`  the model: total functions that follow the Python code branch by branch; every definition cites file
  and lines in `/repo/src/pymiediff`;
* `Verif/Spec/*`   small independent specifications (Legendre derivatives, Rayleigh formula, tangential continuity,
  curl, table rows, full multipole series, ...), written without using the model;
* `Verif/Proofs/*` helper lemmas;
* `Verif/Props/*`  the property theorems `Cnn_*`, each group next to an `example` showing that the hypotheses are met by
  a concrete non-trivial case.

`properties.jsonl` states the properties in English, `MANIFEST.json` lists the theorems and the status of each,
`seeded/LOG.jsonl` records the edits of the model that were tried against the theorems.

## Modelling conventions

* **Numbers.** floating point `float64/complex128` is idealised to exact `ℝ` / `ℂ`. Rounding, overflow, underflow, NaN
  and infinities are not modelled. Numerical guards (`torch.where(x.abs() < eps, ...)`) are modelled as written, with
  exact comparison. The exceptions are `Model/Rounded` and `Model/RoundedShell`: the pena and core-shell solvers and the cross sections,
  operation by operation, in an arithmetic with relative error `u` (`Spec/Rounding`); C78 and C95 compare them with the exact model. Casts to `float32`/`complex64` in the material classes are arbitrary functions (`Casts`), so the
  statements hold for any rounding there.
* **Division by zero** in the model gives 0 (Lean), in torch inf or nan. Statements about values carry the hypothesis
  that denominators do not vanish, or prove it (C68).
* **Square roots** `eps**0.5`, `torch.sqrt` are the principal branch `e ^ (1/2 : ℂ)`.
* **Exceptions** are values of `Except PyErr`; theorems that say "raises" name the exception class.
* **Python loops** are folds over the range of the Python loop; lists filled by index are lists of options, so an entry
  which is never written is visible as an error.
* **Tensors** `Ten α` have a shape and an entry function; broadcasting, indexing, stacking, masking and squeezing follow
  PyTorch. The one-element model (one particle, one wavenumber, one position) comes first; separate modules model the
  batched code on tensors and theorems (C26, C57, C62, C63) connect the entries of the batched result with the
  one-element model. No theorem about one element is used for a batch without that connection.
* **Objects** (materials, particles) live in a heap of mutable objects; histories are lists of calls.
* **Autograd** is modelled where the code writes it by hand (`torch.autograd.Function` subclasses) or where the identity
  of the tensor the result is attached to matters (cache, in-place edits of buffers), and operation by operation for the
  pena solver (`Model/Backward`, C79), the core-shell backends (`Model/BackwardShell`, C81), the far-field amplitudes (C82)
  and the near fields (C83, C84).
* **Recurrence kernels.** The pena solver is parametric in the kernel that returns `D_n^(1)`: `codeD1` is the shipped
  downward recurrence, `depthD1 N` the same started `N` orders higher, `idealD1` the exact logarithmic derivative.
  C17 proves `depthD1 N -> idealD1` with a geometric bound. Statements that are exact identities of physics (C06, C07,
  C11, C14, C61, C62 agreement, C66, C67) hold for `idealD1`, with limit statements for the code's recurrence where
  listed; C08, C09, C10, C16 and all statements about shapes, dispatch and errors hold for every kernel.
* **Backends** of special functions (`scipy`, torch recurrences) are a parameter `Backends`; `exactBackends` is exact.
* **Complex dtype.** All array quantities are complex. A user who passes a real tensor of negative permittivities gets
  NaN from `eps**0.5` in torch; the model takes the complex square root.
* **Derivatives** are those of the function the code computes; automatic differentiation returns them wherever no
  `torch.where` is at its switching point.

## Trusted base

* Lean kernel and the `Mathlib` definitions used in statements.
* Axioms: every theorem of `MANIFEST.json` depends on `propext`, `Classical.choice`, `Quot.sound` and nothing else;
  `C36_split` does not need `Classical.choice`. There are no own axioms, no `sorry`, no `native_decide`, no `bv_decide`.
  String facts about literals and the shipped tables are checked by `decide +kernel`, i.e. by the kernel.
* The transcription of the Python code into `Verif/Model`, checked by reading and by the seeded edits.
* The idealisations above; scipy, numpy and torch primitives (`spherical_jn`, `sin`, `exp`, `searchsorted`, `sort`,
  `einsum`, ...) compute the mathematical function.
* C78 assumes `Arith.Within u`: every complex operation of torch (division, `exp`, `sin`, `cos`, `sqrt` and `sum` included) has
  relative error at most `u`. This is a hypothesis about the hardware and libm, not proved here.
* C88 and C89 assume in addition `Arith.Double`: operations on real numbers (zero imaginary part) give real numbers with a 53 bit
  significand. `doubleArith` (exact result, real and imaginary part rounded to nearest) is proved to satisfy both assumptions.
* C90 assumes that complex products with a non-finite operand are computed from the parts, `(ac - bd) + (ad + bc)i` (as `c10::complex` does), that a
  quotient by a number with two nan parts has two nan parts, and that a sum with a nan is nan (`Spec/Ieee`).
* C79, C81 and C101 assume the backward formulas of the elementary torch operations as transcribed in `Model/Backward` (conjugate Wirtinger
  convention, `a / b` with a Python number `a` is `b.reciprocal() * a`, real tensors as complex numbers with real part taken
  where torch does). What is proved is that their composition along the code is the gradient.
* C102 assumes that `backward()` frees the graph it passes unless `retain_graph=True`, and that passing a freed graph is a `RuntimeError`.
* C103 assumes that scipy's unscrambled `qmc.Halton(d=3)` returns the van der Corput fractions of 0, 1, 2, ... in bases 2, 3, 5, and that torchgdm's grid
  lies on the sphere it is asked for.
* `Model/Tables.lean` is a transcription of the files in `materials/data`; the parser (`Model/Decimal.lean`,
  `Model/Materials.lean`) is modelled on characters, the kernel runs it on the transcription.

## What is modelled

| code | model |
|---|---|
| `special.py` 21-106, 299-444: expansion of orders, scipy functions, `bessel2ndDer`, hand-written backward passes, `f_der`, `psi`, `chi`, `xi` | `Model/Special`, `Model/Autograd` |
| `special.py` 444-1070: `pena_*`, torch recurrences | `Model/Special` (one element), `Model/BatchTorch` (tensors, depths, small-argument branch) |
| `special.py` 1073-1205, 1451-1540: `pi_tau`, `vsh`, `vsh_pena` | `Model/Special`, `Model/Multishell`, `Model/NearTorch`, `Model/NearPena` |
| `special.py` 1208-1447: `D1n_torch`, `D3n_torch`, `Ql_torch`, `psi/xi_torch_logdir` | `Model/Autograd`, `Model/LogDer` |
| `multishell.py` 24-411: `_miecoef` (all cse terms), `_miecoef_pena` | `Model/Multishell`, `Model/NearTorch` (batched), `Model/Rounded`, `Model/RoundedShell`, `Model/RoundedVsh`, `Model/Range`, `Model/Ieee` (pena with rounding and range of double precision), `Model/Backward` (pena with backward pass), `Model/BackwardShell` (core-shell backends with backward pass), `Model/BackwardAngular` (angular scattering with backward pass), `Model/BackwardNear` and `Model/BackwardPenaNear` (near fields with backward pass) |
| `multishell.py` 412-475: `_broadcast_mie_config` (never called) | `Model/LegacyConfig` |
| `multishell.py` 478-990: layer inputs, broadcasting, `mie_coefficients`, `cross_sections`, `angular_scattering` | `Model/Pipeline`, `Model/Batch`, `Model/BatchTorch` |
| `multishell.py` 993-1490: `nearfields` | `Model/Multishell` (one position), `Model/NearPena`, `Model/NearTorch` (tensors) |
| `main.py`: `Particle` | `Model/Particle` (constructor, device, heap), `Model/ParticleApi` (`get_*`) |
| `helper/helper.py`: truncation orders, plane-wave coefficients, transforms, `interp1d`, `_squeeze_dimensions`; `num_center_diff`, `funct_grad_checker` | `Model/Helper`; `Model/GradCheck` |
| `materials/mat.py` | `Model/Materials`, `Model/Decimal`, `Model/Tables`, `Model/BackwardDisp` (with backward pass), `Model/GraphReuse` (graphs behind remembered permittivities) |
| `helper/tg.py`: `mie_ab_sphere_3d_AD`, rotations, illuminations, `_eval_mie`, field arrays, positions and result of the GPM extraction, constructor of the GPM structure, `combine_gpm_structures_autodiff`, polarizability matrices; `patch_torchgdm_autodiff` | `Model/Tg`, `Model/Gpm`, `Model/GpmExtract`, `Model/GpmStruct`; `Model/TgPatch` |

Not modelled: plotting, `__repr__`, docstrings, warnings, printing, progress bars; `detach_tensor` (conversion to numpy); the torchgdm base classes and its fit
`extract_gpm_from_fields`; the default probe positions (Halton samples, torchgdm geometry); file system access and YAML
parsing (the loader is modelled from the text of the data block on); the `__main__` blocks.

## Plan per property

| id | modules | what is modelled and how it is proved |
|---|---|---|
| C01 | Angular, Legendre | `pi_tau` list recurrence; induction against derivatives of Legendre polynomials |
| C02, C03 | Angular | values of pi/tau at ±1 by induction; optical theorem by algebra |
| C04 | Angular, LegendreInt | orthogonality integrals of pi/tau by exact antiderivatives |
| C05, C48 | Angular | list algebra on the cross sections and polarimetric quantities |
| C06, C07 | Solver, Flux | radial energy flux of the layered solution is non-increasing outwards; induction over layers; limits over the recurrence depth by continuity of the solver in the kernel (SolverLimit) |
| C08, C09, C10 | Invariance, Split | matched and split layers by induction over layers for any kernel; scaling because the solver only sees k r and index ratios |
| C11, C13 | Solver, CoreShell, Interface | the solver's running quantities are logarithmic derivatives of the solution; uniqueness of the interface problem |
| C12 | CoreShell | all cse terms of the closed form; field identities |
| C14, C15, C16 | NearField, Field | expansion coefficients by induction over interfaces; region masks; linearity |
| C17, C18, C19, C22 | Special, Kernel, BesselSeries, JLimit | contraction of the continued fraction, power series of j_n, refinement of the loops to recursions (Seq) |
| C20, C21, C23, C24, C46 | Special | Rayleigh formula by induction; HasDerivAt; store model of the in-place edit |
| C25, C33, C38, C51 | Helper | real analysis of the rounding rules, piecewise linear interpolation, trigonometry |
| C26 - C29 | Batch, Layout, Legacy | entries of the broadcast program; case analysis of shapes |
| C30, C31, C32 | Particle, Device | constructor as a decision table; invariants over histories, negation with a shared object |
| C34 - C37, C55 | Materials | invariants over histories of calls (cache, device moves, failing calls); text splitting by induction on characters |
| C39 - C42, C44, C45, C50, C53, C54 | Tg | matrix algebra, case analysis |
| C43 | NearTorch | what the tensor code returns for all shapes; negation with witness |
| C47 | Field | HasDerivAt of every spherical component |
| C49 | CoreShell | dispatch by case analysis |
| C52 | Tables | kernel-checked tables plus convexity of interpolation; no pole in the Sellmeier ranges |
| C56, C57 | BatchTorch, BatchDepth, SmallShape | entries of the batched torch/scipy backends; the recurrence depth of the whole tensor is part of the statement |
| C58 | EndToEnd | composition: constructor arguments -> permittivities -> arrays -> entries |
| C59, C60 | LogDer | tensors of the logarithmic-derivative helpers; every path of the unfinished ones ends in an exception |
| C61 | PlaneWave | Jacobi-Anger expansion (Legendre series of exp) and its vector form; jump of the total field |
| C62 | NearBatch | torch/scipy near fields from the user arguments; agreement with pena for exact functions |
| C63, C64 | NearPena | entries of the batched pena near fields; particle method with squeezing |
| C65 | Gpm | arrays filled illumination by illumination on a heap that changes with each call |
| C66 | Channel | the disc of passive coefficients; sums of 2n+1 |
| C67 | Convergence, Decay | limits of psi_n/zeta_n ratios at large order through each layer, geometric decay, tsum |
| C68 | Convergence, Solvable | flux argument: a passive homogeneous solution vanishes; determinant of the closed form is non-zero |
| C69 | FarField | asymptotics of ζ_n and ζ_n′ by induction; order-wise error with constants uniform in the angles; sum; limit along a ray |
| C70 | Rayleigh | small-argument limits of ψ_n, ζ_n; scaled waves converge to static potentials (Wronskian, no division by determinants); static uniqueness by a flux argument in a half plane; closed forms for one and two layers |
| C71 | GradCheck | `Model/GradCheck` (`num_center_diff`, `funct_grad_checker`); Cauchy integral for the error of the central difference; reflection symmetry of j_n, y_n; backward passes of C23 |
| C72 | TgPatch | `Model/TgPatch` (the three replaced torchgdm methods); entries of block-diagonal matrices, sums block by block, scatter at mask indices |
| C73 | Analytic | chains of Riccati-Bessel waves as compositions of analytic functions; invariance of the interface problem under the sign of each refractive index, so that a local branch of the square root can replace the principal one; solvability of C68 |
| C74 | PowerFlow | orthogonality of the π_n, τ_n (`LegendreInt`) over the sphere; projection of the plane wave by the uniform expansion of C61; Wronskian of ψ_n, ζ_n per channel; continuity in the shift |
| C75 | Poynting | sphere integral of \|E\|² of the multipole fields by orthogonality; the flux of every channel has the radial derivative −k₀ Im ε \|E\|² (`Flux`), continuity of the flux at the interfaces, zero at the centre, host value by C74 |
| C76 | Scattering | `Spec/Scattering` (boundary value problem); super-geometric decay of the partial waves (`SG`, `DecW`), term-by-term curl of the multipole series, uniform asymptotics of ζ_n for the radiation condition, interface conditions order by order, remainder of the partial sums uniform on compact sets |
| C77 | GradLimit | `Spec/Gradient` (`GradConv`); the truncated recurrence and the solver are holomorphic in all indices and size parameters and converge locally uniformly (`AC`, closed under the operations of the solver), so derivatives converge; the guard conditions are open; chain rule to real parameters |
| C78 | Rounded | `Spec/Rounding` (`Arith.Within`); one rounded step of the downward recurrence contracts errors by 6 (explicit constants), so rounding does not accumulate; every rounded operation converges when its arguments do, guards included; uniformity over all arithmetics by contradiction with a sequence; with exact operations the rounded program is the model |
| C79 | Backward | `Model/Backward`: one node per torch operation with PyTorch's backward formula, `requires_grad` flags and a regularity condition; every node is the adjoint of the Fréchet derivative of the function it evaluates (`Tracks`, closed under all operations, masked branches included); no guard fires implies regular (`Good`); `Spec.Vjp` is stated with Mathlib's `HasGradientAt`; the limit from C77; engine: the pairing of gradient and tangent is invariant under the visit of a node |
| C80 | SinZero | closed forms of the two torch recurrences (C46) at a zero of `sin`; all numerators of the core-shell formulas are linear in `j_n`, `j_n'` of the outer argument; pena: `psi_n` is a product with first factor `sin x`, for any kernel; the exact coefficient of the example by tangential continuity with `psi_1(pi) = 1`, `psi_1(3pi/2) = -2/(3pi)` |
| C81 | BackwardShell | `Model/BackwardShell`: nodes of the SciPy wrappers, the torch recurrences and `_miecoef`, on the vocabulary of C79; each backend evaluates near the parameters one holomorphic function of fixed depth (`RunsAt`, `Stable`); solvability from C68 (scipy, passive) or from reality and a Casoratian that the computed sequences satisfy exactly (torch, lossless) |
| C82 | BackwardAngular | `Model/BackwardAngular`: nodes of `pi_tau` and `angular_scattering` on the vocabulary of C79; `Exact` (right value and right adjoint) is closed under the operations and is what C79/C81 deliver for the coefficients |
| C83 | BackwardNear | `Model/BackwardNear`: nodes of `nearfields` of the torch and scipy backends; excluded are the points where the code is not smooth (`SmoothPoint`) |
| C84 | BackwardPenaNear | `Model/BackwardPenaNear`: nodes of `nearfields` of the pena backend; `FieldClear` collects the guards, `SmoothAmong` the points where the code is smooth |
| C85 | Depth | closed form of the error of the downward recurrence from the solution `psi_k chi_N' - chi_k psi_N'` whose derivative vanishes at the start order; rational evaluation (`downQ`, kernel `decide`) for the counterexample; complex arguments: `|zeta_n|` grows with the order in the closed upper half plane (Phragmen-Lindelöf for the ratio of Bessel polynomials, `OutgoingGrowth`), the denominators of the recurrence stay in the lower half plane for `Im z > 0` (`DepthComplex`) |
| C86 | Truncation | energy argument in the layers above the barrier (`Proofs/Barrier`, `Evanescent`) bounds each coefficient by `psi_n / chi_n`-type ratios (`Modulus`, `TailBound`); the numbers for the default orders come from a rational table (`TruncTable`, kernel `decide`); the resonant sphere from the intermediate value theorem in the index (`Resonance`); guards of the solver for small spheres in `SmallClear` |
| C87 | Division | the operation by operation program (`Model/Rounded`) run with an arithmetic in which `x / 0` is arbitrary; every divisor is a guarded value, a nonzero input or a positive integer |
| C88 | Cancellation | `IsDouble` (`Spec/Double`): 53 bit significand, unlimited exponent; two doubles of size at least `w` are equal or `w/2^53` apart (`double_gap`), so the computed difference `1/z - D_0` is zero or far larger than `z/3`; `doubleArith` (round to nearest) meets the assumptions |
| C89 | Range | `Option ℂ` with `none` for inf and nan, absorbing under sums, products and division by finite numbers (`Model/Range`); `pena_D3_n` operation by operation at `rho = 1e-8` (`Proofs/CentreZeta`): the cancelled difference is zero or a multiple of the spacing of doubles, so `psi zeta` is zero or within bounds and `zeta` grows by at least 5700 per order |
| C90 | Ieee | values `fin x`, two infinities, nan for each part of a complex number, products of special values by the schoolbook formula (`Model/Ieee`); `Spec/Ieee`: finite results are those of `A` and in range; `zeta` grows by at least `0.8 (2k+1)/|x|` per order (`Proofs/SmallZeta`); an overflowing product is nan in both parts three factors later |
| C91 | Vanish | superposition of chains; after a small core the wave is regular up to `kappa^(2n+1)` (`Proofs/Rayleigh`); at static resonance its regular part is exactly `psi_n zeta_(n-1) + (m2/m1) psi_(n+1) zeta_n`, of order `kappa^2`; a layer of no thickness can be inserted, and the coefficient is analytic there (`Proofs/Smooth`) |
| C92 | Conductor | `zeta_n(z) e^(-iz)` and `(2 psi_n - zeta_n)(z) e^(iz)` have limits for `abs z -> infinity` (recurrence); the wave at the inner surface of the metal has outgoing and incoming parts of comparable size, at the outer surface the part decaying outwards is smaller by `e^(2 i m (x2 - x1))`, so the surface impedance tends to zero; the spec is the boundary condition of a perfect conductor |
| C93 | TimeReversal | the conjugate of a solution at conjugated permittivities is a solution with incoming and outgoing waves exchanged (the index is conjugated up to sign); perfect absorbers: `psi/(z psi')` takes all small values near a zero of `psi` (open mapping), the impedance of the incoming wave is small for large `x` |
| C94 | Sensitivity, SensitivityGrad | the Wronskian-like bracket of the waves of two particles is continuous at interfaces, its derivative is (m^2 - m'^2) times the overlap, in the host it is i(a - a'); the derivative follows by continuity of the overlap in the parameter (dominated convergence), the radius by shifting one interface; `eps.grad` by comparing with the recorded run of C81 (gradients are unique) |
| C95 | RoundedShell | `Model/RoundedShell` is `_miecoef` with every operation in an arithmetic `A`; `Spec/RoundingBessel` is what is assumed of SciPy; every operation converges when its arguments do (C78), the depths are eventually constant away from jumps, the two divisors are the determinants of the interface equations |
| C96 | Phase | the conjugate of a lossless solution solves the same interface problem, so it is a multiple of it; the overlap integral of C94 becomes intensity times response; the phase is integrated from its derivative |
| C97 | LegacyConfig | case analysis of the shapes; row-major position by division with remainder |
| C98 | Mirror | the harmonics factor into an amplitude and cos/sin of the azimuth; linear in the sum over orders |
| C99 | Absorption, FluxStrict | the flux of a nonzero wave is strictly monotone in a lossy medium; a wave that vanishes in one layer vanishes in the host |
| C100 | SpecialDer | gradient of a loss in the derivative; both terms of the Hankel derivative write the same storage, the second write is idempotent; bound of the second-derivative formula near zero uniform in the order |
| C101 | BackwardDisp | tape through the interpolation and the Sellmeier formula; families with `eps(2 pi / k0)` fed to C79; the cached tensor of a call without gradients is a constant node, difference of the derivatives is slope times the response of C96 |
| C102 | GraphReuse | sessions of calls and backward passes; of a tensor only the calls behind its graph are kept; a remembered entry never changes, freed graphs stay freed |
| C103 | GpmExtract, Halton | the van der Corput fractions by recursion on the digits; means between 0.353 and 0.647 from 36 points on by full blocks of 8, 9 and 5 terms, fewer points by kernel evaluation in rationals |
| C104 | GpmStruct | shapes by induction on the list of axes, the moved materials by induction on the list of handles |
| C105 | WeakAbsorption | the response turns with a real permittivity (C96) and shrinks with an imaginary one at the same rate; that rate is the volume integral of the intensity |
| C106 | Euler | the results are homogeneous along two curves through the leaves (C10 and `C106_dilute`); their derivative at the leaves is a relation between the gradients |
| C107 | FullGradient | analyticity (C73) makes the partial derivatives of C94 the whole derivative; the invariances of C106 turn a change of `k0` or of the host into a change of radii and permittivities |
| C108 | EffPola | model of the constructor in `Model/EffPola`; the boolean mask is a filter of the zipped lists, the rest is C44, C50 and the centre of C104 |
| C109, C110, C111 | Tools | model of `detach_tensor`, of the imports of the plot methods and of the placeholder classes in `Model/Tools`; induction over the tuple |
| C112, C113 | MatInit | model of the constructor on parsed entries in `Model/MatInit`; initial lookup wavelengths are `warm` steps of the histories of C34; shipped materials from C52 |
| C114 | Passive | the passive permittivities form a convex set, so that interpolation (C33) stays inside; rows of the shipped tables checked by the kernel (`shipped_rows`); end to end through C58, C68 and C99 |
| C115 | Spectrum | the interpolation is a sum of clamped ramps (`polyline`), which is continuous; the poles of the shipped formulas are outside their ranges (`formula_continuous`); with C73 along a family whose radii, wavenumber, host and layers vary independently (`looseFam`) |
| C116 | Sampling | C115 and uniform continuity on the band; neighbouring rows of a dense table are close, and the interpolated value is a convex combination of theirs; quadratic error by convexity of `f + M x^2 / 2` (`chord_error`) and C73 |
| C117 | DepthJump | closed form of the downward sweep as a cross product of Bessel functions; the jump is a Plücker identity and two Wronskians; nonvanishing in the examples by exact rational recursion |

## Partial claims

The following properties are false of the code. Each has a proved negation with a concrete witness and a proved
statement of what does hold (theorems `*_partial`): C24 (the backward passes of `sph_jn_der`/`sph_yn_der` overwrite
zeros of their saved input buffer), C35 (the permittivity cache attaches later results to the first caller's tensor),
C43 (near fields of torch/scipy for several wavelengths), C44 (one order: the order axis is squeezed away), C45 (any
`n_env` raises), C46 (integer `n_add` raises), C85 (with the pena backend a user-given `n_max` changes the values at
lower orders), C55 (`list_available_materials(verbose=True)` raises), C87 (the degree of polarisation is 0/0 for index-matched
particles; the rest is proved), C88 (the pena waves lose all digits near the centre), C89 (the near field at the centre is
infinite or nan for large `n_max`), C90 (a small particle in a batch with a large one gets nan cross sections),
C110 (the plot methods import a module that does not exist), C111 (without torchgdm the structure classes return an exception
object instead of raising it),
C113 (`MatDatabase()` returns an unusable object, formulas other than 1 are only refused on evaluation, and lookup wavelengths that are not
`float32` numbers are never found).

## Behaviour of the code worth knowing (all proved)

* `quadrupol_tol` is compared with the quadrupole coefficient itself, not with its ratio to the dipole, and the environment of a polarizability structure
  loses the imaginary part of the host permittivity (C108).
* `MatDatabase()` prints the list of materials and returns an object without any data (C113).
* `_broadcast_mie_config` (not called) matches one permittivity per particle to the wavenumbers if there are as many, and refuses it otherwise (C97).
* Legacy near fields mis-broadcast several wavenumbers; `H_i` uses the host index of the first wavenumber (C43). Through
  `get_nearfields` the torch backend raises unless there are one or three wavenumbers (C64).
* `funct_grad_checker` reports a mismatch for correct gradients of functions that are not real on the real axis, such as
  `sph_h1n`, and its gradient is summed over the orders while its numerical derivative is not (C71).
* A probe position of shape `(3,)` raises IndexError, probe grids with more axes are refused (C63).
* With the torch backend the values of one batch entry depend on the other entries through the common recurrence depth
  (C57), in near fields also on the outermost position (C62).
* `sph_jn_torch` fails on multi-axis tensors with an entry below 1e-8 (C56), so `mie_coefficients(backend='torch')` with
  `which_jn` other than 'recurrence' raises there.
* Negative orders of the torch functions raise RuntimeError; `D3n_torch` raises for 0-d `z` (C59); `psi_torch_logdir`,
  `xi_torch_logdir` and `Ql_torch` never return (C60).
* Multilayer mode of the constructor does not check that radii increase; the methods raise later (C58). `r_c == r_s`
  drops the shell; equality for only some particles of a batch raises (C28, C29).
* Material objects shared between particles break device consistency (C31); a failed constructor has already moved the
  passed materials (C30).
* The rotation helpers turn column vectors in the right-hand sense although the documentation says clockwise (C39).
* The 1e-30 guards of the pena solver become active for large orders (psi_n zeta_n -> 0), therefore `SolverClear` is a
  hypothesis up to the order used and never for all orders.
* With the pena backend `n_max` is not only a truncation: the recurrence for `D_n` starts at `n_max + 15` whatever the argument, so
  `n_max` below the default gives other values at the low orders too (C85).
* The torch and the pena backend return zero (torch possibly NaN) for every coefficient when the outer size parameter is a multiple
  of π, because `j_n` and `psi_n` are built as products starting with `sin` (C80). The documentation mentions this for the torch
  backend only.

## Seeded edits

`seeded/LOG.jsonl` has one line per edit of a model definition in a scratch copy: definition, edit, claim it should
break, and the declarations that failed to compile first (modules that depend on a failing module are not built, so the
list shows the first line of defence, usually the lemma that pins down the edited function or the property itself).
`first_attempt: survived` marks edits that no theorem noticed at first; `tightened` names the theorem that was added or
strengthened.
