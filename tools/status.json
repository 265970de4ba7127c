{
 "C01": [
  "proved",
  "piTau model equals Legendre derivatives; n<1 rejected"
 ],
 "C02": [
  "proved",
  ""
 ],
 "C03": [
  "proved",
  ""
 ],
 "C04": [
  "proved",
  "orthogonality integrals proved"
 ],
 "C05": [
  "proved",
  ""
 ],
 "C06": [
  "proved",
  "exact with exact logarithmic derivatives (real permittivities of either sign); the code's absorption tends to 0 with the recurrence depth"
 ],
 "C07": [
  "proved",
  "exact with exact logarithmic derivatives; limit statement for the code's truncated recurrence"
 ],
 "C08": [
  "proved",
  "for every kernel with a nonvanishing clear condition; unconditional for the shipped kernel at small arguments"
 ],
 "C09": [
  "proved",
  "for every kernel, automatic n_max included"
 ],
 "C10": [
  "proved",
  "for every backend"
 ],
 "C11": [
  "proved",
  "existence and uniqueness with exact logarithmic derivatives; limit statement for the code's truncated recurrence"
 ],
 "C12": [
  "proved",
  "algebraic identity for all eight coefficients, uniqueness, and the interface problem with exact special functions"
 ],
 "C13": [
  "proved",
  "with exact special functions on both sides"
 ],
 "C49": [
  "proved",
  ""
 ],
 "C48": [
  "proved",
  ""
 ],
 "C17": [
  "proved",
  "geometric error bound, limit at every order, failure without extra orders"
 ],
 "C18": [
  "proved",
  "given exact D1 and inactive guards"
 ],
 "C19": [
  "proved",
  "given exact logarithmic derivatives and inactive guards"
 ],
 "C20": [
  "proved",
  ""
 ],
 "C21": [
  "proved",
  ""
 ],
 "C22": [
  "proved",
  "structure and limit of both algorithms; the exact-zero guard of the ratio variant is visible in the recurrence statement"
 ],
 "C23": [
  "proved",
  "gradient correctness stated through real Frechet derivatives of an arbitrary loss"
 ],
 "C24": [
  "partial",
  "the property is false for sph_jn_der/sph_yn_der: negation with witness, exact characterisation of when the buffer is unchanged"
 ],
 "C46": [
  "partial",
  "the property is false: every int depth is rejected; the 'auto' part is proved"
 ],
 "C14": [
  "proved",
  "with exact logarithmic derivatives and inactive guards; tangential field components with epsilon = 0"
 ],
 "C15": [
  "proved",
  ""
 ],
 "C16": [
  "proved",
  "for every kernel, errors included"
 ],
 "C47": [
  "proved",
  "exact radial functions, epsilon = 0; vsh kind 2 uses -y_n"
 ],
 "C25": [
  "proved",
  ""
 ],
 "C51": [
  "proved",
  ""
 ],
 "C33": [
  "proved",
  "equal abscissae with different values depend on the unstable sort (shown)"
 ],
 "C38": [
  "proved",
  "both directions; on the z axis the clamp moves the point (shown)"
 ],
 "C26": [
  "proved",
  "pena backend; at a given n_max every batch entry equals the single evaluation, errors included; automatic n_max is the common rule over the batch"
 ],
 "C27": [
  "proved",
  "pena backend; every documented layout, everything else rejected"
 ],
 "C28": [
  "proved",
  "incomplete inputs rejected, layer inputs take precedence, exact layouts of one- and two-layer legacy inputs"
 ],
 "C29": [
  "proved",
  ""
 ],
 "C34": [
  "proved",
  "rounding to float32/complex64 is an arbitrary function; failing calls and an initial lookup table are part of the histories"
 ],
 "C35": [
  "partial",
  "the property is false: negation with witness; the first request for a wavelength is attached to the caller, every later equal one to the first tensor"
 ],
 "C36": [
  "proved",
  "splitting of the text, row values, rejected rows"
 ],
 "C37": [
  "proved",
  ""
 ],
 "C52": [
  "proved",
  "all shipped files parsed by the kernel; formula files have no pole in their range and eps > 1 there"
 ],
 "C55": [
  "partial",
  "false for verbose=True on every non-empty database (TypeError); lookup and plain listing proved"
 ],
 "C30": [
  "proved",
  "exact set of accepted combinations; rejected ones raise ValueError unless a material or the pair of legacy radii is malformed"
 ],
 "C31": [
  "proved",
  "every history without sharing; negation with a shared object"
 ],
 "C32": [
  "proved",
  "up to the complex64 cast; after every history"
 ],
 "C39": [
  "proved",
  "matrices in SO(3), addition of angles, fixed axes, right-hand sense"
 ],
 "C40": [
  "proved",
  "phase along the rotated direction is exact off the poles; the native pena wave comes from the near-field model (C40_native); for the torch backend the native wave is a hypothesis"
 ],
 "C41": [
  "proved",
  "exact list, both polarisations, every plane; ValueError cases"
 ],
 "C42": [
  "proved",
  ""
 ],
 "C43": [
  "partial",
  "false as stated: proved what the tensor code returns for every shape that runs, that all other shapes raise, a silently wrong case with three wavelengths and a raising case with two; holds when media and radii are equal over the batch"
 ],
 "C44": [
  "partial",
  "holds for two or more orders; with a single order the squeeze drops the order axis: result of wrong shape or IndexError (proved)"
 ],
 "C45": [
  "partial",
  "false: a given n_env always raises (TypeError when equal, AssertionError when different), proved; the material check itself is modelled"
 ],
 "C50": [
  "proved",
  "entries, zero absorption for real pairs, passivity"
 ],
 "C53": [
  "proved",
  ""
 ],
 "C54": [
  "proved",
  ""
 ],
 "C56": [
  "proved",
  ""
 ],
 "C57": [
  "proved",
  "the depth condition is part of the statement; C57_depends shows that it is needed"
 ],
 "C58": [
  "proved",
  "wavenumbers: at least one; casts to float32/complex64 are arbitrary functions"
 ],
 "C59": [
  "proved",
  "n_add='auto' (an int is rejected, C46)"
 ],
 "C60": [
  "proved",
  "which exception is raised first depends on shapes and is not claimed"
 ],
 "C61": [
  "proved",
  "exact logarithmic derivatives, shift epsilon = 0 (the code shifts the radial argument by 1e-8)"
 ],
 "C62": [
  "proved",
  "agreement of the backends is for exact special functions; several wavelengths or particles: see C43"
 ],
 "C63": [
  "proved",
  ""
 ],
 "C64": [
  "proved",
  "several wavenumbers with the torch backend: see C43"
 ],
 "C65": [
  "proved",
  "the fit itself (extract_gpm_from_fields) belongs to the torchgdm package"
 ],
 "C66": [
  "proved",
  "pena with the exact logarithmic derivative and inactive 1e-30 guards; core-shell backends with exact Bessel functions."
 ],
 "C67": [
  "proved",
  "Coefficient decay, absolute convergence, uniform truncation error and limit. For pena the exact logarithmic derivative with inactive guards; C67_limit is for the core-shell backends because the guards of pena become active at large order."
 ],
 "C68": [
  "proved",
  "Solvability for any number of layers; the statement about returned values is for the core-shell backends with exact Bessel functions."
 ],
 "C69": [
  "proved",
  "torch and scipy with exact Bessel functions, without further conditions; pena with the exact logarithmic derivative for any number of layers, at points where the 1e-30 guards are inactive. The factor exp(i 1e-8) of the argument shift of the code is kept."
 ],
 "C70": [
  "proved",
  "torch and scipy backends with exact Bessel functions without further conditions; C70_coefficients for every backend and any number of layers under the hypothesis that the calls solve the interface problem (for pena: inactive 1e-30 guards)."
 ],
 "C71": [
  "proved",
  "Exact Bessel functions. The block special.py:1574-1585 that would call the checker passes keyword arguments it does not accept."
 ],
 "C72": [
  "proved",
  "torchgdm's own methods (polarizability and self-term lists, reduced interaction matrix, mask, get_interact) are parameters; the LU solver is exact."
 ],
 "C73": [
  "proved",
  "Exact Bessel functions. Analytic means ContDiffAt of order omega. Statements about the returned values of all nearby calls."
 ],
 "C74": [
  "proved",
  "torch/scipy backends with exact Bessel functions; pena backend with the exact logarithmic derivative where its guards are inactive. The sphere integral uses the closed form that the code's results are proved equal to at every position outside (the code itself keeps the polar angle away from the axis by its clamp)."
 ],
 "C75": [
  "proved",
  "torch/scipy backends with exact Bessel functions (the interface problem solvable, which C68 proves for passive particles); pena backend with the exact logarithmic derivative where its guards are inactive. The volume integral uses the closed form that the code's results are proved equal to at every position inside a layer, in the limit of a vanishing shift eps of k r."
 ],
 "C76": [
  "proved",
  "torch/scipy backends with exact Bessel functions; pena backend with the exact logarithmic derivative where its guards are inactive. The spherical components are compared; Maxwell's equations are stated off the polar axis. The particle has eps_j + eps_(j+1) != 0 at every interface."
 ],
 "C77": [
  "proved",
  "pena backend. Derivatives are the mathematical derivatives of the function the code computes (what automatic differentiation returns where no torch.where switches). Permittivities must not lie on the branch cut of the square root unless they are constant."
 ],
 "C78": [
  "proved",
  "Normwise relative error of every operation, no overflow or underflow. Explicit constants for the logarithmic derivatives from order 4|z| on; the statement about coefficients and cross sections is qualitative (existence of u and n_add)."
 ],
 "C79": [
  "proved",
  "The derivative formulas of PyTorch's elementary operations are part of the model (Model/Backward) and not verified against the PyTorch source. Permittivities that require a gradient must not lie on the branch cut of the square root. The engine statement is about scalar nodes."
 ],
 "C80": [
  "proved",
  "Exact arithmetic: multiples of pi are not floating point numbers, next to them the code divides rounding errors of the recurrence by each other. Where the determinant of the closed form vanishes too the code returns NaN, the model 0."
 ],
 "C81": [
  "proved",
  "Exact arithmetic and one particle at a time (in a batch the largest argument decides the depth). The depth is a step function of the argument: where it changes the computed function is discontinuous and excluded. SciPy is assumed exact; its wrappers are once differentiable only, as in the code."
 ],
 "C82": [
  "proved",
  "Exact arithmetic, one particle and one angle at a time. Conditions on the coefficients are those of C79 and C81."
 ],
 "C83": [
  "proved",
  "Exact arithmetic, one particle and one probe point at a time; the depths of the recurrences, chosen from the largest argument in the batch, must not change near the parameters. Conditions on the coefficients are those of C81."
 ],
 "C84": [
  "proved",
  "Exact arithmetic, one particle and one probe point at a time, recurrence depth n_add = N arbitrary (15 in the code)."
 ],
 "C85": [
  "partial",
  "false for a user-given n_max with the pena backend: proved with witness; error of the recurrence in closed form (C85_closed_form), bound at orders not below the argument (C85_above, C85_own_order_partial), wrong values far beyond the start order (C85_far). For real arguments all orders are covered: the returned values belong to psi_k - e chi_k with an explicitly bounded e (C85_real_argument, C85_own_order_real). For arguments in the closed upper half plane all orders are covered as well: psi_k - e zeta_k with explicitly bounded e (C85_complex_argument, C85_own_order_complex); in absorbing layers no guard ever acts and the distance to psi_k'/psi_k is bounded at every order (C85_absorbing, C85_own_order_absorbing)."
 ],
 "C86": [
  "proved",
  "exact special functions (torch, scipy) or exact logarithmic derivative (pena) assumed; pena also assumes that no guard of the solver fires, which is proved for small spheres (C86_small_sphere). Layers with Re eps <= 0 are outside the condition (surface resonances)."
 ],
 "C87": [
  "partial",
  "proved except for the degree of polarisation, for which it is false with a proved witness (C87_matched_polarisation)"
 ],
 "C88": [
  "partial",
  "false as stated; C88_floor, C88_small and C88_centre prove the failure, C88_factor bounds the error, C88_model ties the operation by operation program to the model of vsh_pena. The range of the exponent is not limited (no overflow or underflow)."
 ],
 "C89": [
  "partial",
  "false as stated: C89_overflow and C89_field prove the failure, C89_core that the coefficients involved are zero, C89_model that the range-limited program is the model of nearfields as long as no value leaves the range. The logarithmic derivatives are computed without range check; fewer orders are not covered (in exact arithmetic the overflow starts at about order 33)."
 ],
 "C90": [
  "partial",
  "false as stated: C90_zeta, C90_coefficients, C90_cross, C90_smaller and C90_batch prove the failure, C90_model that the program with infinities and nan is the model of C78 as long as nothing overflows. The logarithmic derivatives and H_a, H_b are computed without range check. A positive statement (no overflow for given sizes) is not proved here."
 ],
 "C91": [
  "proved",
  "C91_core_coef and C91_film_coef are about the interface problem for any number of layers; C91_core_exact and C91_film_exact about any call that solves it; C91_core and C91_coating about torch and scipy calls, with cross sections and efficiencies."
 ],
 "C92": [
  "proved",
  "The perfectly conducting sphere is specified by its boundary condition (Spec/Conductor.lean); C92_conductor: its coefficients exist, are unique and lossless. C92_coef is about the interface problem, C92_exact about any call that solves it, C92_calls about torch and scipy calls with cross sections; C92_interior compares two interiors; C92_dielectric shows that the condition on the permittivity is needed."
 ],
 "C93": [
  "proved",
  "C93_reversal and C93_lasing are about the interface problem, C93_exact about any two calls that solve it, C93_gain about cross sections. C93_absorber proves that perfect absorbers with Im eps > 0 exist for every multipole."
 ],
 "C94": [
  "proved",
  "C94_difference, C94_gradient and C94_radius are about the interface problem, C94_gradient_run, C94_radius_run and C94_extinction about calls of any backend that solve it near the particle. C94_torch is end to end for core-shell particles. The waves ChannelWaves are those whose fields nearfields returns (C75)."
 ],
 "C95": [
  "proved",
  "C95_exact_arithmetic ties the operation-by-operation program (Model/RoundedShell) to the exact model. C95_scipy needs no condition on denominators. The error bound is not explicit."
 ],
 "C96": [
  "proved",
  "Uses C94 (derivative as overlap integral) and the conjugation of C93. C96_phase, C96_run and C96_torch are global in the permittivity, C96_gradient_run and C96_radius are local."
 ],
 "C97": [
  "proved",
  "Contrasts with C28 (the current reading of legacy arguments). Arrays are functions on indices; dtype promotion is not modelled."
 ],
 "C98": [
  "proved",
  "On the plane x = 0 the program moves the point by 2.2e-15 (helper.transform_xyz_to_spherical), so the reflection x -> -x is exact only off that plane; Spec.direction contains that shift."
 ],
 "C99": [
  "proved",
  "In exact arithmetic with exact special functions (or their limit in the recurrence depth); SolverClear excludes the 1e-30 guards."
 ],
 "C100": [
  "proved",
  "With exact special functions at nonzero arguments; value of j_0 at zero as SciPy returns it."
 ],
 "C101": [
  "proved",
  "Casts to single precision left out. One wavenumber per call. The mismatch is a fault of the code, proved as such."
 ],
 "C102": [
  "proved",
  "One wavenumber per call; that a freed graph cannot be passed again is PyTorch behaviour, part of the trusted base. A fault of the code, proved as such."
 ],
 "C103": [
  "proved",
  "scipy's Halton sequence is modelled by its definition; torchgdm's solver and its grid of positions on a sphere are parameters."
 ],
 "C104": [
  "proved",
  "the extraction is a parameter (C103 is about it); torchgdm's base class is not modelled beyond the arguments it receives."
 ],
 "C105": [
  "proved",
  "real arithmetic and exact special functions; the general form takes the exactness of the calls near the given permittivity as a hypothesis, the torch form proves it."
 ],
 "C106": [
  "proved",
  "real arithmetic; for the recorded runs the conditions of C79 (no guard fires) and C81."
 ],
 "C107": [
  "proved",
  "real arithmetic and exact special functions; materials without dispersion (C101 adds it). The general form takes the exactness of the calls as a hypothesis, the torch form proves it."
 ],
 "C108": [
  "proved",
  "a warning is a call of warnings.warn; torchgdm's base class is represented by the arguments it receives. The statement describes the code where the documentation differs (ratio to the dipole, n_env)."
 ],
 "C109": [
  "proved",
  "the array shares memory with the tensor in torch; the model has no in-place operations on it"
 ],
 "C110": [
  "partial",
  "false: both methods always raise ModuleNotFoundError before anything is evaluated (C110_fails_partial); the list of modules of the package is part of the model"
 ],
 "C111": [
  "partial",
  "false: without torchgdm every instantiation returns an exception object (C111_fails_partial); with torchgdm the classes behave as their constructors (C111_available)"
 ],
 "C112": [
  "proved",
  "yaml parsing is not modelled: a file is the list of its entries; the shipped files are assumed to hold the texts in Model/Tables"
 ],
 "C113": [
  "partial",
  "false: MatDatabase() returns an object whose every use is an AttributeError (C113_hollow_partial), a formula other than 1 is accepted but every permittivity is a ValueError (C113_formula_partial), and a lookup wavelength that is not a float32 number is stored under a key that is never found (C113_unrounded_partial). Tables and complete Sellmeier formulas work (C113_usable)"
 ],
 "C114": [
  "proved",
  "complex64 rounding is assumed to keep passive values passive (true for rounding with a relative error, relative_passive); exact special functions, scipy backend only for the cross sections"
 ],
 "C115": [
  "proved",
  "exact numbers (the rounding to float32 and complex64 is itself a step function) and exact special functions, scipy backend"
 ],
 "C116": [
  "proved",
  "exact numbers and exact special functions, scipy backend; the required spacing and the constant of the quadratic error exist but are not given as formulas"
 ],
 "C117": [
  "proved",
  "exact numbers, one argument at a time; the jump of sph_jn_torch at 11/2 is about 1e-23 and invisible in double precision, the one of sph_jn_torch_via_rec is visible"
 ]
}