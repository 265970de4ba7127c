{"id": "C01", "title": "Angular functions are Legendre derivatives", "statement": "special.pi_tau(n, mu) returns n+1 orders; the order-k entry of the first output is P_k'(mu) and of the second is d/dtheta[sin(theta) P_k'(cos theta)] (written as a polynomial in mu = cos theta); n < 1 is rejected by an assertion.", "quantifier": "every n, every order k <= n, every real mu", "why_tests_cant": "infinitely many orders and arguments; the functions are built by a recurrence whose error for order k only shows at order k", "anchors": ["src/pymiediff/special.py:pi_tau"]}
{"id": "C02", "title": "Forward and backward values of the scattering amplitudes", "statement": "multishell.angular_scattering returns S1 = S2 at theta = 0 and S1 = -S2 at theta = pi, and the same values at theta, -theta and 2*pi - theta.", "quantifier": "every set of Mie coefficients, every truncation order, every angle", "why_tests_cant": "holds for all particles, wavelengths, truncations; rests on values of pi_n and tau_n at +-1 for all n", "anchors": ["src/pymiediff/multishell.py:angular_scattering", "src/pymiediff/special.py:pi_tau"]}
{"id": "C03", "title": "Optical theorem links two API functions", "statement": "For the same particle and n_max, cs_ext from cross_sections equals (4 pi / k^2) Re S1(0) with S1 from angular_scattering.", "quantifier": "every particle, wavenumber, truncation order", "why_tests_cant": "an identity between two independently coded observables for all inputs", "anchors": ["src/pymiediff/multishell.py:cross_sections", "src/pymiediff/multishell.py:angular_scattering"]}
{"id": "C04", "title": "Integrated angular pattern equals scattering cross section", "statement": "For the same particle and n_max, cs_sca equals (pi/k^2) times the integral over theta in [0, pi] of (i_per + i_par) sin(theta).", "quantifier": "every set of Mie coefficients, every truncation order", "why_tests_cant": "needs orthogonality of the angular functions for all pairs of orders", "anchors": ["src/pymiediff/multishell.py:cross_sections", "src/pymiediff/multishell.py:angular_scattering", "src/pymiediff/special.py:pi_tau"]}
{"id": "C05", "title": "Cross-section bookkeeping", "statement": "cs_ext = cs_sca + cs_abs; every total is the sum over electric/magnetic and over orders of the returned multipole terms; every efficiency is the cross section divided by pi r_outer^2; every scattering multipole is non-negative when the host is lossless.", "quantifier": "every set of Mie coefficients, wavenumber and radius", "why_tests_cant": "all inputs and truncation orders", "anchors": ["src/pymiediff/multishell.py:cross_sections"]}
{"id": "C06", "title": "Lossless particles do not absorb", "statement": "If all layer permittivities and the host permittivity are positive reals, then with exact logarithmic derivatives the pena backend gives Re a_n = |a_n|^2 and Re b_n = |b_n|^2, hence cs_abs = 0 multipole by multipole; with the code's truncated downward recurrence the absorption tends to 0 as the recurrence depth grows.", "quantifier": "every number of layers, radii, positive permittivities, wavenumber, order", "why_tests_cant": "physical invariant over a continuum of particles and unbounded layer number", "anchors": ["src/pymiediff/multishell.py:_miecoef_pena", "src/pymiediff/multishell.py:cross_sections", "src/pymiediff/special.py:pena_D1_n", "src/pymiediff/special.py:pena_D3_n", "src/pymiediff/special.py:pena_Q_n", "src/pymiediff/special.py:pena_psi_zeta_n"]}
{"id": "C07", "title": "Passive particles absorb non-negatively", "statement": "If every layer permittivity has non-negative imaginary part, then Re a_n >= |a_n|^2 and Re b_n >= |b_n|^2, so cs_abs >= 0 multipole by multipole.", "quantifier": "every number of layers, radii, passive permittivities, wavenumber, order", "why_tests_cant": "sign condition over a continuum; rests on an energy-flux argument", "anchors": ["src/pymiediff/multishell.py:_miecoef_pena", "src/pymiediff/multishell.py:cross_sections"]}
{"id": "C08", "title": "Index-matched particles are invisible", "statement": "If every layer permittivity equals the host permittivity, all a_n and b_n from the pena backend are exactly 0.", "quantifier": "every number of layers, radii, host index, wavenumber, order", "why_tests_cant": "all layer counts and sizes", "anchors": ["src/pymiediff/multishell.py:_miecoef_pena"]}
{"id": "C09", "title": "Splitting a layer changes nothing", "statement": "Inserting an extra interface inside a layer (same permittivity on both sides) leaves every a_n, b_n from the pena backend unchanged.", "quantifier": "every layer list, every split position, every order", "why_tests_cant": "one pair of particles is tested in the repo; the claim is for all layer lists and positions", "anchors": ["src/pymiediff/multishell.py:_miecoef_pena", "src/pymiediff/special.py:pena_Q_n"]}
{"id": "C10", "title": "Scale invariance", "statement": "Multiplying all radii by s > 0 and dividing k0 by s leaves the automatically chosen n_max, a_n, b_n and all efficiencies unchanged and multiplies cross sections by s^2; the near fields at the scaled positions are unchanged (off the plane x = 0).", "quantifier": "every particle, every s > 0", "why_tests_cant": "continuum of scale factors; includes the automatic truncation", "anchors": ["src/pymiediff/multishell.py:mie_coefficients", "src/pymiediff/multishell.py:cross_sections", "src/pymiediff/helper/helper.py:get_truncution_criteroin_pena2009", "src/pymiediff/multishell.py:nearfields"]}
{"id": "C11", "title": "Multilayer solver satisfies the interface conditions", "statement": "The a_n, b_n returned by the pena backend are exactly those for which a field regular in the core and outgoing-plus-incident outside satisfies tangential E and H continuity at every layer interface.", "quantifier": "every number of layers, radii, indices, order", "why_tests_cant": "solver correctness for unbounded layer count by induction", "anchors": ["src/pymiediff/multishell.py:_miecoef_pena"]}
{"id": "C12", "title": "Core-shell closed form satisfies the interface conditions", "statement": "The a,b,c,d,f,g,v,w coefficients returned by the torch/scipy backends satisfy all eight tangential continuity equations at the core and the outer interface whenever the denominators are nonzero.", "quantifier": "every value of the special functions, indices and sizes with nonzero denominators", "why_tests_cant": "the formulas come from a computer-algebra system; sampling cannot establish a rational-function identity", "anchors": ["src/pymiediff/multishell.py:_miecoef"]}
{"id": "C13", "title": "Backends agree", "statement": "For homogeneous and core-shell particles, given the same special-function values, the pena backend and the torch/scipy backends return the same a_n, b_n.", "quantifier": "every homogeneous/core-shell particle and order", "why_tests_cant": "equality of two unrelated algorithms over a continuum", "anchors": ["src/pymiediff/multishell.py:_miecoef", "src/pymiediff/multishell.py:_miecoef_pena", "src/pymiediff/multishell.py:mie_coefficients"]}
{"id": "C14", "title": "Internal expansion coefficients match at every interface", "statement": "The layer coefficients computed by nearfields (pena) satisfy the four continuity equations at every interface, and the coefficients of the singular waves that the code forces to 0 in the core already come out as 0.", "quantifier": "every number of layers, radii, indices, order", "why_tests_cant": "unbounded layer count; forcing to zero could hide an inconsistency", "anchors": ["src/pymiediff/multishell.py:nearfields"]}
{"id": "C15", "title": "Probe points belong to exactly one region", "statement": "For strictly increasing radii each probe distance lies in exactly one of the L+1 regions; a point on an interface belongs to the inner side; E_t = E_s + E_i and H_t = H_s + H_i outside and E_t = E_s, H_t = H_s inside.", "quantifier": "every layer list, every probe point", "why_tests_cant": "boundary cases for every layer list", "anchors": ["src/pymiediff/multishell.py:nearfields"]}
{"id": "C16", "title": "Fields are linear in the incident amplitude", "statement": "All six fields returned by nearfields scale linearly with E_0.", "quantifier": "every complex E_0, particle, probe point", "why_tests_cant": "continuum of amplitudes and particles", "anchors": ["src/pymiediff/multishell.py:nearfields"]}
{"id": "C17", "title": "Downward recurrence converges to the logarithmic derivative", "statement": "pena_D1_n(n, z) approximates psi_n'(z)/psi_n(z): at orders k with 2|z| <= k+1 the error is at most 4^-(n_max+n_add-1-k), and at every order it tends to 0 as n_add grows when psi does not vanish; without extra orders the call fails instead of returning wrong values.", "quantifier": "every z != 0, every order, every n_add", "why_tests_cant": "limit statement over unbounded recurrence depth", "anchors": ["src/pymiediff/special.py:pena_D1_n"]}
{"id": "C18", "title": "Upward recurrences are exact", "statement": "Given exact D1, pena_D3_n returns zeta_n'/zeta_n and pena_psi_zeta_n returns psi_n and zeta_n for all orders; the Wronskian psi zeta' - psi' zeta = i holds at every order.", "quantifier": "every order and every z where no guard triggers", "why_tests_cant": "all orders by induction", "anchors": ["src/pymiediff/special.py:pena_D3_n", "src/pymiediff/special.py:pena_psi_zeta_n"]}
{"id": "C19", "title": "Interface ratio equals its definition", "statement": "pena_Q_n returns psi_n(z1) zeta_n(z2) / (zeta_n(z1) psi_n(z2)) for every order.", "quantifier": "every order and every z1, z2 with z1/z2 = x1/x2 where no guard triggers", "why_tests_cant": "all orders by induction; one sample in the repo tests", "anchors": ["src/pymiediff/special.py:pena_Q_n"]}
{"id": "C20", "title": "Neumann functions are exact at every order", "statement": "sph_yn_torch(n, z) returns n+1 values equal to the spherical Bessel functions of the second kind (Rayleigh formula) for every order, for |z| >= eps.", "quantifier": "every order, every complex z with |z| >= 1e-10", "why_tests_cant": "all orders and arguments", "anchors": ["src/pymiediff/special.py:sph_yn_torch"]}
{"id": "C21", "title": "f_der is the derivative", "statement": "Applied to the exact spherical Bessel sequence of either kind, f_der returns the complex derivative of every order; psi/chi/xi and their _torch twins return z f and (z f)'. Order 0 alone is rejected with IndexError.", "quantifier": "every order, every z != 0", "why_tests_cant": "all orders; derivative is an analytic notion", "anchors": ["src/pymiediff/special.py:f_der", "src/pymiediff/special.py:psi", "src/pymiediff/special.py:chi", "src/pymiediff/special.py:xi", "src/pymiediff/special.py:psi_torch", "src/pymiediff/special.py:chi_torch", "src/pymiediff/special.py:xi_torch"]}
{"id": "C22", "title": "j_n recurrences have the right structure and limit", "statement": "Both torch j_n algorithms return n+1 orders, have exactly j_0 = sin z/z at order 0, satisfy the three-term recurrence, return 1,0,0,... at z = 0 (ratio variant), and tend to the true j_n as the extra depth grows.", "quantifier": "every order, every z, every extra depth", "why_tests_cant": "limit over unbounded depth, all orders", "anchors": ["src/pymiediff/special.py:sph_jn_torch", "src/pymiediff/special.py:sph_jn_torch_via_rec"]}
{"id": "C23", "title": "Hand-written gradients are the true gradients", "statement": "The backward passes of sph_jn/sph_yn/sph_jn_der/sph_yn_der multiply by the conjugate of the true complex derivative; in particular the closed form used for the second derivative is the second derivative.", "quantifier": "every order, every z != 0", "why_tests_cant": "analytic identity for every order", "anchors": ["src/pymiediff/special.py:bessel2ndDer", "src/pymiediff/special.py:_AutoDiffJn", "src/pymiediff/special.py:_AutoDiffdJn", "src/pymiediff/special.py:_AutoDiffYn", "src/pymiediff/special.py:_AutoDiffdYn"]}
{"id": "C24", "title": "Backward passes leave inputs alone", "statement": "Evaluating gradients does not modify the tensor the user passed in. (Expected to FAIL: bessel2ndDer writes 1e-10 into zero entries of a numpy view of the saved input.)", "quantifier": "every input tensor", "why_tests_cant": "aliasing: only inputs containing an exact zero show it", "anchors": ["src/pymiediff/special.py:bessel2ndDer", "src/pymiediff/special.py:_AutoDiffdJn"]}
{"id": "C25", "title": "Truncation orders", "statement": "get_truncution_criteroin_wiscombe is non-decreasing in the size parameter over the whole real line including both breakpoints, is at least the size parameter, and depends on a batch only through its largest |ka|; get_truncution_criteroin_pena2009 is at least the Wiscombe order plus 15 and at least 14.5 above every |m_l x_l| and |m_l x_{l-1}|.", "quantifier": "every non-negative real size parameter, every batch, every layer list", "why_tests_cant": "piecewise formula over a continuum with rounding", "anchors": ["src/pymiediff/helper/helper.py:get_truncution_criteroin_wiscombe", "src/pymiediff/helper/helper.py:get_truncution_criteroin_pena2009"]}
{"id": "C26", "title": "Batched evaluation equals one-by-one evaluation", "statement": "With n_max given, entry [n, p, k] of the batched Mie coefficients (pena) equals the coefficient computed for particle p at wavenumber k alone; likewise cross sections and amplitudes.", "quantifier": "every number of particles, wavenumbers, layers, orders", "why_tests_cant": "all shapes; broadcasting mistakes hide at particular shape coincidences", "anchors": ["src/pymiediff/multishell.py:_miecoef_pena", "src/pymiediff/multishell.py:_broadcast_mie_layers", "src/pymiediff/multishell.py:cross_sections", "src/pymiediff/multishell.py:angular_scattering"]}
{"id": "C27", "title": "Accepted permittivity layouts", "statement": "Each accepted eps_layers layout, (L,), (N_part,L), (L,N_k0), (N_part,L,N_k0) and the singleton-broadcast 3D forms, is expanded so that entry [p,l,k] is the documented one; when a 2D shape fits both readings the (N_part,L) reading is used; every other shape is rejected with ValueError.", "quantifier": "every shape of r_layers, eps_layers, k0, eps_env", "why_tests_cant": "all shapes and coincidences of sizes", "anchors": ["src/pymiediff/multishell.py:_broadcast_mie_layers"]}
{"id": "C28", "title": "Legacy core/shell inputs mean the corresponding layers", "statement": "r_c/r_s/eps_c/eps_s map to one layer when r_c equals r_s (or r_s is omitted) and to two layers otherwise, with the same permittivity entries the user gave; incomplete inputs are rejected; r_layers/eps_layers take precedence over legacy inputs given at the same time, which then have no effect.", "quantifier": "every combination of present/absent inputs, every shape", "why_tests_cant": "decision table times shapes", "anchors": ["src/pymiediff/multishell.py:_as_layer_inputs"]}
{"id": "C29", "title": "Radii must increase", "statement": "mie_coefficients (hence every observable) raises ValueError unless the radii of every particle in the batch are strictly increasing.", "quantifier": "every batch of layer lists", "why_tests_cant": "all batches and positions of the violation", "anchors": ["src/pymiediff/multishell.py:_broadcast_mie_layers"]}
{"id": "C30", "title": "Particle constructor accepts exactly the documented argument combinations", "statement": "Particle(...) succeeds exactly for (r_layers with exactly one of eps_layers/mat_layers and no legacy argument, 1-D, non-empty, matching material count) or (r_core and mat_core, shell radius and shell material both or neither, scalar increasing radii), with acceptable materials (number, 0-d tensor, material object); otherwise it raises, and the exception is ValueError unless a material is unacceptable or the legacy radii have different shapes (RuntimeError).", "quantifier": "all 2^7 argument presence patterns and all list lengths", "why_tests_cant": "decision table over presence patterns and lengths", "anchors": ["src/pymiediff/main.py:Particle.__init__"]}
{"id": "C31", "title": "Device consistency over histories", "statement": "After any sequence of particle creations and set_device calls, every material of a particle is on the particle's device, provided no material object is shared between particles. (With sharing it FAILS.)", "quantifier": "every history of operations", "why_tests_cant": "all histories; aliasing of material objects", "anchors": ["src/pymiediff/main.py:Particle.set_device", "src/pymiediff/main.py:Particle.__init__", "src/pymiediff/materials/mat.py:MatDatabase.set_device", "src/pymiediff/materials/mat.py:MatConstant.set_device"]}
{"id": "C32", "title": "Scalar materials are the squared index at every wavelength", "statement": "A scalar material argument n yields permittivity n^2 at every wavelength, one value per requested wavelength.", "quantifier": "every scalar and wavelength list", "why_tests_cant": "all inputs", "anchors": ["src/pymiediff/main.py:Particle.__init__", "src/pymiediff/materials/mat.py:MatConstant.get_epsilon"]}
{"id": "C33", "title": "Tabulated permittivity is the piecewise linear interpolant", "statement": "interp1d returns the table value at a table wavelength, linear interpolation between neighbours, the end value outside the range; the result does not depend on the order of table rows, never divides by zero, and lies in the convex hull of the table values.", "quantifier": "every non-empty table with distinct abscissae, every evaluation point", "why_tests_cant": "all tables and evaluation points incl. boundary cases", "anchors": ["src/pymiediff/helper/helper.py:interp1d"]}
{"id": "C34", "title": "The permittivity cache is transparent", "statement": "After any history of get_epsilon and set_device calls, get_epsilon returns the value of the dispersion model at the requested wavelength and on the current device.", "quantifier": "every history of calls", "why_tests_cant": "history-dependent state", "anchors": ["src/pymiediff/materials/mat.py:MatDatabase._get_eps_single_wl", "src/pymiediff/materials/mat.py:MatDatabase.get_epsilon", "src/pymiediff/materials/mat.py:MatDatabase.set_device"]}
{"id": "C35", "title": "The cache keeps gradients attached to the caller", "statement": "The permittivity returned for a differentiable wavelength depends (for autograd) on that wavelength tensor. (Expected to FAIL: a cached entry stays attached to the tensor of the first call.)", "quantifier": "every history of calls", "why_tests_cant": "needs two calls with equal values but different tensors", "anchors": ["src/pymiediff/materials/mat.py:MatDatabase._get_eps_single_wl"]}
{"id": "C36", "title": "Table loader", "statement": "Rows 'wl n [k]' become wavelength 1000*wl and permittivity (n + i k)^2 with k = 0 when missing; blank rows are skipped; row order and count are kept.", "quantifier": "every list of rows", "why_tests_cant": "all tables", "anchors": ["src/pymiediff/materials/mat.py:_load_tabulated"]}
{"id": "C37", "title": "Sellmeier model", "statement": "Formula-1 data evaluate to 1 + c0 + sum c_i w^2/(w^2 - c_{i+1}^2) with w the wavelength in microns; an unpaired coefficient raises IndexError; other formula numbers raise ValueError on evaluation.", "quantifier": "every coefficient list and wavelength", "why_tests_cant": "all coefficient lists", "anchors": ["src/pymiediff/materials/mat.py:MatDatabase._eval", "src/pymiediff/materials/mat.py:_load_formula"]}
{"id": "C38", "title": "Coordinate transforms are inverse and field transform is a rotation", "statement": "transform_spherical_to_xyz after transform_xyz_to_spherical gives back the point whenever r > 0, x != 0 and |z/r| is at most 1 - 10 eps; transform_fields_spherical_to_cartesian preserves the Hermitian product and maps the radial unit vector to the position direction.", "quantifier": "every point and every field vector", "why_tests_cant": "continuum of points", "anchors": ["src/pymiediff/helper/helper.py:transform_xyz_to_spherical", "src/pymiediff/helper/helper.py:transform_spherical_to_xyz", "src/pymiediff/helper/helper.py:transform_fields_spherical_to_cartesian"]}
{"id": "C39", "title": "Rotation helpers are rotations", "statement": "rotation_x/y/z are orthogonal with determinant 1, compose additively, fix their axis.", "quantifier": "every angle", "why_tests_cant": "continuum of angles", "anchors": ["src/pymiediff/helper/tg.py:rotation_x", "src/pymiediff/helper/tg.py:rotation_y", "src/pymiediff/helper/tg.py:rotation_z"]}
{"id": "C40", "title": "Illumination frames are right-handed and produce the requested plane wave", "statement": "For every plane in {xz,yz,xy}, polarization in {s,p} and angle, the frame used to evaluate fields is a rotation, its propagation direction and polarization are orthogonal unit vectors, the incident field seen in the lab frame is e * exp(i k d.r), with magnetic part along d x e; other plane or polarization names raise ValueError.", "quantifier": "every angle, plane, polarization, probe point", "why_tests_cant": "continuum of angles, all strings", "anchors": ["src/pymiediff/helper/tg.py:_plane_wave_rotation", "src/pymiediff/helper/tg.py:_eval_mie"]}
{"id": "C41", "title": "Illumination list", "statement": "setup_plane_waves_configs(n, planes) returns 2*n*len(planes) entries with angles 2 pi i/n in [0, 2 pi), each (angle, plane, polarization) exactly once for distinct planes.", "quantifier": "every n and plane list", "why_tests_cant": "all n", "anchors": ["src/pymiediff/helper/tg.py:setup_plane_waves_configs"]}
{"id": "C42", "title": "Automatic backend choice is always supported", "statement": "When no backend is forced, the chosen backend accepts the particle's number of layers; the enclosing radius used is the largest layer radius.", "quantifier": "every layer count", "why_tests_cant": "all layer counts", "anchors": ["src/pymiediff/helper/tg.py:_resolve_mie_backend", "src/pymiediff/helper/tg.py:_get_enclosing_radius", "src/pymiediff/multishell.py:mie_coefficients"]}
{"id": "C43", "title": "Legacy near fields are correct for spectra", "statement": "nearfields(backend='torch') evaluated for several wavelengths or particles agrees with evaluating each one alone. (Expected to FAIL: refractive indices are not expanded to the position/vector axes.)", "quantifier": "every number of wavelengths and particles", "why_tests_cant": "repo tests only use one wavelength; shape coincidence (3 wavelengths) gives silently wrong values", "anchors": ["src/pymiediff/multishell.py:nearfields", "src/pymiediff/special.py:vsh"]}
{"id": "C44", "title": "Order axis survives squeezing", "statement": "mie_ab_sphere_3d_AD returns arrays of shape (N_wavelength, n_max). (Expected to FAIL for n_max = 1 with several wavelengths.)", "quantifier": "every n_max and wavelength count", "why_tests_cant": "shape coincidences", "anchors": ["src/pymiediff/helper/tg.py:mie_ab_sphere_3d_AD", "src/pymiediff/helper/helper.py:_squeeze_dimensions"]}
{"id": "C45", "title": "Environment index override", "statement": "Passing n_env (a float equal to the particle's environment index) to mie_ab_sphere_3d_AD / extract_GPM_sphere_miediff gives the same result as omitting it. (Expected to FAIL: indexing a float.)", "quantifier": "every particle and n_env", "why_tests_cant": "all inputs take the failing path", "anchors": ["src/pymiediff/helper/tg.py:mie_ab_sphere_3d_AD", "src/pymiediff/helper/tg.py:extract_GPM_sphere_miediff"]}
{"id": "C46", "title": "Integer extra depth is accepted", "statement": "sph_jn_torch_via_rec and D1n_torch accept n_add as 'auto' or an int, as documented. (Expected to FAIL: .lower() on an int.)", "quantifier": "every int", "why_tests_cant": "all ints", "anchors": ["src/pymiediff/special.py:sph_jn_torch_via_rec", "src/pymiediff/special.py:D1n_torch"]}
{"id": "C47", "title": "Vector spherical harmonics satisfy the curl relation", "statement": "For exact radial functions the N harmonics of vsh are curl(M)/k in spherical components, and M is curl(N)/k, at every point off the axis and origin, so the returned expansions satisfy Maxwell's curl equations.", "quantifier": "every order, every point", "why_tests_cant": "differential identity for all orders", "anchors": ["src/pymiediff/special.py:vsh", "src/pymiediff/special.py:vsh_pena"]}
{"id": "C48", "title": "Polarimetric bounds", "statement": "i_per, i_par >= 0, i_unpol is their mean, and -1 <= pol_degree <= 1 whenever i_unpol is nonzero.", "quantifier": "every set of coefficients and angle", "why_tests_cant": "all inputs", "anchors": ["src/pymiediff/multishell.py:angular_scattering"]}
{"id": "C49", "title": "Backend dispatch", "statement": "Backend names are case-insensitive; unknown names raise ValueError; torch/scipy with more than two layers raise ValueError; pena with return_internal raises NotImplementedError; n_max = 0 with pena raises ValueError and a negative n_max raises RuntimeError with every backend.", "quantifier": "every string and layer count", "why_tests_cant": "all strings", "anchors": ["src/pymiediff/multishell.py:mie_coefficients", "src/pymiediff/multishell.py:_miecoef_pena", "src/pymiediff/multishell.py:_miecoef"]}
{"id": "C50", "title": "Effective polarizability", "statement": "The 6x6 polarizability has (3i/2) a_1/(k0^3 n_env) on the electric diagonal, (3i/2) b_1/(k0^3 n_env^3) on the magnetic diagonal and zeros elsewhere; for a passive particle its optical theorem gives non-negative absorption.", "quantifier": "every wavelength list and coefficients", "why_tests_cant": "all inputs", "anchors": ["src/pymiediff/helper/tg.py:StructAutodiffMieEffPola3D"]}
{"id": "C51", "title": "Plane wave expansion coefficients", "statement": "plane_wave_expansion(n) returns exactly n coefficients i^k (2k+1)/(k(k+1)), k = 1..n; negative n is rejected.", "quantifier": "every n", "why_tests_cant": "all n", "anchors": ["src/pymiediff/helper/helper.py:plane_wave_expansion"]}
{"id": "C52", "title": "Shipped material tables are passive at every wavelength", "statement": "For every tabulated material file in the package, wavelengths are strictly increasing and Im(eps) >= 0 at every wavelength, in and out of range.", "quantifier": "every tabulated material, every real wavelength", "why_tests_cant": "continuum of wavelengths between table rows", "anchors": ["src/pymiediff/materials/data", "src/pymiediff/helper/helper.py:interp1d", "src/pymiediff/materials/mat.py:_load_tabulated"]}
{"id": "C53", "title": "Field normalisation is neutral", "statement": "extract_GPM_sphere_miediff divides the four fields of each illumination by one positive number, so every linear relation scattered = T incident is preserved and no division by zero occurs.", "quantifier": "every illumination, all field values", "why_tests_cant": "all field values including all-zero", "anchors": ["src/pymiediff/helper/tg.py:extract_GPM_sphere_miediff"]}
{"id": "C54", "title": "Combining structures", "statement": "combine_gpm_structures_autodiff keeps one entry per structure in order, rejects an empty list and structures with several entries, and defaults environment and device to those of the first structure.", "quantifier": "every list of structures", "why_tests_cant": "all lists", "anchors": ["src/pymiediff/helper/tg.py:combine_gpm_structures_autodiff"]}
{"id": "C55", "title": "Material names", "statement": "Database lookup is case-insensitive and list_available_materials returns the keys for every value of verbose. (Expected to FAIL for verbose=True: Path() of a list.)", "quantifier": "both flag values, every file list", "why_tests_cant": "error path untested", "anchors": ["src/pymiediff/materials/mat.py:list_available_materials", "src/pymiediff/materials/mat.py:MatDatabase.__init__"]}
{"id": "C56", "title": "sph_jn_torch and the layout of its argument", "statement": "sph_jn_torch on a tensor: with at most one axis every call with n>=0 succeeds and arguments below 1e-8 get the leading series term z^j/(2j+1)!!; with two or more axes the call succeeds exactly if no entry is below 1e-8 or n=0, and raises RuntimeError otherwise (a defect: the series values have one axis too many); whenever it succeeds, its entries are those of the call on the flattened tensor.", "quantifier": "every order, every tensor shape, every complex argument", "why_tests_cant": "tests call the function with one-dimensional tensors and arguments away from zero", "anchors": ["src/pymiediff/special.py:sph_jn_torch", "src/pymiediff/special.py:_expand_n_z"]}
{"id": "C57", "title": "Batched evaluation with the torch and scipy backends", "statement": "For homogeneous and core-shell particles, every entry of a batched mie_coefficients / cross_sections / angular_scattering result is the result for that particle and wavenumber alone: always for scipy; for torch whenever the recurrence depth chosen from the largest argument of the batch is the depth of the entry itself (in particular for batches of one entry, for arguments all below 22/3 (recurrence) or 11/2 (ratio), or own argument at least 70/3 or 20). which_jn='recurrence' never raises; which_jn='ratio' raises RuntimeError exactly if an argument is below 1e-8. More than two layers raise ValueError; without n_max the order is the Wiscombe order of the largest size parameter. (The torch value of one entry does depend on the other entries in general.)", "quantifier": "all documented layouts, all batches, all orders", "why_tests_cant": "numerically tiny differences, unbounded batches", "anchors": ["src/pymiediff/multishell.py:mie_coefficients", "src/pymiediff/multishell.py:_miecoef", "src/pymiediff/special.py:sph_jn_torch_via_rec", "src/pymiediff/special.py:sph_jn_torch"]}
{"id": "C58", "title": "Particle methods compute the physics of the described particle", "statement": "In any program that makes material objects, makes particles (no material object given to two particles), moves and queries them, a particle made from accepted constructor arguments with increasing radii returns from get_mie_coefficients, get_cross_sections and get_angular_scattering, at the position belonging to each requested wavenumber (and angle) of the squeezed arrays, exactly the values of a single sphere with the given radii whose layers and host have the permittivities of the described materials at the vacuum wavelength 2*pi/k0 (numbers and tensors are refractive indices; or the given eps_layers): always with backend pena; with torch whenever the recurrence depth is the wavenumber's own (always for one wavenumber), with scipy whenever the single evaluations succeed. Radii that do not increase raise ValueError, as do more than two layers with torch/scipy; without n_max the order is the rule applied to the described particle at all wavenumbers. The permittivities handed to the solver depend on every differentiable number in a constant material.", "quantifier": "all programs without sharing, all accepted argument combinations, all wavenumber layouts, all orders and angles", "why_tests_cant": "end-to-end composition over unbounded histories, layouts and materials", "anchors": ["src/pymiediff/main.py:Particle.__init__", "src/pymiediff/main.py:Particle.get_material_permittivities", "src/pymiediff/main.py:Particle.get_mie_coefficients", "src/pymiediff/main.py:Particle.get_cross_sections", "src/pymiediff/main.py:Particle.get_angular_scattering", "src/pymiediff/helper/helper.py:_squeeze_dimensions"]}
{"id": "C59", "title": "D1n_torch and D3n_torch return logarithmic derivatives", "statement": "D1n_torch on a tensor with at least one entry returns n+1 orders shaped like the argument (a number gets one axis); at orders k with 2|z| <= k+1 each entry equals psi_k'(z)/psi_k(z) up to 4^-(n+9-k), at every order it tends to it as n_add_min=n_add_max grows if no psi vanishes, and each entry is the result for that argument alone at the depth chosen from the largest entry; entries below 1e-10 are treated as 1e-10; negative orders and empty tensors raise RuntimeError. From exact D1, D3n_torch returns zeta_k'/zeta_k and psi_k zeta_k exactly for tensors with at least one axis; for a zero-dimensional argument and n>=1 it raises.", "quantifier": "every order, every tensor shape, every complex argument where psi and zeta do not vanish", "why_tests_cant": "the functions are not tested; limits and all orders need proof", "anchors": ["src/pymiediff/special.py:D1n_torch", "src/pymiediff/special.py:D3n_torch"]}
{"id": "C60", "title": "The unfinished log-derivative helpers deliver no value", "statement": "Ql_torch and xi_torch_logdir raise an exception for every argument (they index the tuple returned by D3n_torch with 2); psi_torch_logdir never returns a value: a call that does not raise returns None, which happens for n>=8 and tensors with two or more non-empty axes, and with n<8 every call raises. (Defects of unused code.)", "quantifier": "every order and every tensor of indices and size parameters", "why_tests_cant": "universally quantified failure", "anchors": ["src/pymiediff/special.py:Ql_torch", "src/pymiediff/special.py:psi_torch_logdir", "src/pymiediff/special.py:xi_torch_logdir"]}
{"id": "C61", "title": "Incident field and jump of the total field at the outer surface", "statement": "The closed-form incident field of nearfields is the x-polarised plane wave, solves Maxwell's equations in the host medium, and equals the limit of its multipole sum E_n(M_o1n - i N_e1n), -m E_n(M_e1n + i N_o1n), the error after N orders being at most |E0| 6 N (1+|kr|) exp(2|kr|) |kr|^N/(2N-1)!! in each spherical component once N >= |kr|^2. At the outer surface of any layered sphere the tangential components of the total electric and magnetic fields (multipole sum inside; scattered sum plus closed-form incident wave outside) differ exactly by the multipoles of the incident wave beyond n_max, whatever the particle, and by no more than that bound.", "quantifier": "all radii, directions, complex indices, amplitudes, numbers of layers and truncation orders (exact logarithmic derivatives, radial shift epsilon=0)", "why_tests_cant": "infinite series and all particles; a test only sees rounding plus truncation", "anchors": ["src/pymiediff/multishell.py:nearfields", "src/pymiediff/helper/helper.py:transform_fields_spherical_to_cartesian"]}
{"id": "C62", "title": "Near fields of the torch/scipy backends: what a call returns, and agreement with the pena backend", "statement": "nearfields(backend='torch'|'scipy') for one particle at one wavelength runs for any number of positions whenever mie_coefficients does (with which_jn='recurrence' always), returns arrays (1,1,N_pos,3), and each entry is the single-point result computed from the internal coefficients that mie_coefficients returns for that particle, the recurrence depths being those of the largest argument over all positions. With several wavelengths other than three, or several particles other than the number of positions, it raises. With exact special functions the torch/scipy near fields (all six) of every homogeneous or core-shell particle equal those of the pena backend at every point inside and outside.", "quantifier": "every particle described by the user's arguments, every number of positions, every order; agreement for every point at which the pena guards are inactive", "why_tests_cant": "tests compare the backends at a few points of a few particles up to rounding", "anchors": ["src/pymiediff/multishell.py:nearfields", "src/pymiediff/special.py:vsh", "src/pymiediff/special.py:vsh_pena", "src/pymiediff/multishell.py:mie_coefficients"]}
{"id": "C63", "title": "Near fields of the pena backend for batches of particles, wavenumbers and positions", "statement": "nearfields(backend='pena') runs for every number of particles, wavenumbers and positions as soon as mie_coefficients does, all six arrays have shape (N_part, N_k0, N_pos, 3), and the entry of particle p, wavenumber k and position s is the field that the same code computes for that particle, wavenumber and position alone; errors are the same. Without n_max the order is the one mie_coefficients chooses for the whole call. A single position of shape (3,) raises IndexError and a grid of positions with several axes raises.", "quantifier": "all numbers of particles, layers, wavenumbers, positions and orders, all documented layouts of the arguments", "why_tests_cant": "the branch broadcasts five-dimensional arrays with masks per region; a misplaced axis only shows for particular combinations of sizes", "anchors": ["src/pymiediff/multishell.py:nearfields", "src/pymiediff/special.py:vsh_pena"]}
{"id": "C64", "title": "Particle.get_nearfields returns the near fields of the described particle", "statement": "In any program without sharing of material objects, Particle.get_nearfields of a particle with increasing radii gives at every requested wavenumber and position the six fields of a single sphere with the given radii and the permittivities its materials have at that vacuum wavelength: for the pena backend at any number of wavenumbers (one order for all of them when n_max is not given), for the torch backend with the recurrence for at most two layers and one wavenumber. For the torch and scipy backends it raises at several wavenumbers other than three. Positions whose last axis is not three are refused.", "quantifier": "all programs of material and particle operations without sharing, all materials, radii, wavenumbers, positions and orders", "why_tests_cant": "tests query a few fresh particles; material lookup, broadcasting, region masks and squeezing interact", "anchors": ["src/pymiediff/main.py:Particle.get_nearfields", "src/pymiediff/multishell.py:nearfields", "src/pymiediff/helper/helper.py:_squeeze_dimensions"]}
{"id": "C65", "title": "The arrays handed to the GPM extraction are the near fields of the described particle", "statement": "In any program without sharing of material objects, the four arrays that extract_GPM_sphere_miediff fills for one wavenumber and hands to extract_gpm_from_fields have shapes (N_illuminations, N_positions, 3), and their rows are, illumination by illumination, the near fields of a sphere with the given radii and the permittivities of its materials at that vacuum wavelength: scattered fields at the probe positions, incident fields at the positions of the polarizabilities, evaluated at the rotated positions, rotated back, divided by the largest modulus of the illumination. This holds although every call evaluates the materials anew on the objects left by the earlier calls and although the near-field method drops axes of length one (a single position included). It holds for the pena backend with any number of layers and for the torch backend with at most two layers, where the recurrence depths belong to the outermost position of each set and are the same for every illumination. Without n_max and with the torch backend all calls use the order of Wiscombe's rule for that particle.", "quantifier": "all programs without sharing, all materials and increasing radii, all lists of illuminations, all numbers of positions from one, all orders", "why_tests_cant": "a test sees the fitted polarizability only, which hides a wrong row or a wrong depth behind the residual of the fit", "anchors": ["src/pymiediff/helper/tg.py:_eval_mie", "src/pymiediff/helper/tg.py:extract_GPM_sphere_miediff", "src/pymiediff/main.py:Particle.get_nearfields"]}
{"id": "C66", "title": "Single-channel limits", "statement": "For every passive particle in a real host, every coefficient a_n, b_n that mie_coefficients returns lies in the disc |z - 1/2| <= 1/2 (so |z| <= 1), and on its boundary circle when all permittivities are real. Hence in the dictionary of cross_sections every multipole contribution to extinction and scattering is between 0 and (2n+1) 2 pi/k^2, every contribution to absorption is between 0 and a quarter of that, and the totals up to order N are at most 4 pi N(N+2)/k^2 (extinction, scattering) and pi N(N+2)/k^2 (absorption). Both for pena and for the core-shell backends.", "quantifier": "all passive particles in a real host, all numbers of layers (pena), all orders, all vacuum wavenumbers", "why_tests_cant": "the bound is attained only at isolated resonances, so sampled spectra stay below it even with a wrong prefactor", "anchors": ["src/pymiediff/multishell.py:mie_coefficients", "src/pymiediff/multishell.py:cross_sections", "src/pymiediff/main.py:Particle.get_cross_sections"]}
{"id": "C67", "title": "The truncated multipole sums converge to the full Mie series", "statement": "For a particle in a real host with non-zero permittivities such that no two adjacent media have opposite permittivities, the returned coefficients of order n decay faster than every geometric sequence, with one constant for all orders, backends and values of n_max; the full multipole series of extinction and scattering converge absolutely; the totals returned by cross_sections with n_max = N differ from them by at most C r^N for every r < 1; and as n_max grows q_ext, q_sca and q_abs of the core-shell backends converge to the full series. The full series is defined by the solutions of the interface problem alone.", "quantifier": "all such particles, all backends, all n_max, all rates r > 0", "why_tests_cant": "a test compares two finite truncations at sampled sizes; it cannot see the limit nor a uniform constant", "anchors": ["src/pymiediff/multishell.py:mie_coefficients", "src/pymiediff/multishell.py:cross_sections", "src/pymiediff/helper/helper.py:get_truncution_criteroin_wiscombe"]}
{"id": "C68", "title": "Passive particles always have exactly one solution, and the core-shell backends return it", "statement": "For every passive particle in a real host (any number of layers with increasing radii and non-zero permittivities of non-negative imaginary part) the Maxwell interface conditions of each order and polarization have exactly one solution. The core-shell backends (torch, scipy) with exact spherical Bessel functions return it, for all orders and without any assumption on their denominators: the code never divides by zero there. Their coefficients satisfy |z|^2 <= Re z, with equality for real permittivities.", "quantifier": "all passive particles in a real host, all orders, both polarizations", "why_tests_cant": "a vanishing denominator is a measure-zero event; sampled inputs never meet it whether or not it can occur", "anchors": ["src/pymiediff/multishell.py:_miecoef", "src/pymiediff/multishell.py:mie_coefficients"]}
{"id": "C69", "title": "Far from the particle the near fields become the amplitudes of angular_scattering", "statement": "For any coefficients in a lossless host, the scattered fields that nearfields returns outside the particle, multiplied by k r exp(-i k r), equal the transverse fields of the amplitudes S1 and S2 that angular_scattering returns for the same coefficients and the same polar angle (E_theta = i E0 cos(phi) S2, E_phi = -i E0 sin(phi) S1, H = n_env r x E, no radial part), up to C/(k r) with one constant for all directions and distances k r >= 1. Along every direction (k r)^2 |E_s|^2 tends to |E0|^2 (cos^2(phi) i_par + sin^2(phi) i_per) of angular_scattering, and the radial power flow to n_env times that.", "quantifier": "all particles in a lossless host, all coefficients and orders, all positions outside with k r >= 1, all directions", "why_tests_cant": "the two functions are separate code with different conventions; a test at finite distance sees only agreement up to an unknown error", "anchors": ["src/pymiediff/multishell.py:nearfields", "src/pymiediff/multishell.py:angular_scattering", "src/pymiediff/special.py:vsh", "src/pymiediff/special.py:vsh_pena"]}
{"id": "C70", "title": "At long wavelengths the results become those of electrostatics", "statement": "Fix radii, layer permittivities (each lossy or dielectric) and a lossless host, and let the vacuum wavenumber k0 of the call go to zero. Then for every order n the returned a_n divided by k^(2n+1) tends to i (n+1)(2n+1)/(n ((2n+1)!!)^2) times the electrostatic response of the layered sphere to the potential r^n Y_n (continuity of the potential and of eps dphi/dr), and b_n / k^(2n+1) tends to 0. For n = 1 the limit is -(2i/3) R^3 F with the Clausius-Mossotti factor F = (eps-eps_h)/(eps+2 eps_h) of a homogeneous sphere, or the coated-sphere formula for two layers. Independently of n_max, cs_sca / k^4 tends to (8 pi/3) R^6 |F|^2, cs_ext / k and cs_abs / k to 4 pi R^3 Im F. The polarizability tensor of StructAutodiffMieEffPola3D tends to eps_h R^3 F on the electric diagonal and to 0 on the magnetic one.", "quantifier": "all one- and two-layer particles with lossy or dielectric layers in a lossless host, all truncation orders; for any number of layers and any backend whenever the calls solve the interface problem and the static problem has no resonance", "why_tests_cant": "a limit over all materials and radii; numerical tests at small k0 suffer from cancellation and only see a tolerance", "anchors": ["src/pymiediff/multishell.py:mie_coefficients", "src/pymiediff/multishell.py:cross_sections", "src/pymiediff/multishell.py:_miecoef", "src/pymiediff/helper/tg.py:StructAutodiffMieEffPola3D"]}
{"id": "C71", "title": "The finite-difference gradient checker agrees with the hand-written gradients", "statement": "num_center_diff(F, n, z, eps) returns for every order and element the derivative of a holomorphic F at the complex conjugate of z up to M |eps|^2 / (R (R^2 - |eps|^2)), where M bounds F on the circle of radius R > |eps| around conj(z). For the four functions funct_grad_checker is called with (sph_jn, sph_yn and their derivative functions) and every non-zero element, the gradient it returns equals the sum over the orders of the numerical derivatives it returns, up to O(|eps|^2). For sph_h1n, whose gradient is also right, the two returned numbers differ by 2i times the sum of y_k'(conj z) in the limit of small steps.", "quantifier": "all orders, all argument tensors, all steps below a quarter of |z|; all holomorphic functions for num_center_diff", "why_tests_cant": "the check itself is a numerical test at a few points with one step size; its error order and the condition on the function under test are statements over all functions and steps", "anchors": ["src/pymiediff/helper/helper.py:num_center_diff", "src/pymiediff/helper/helper.py:funct_grad_checker", "src/pymiediff/special.py:_AutoDiffJn", "src/pymiediff/special.py:sph_h1n"]}
{"id": "C72", "title": "The patched torchgdm linear system is the multiple-scattering problem", "statement": "With patch_torchgdm_autodiff applied, the matrix built from the polarizability blocks, self terms and the interaction matrix has, inside each block, self term times polarizability and, between different blocks, interaction times the polarizability of the source block; the interaction of a block with itself never enters. A vector solves (1 - matrix) x = f exactly when every block's field is its illumination plus its self term plus the fields radiated by all other blocks. solve returns, for each illumination, fields whose polarizable components (in mask order) solve the given system and whose other components are zero, electric part first; a solution shorter than the mask is an error.", "quantifier": "all numbers and sizes of blocks, all matrices with non-zero determinant, all masks, all numbers of illuminations and positions", "why_tests_cant": "index bookkeeping over arbitrary mixtures of block sizes and masks; tests use a few particles of equal size", "anchors": ["src/pymiediff/helper/tg.py:patch_torchgdm_autodiff"]}
{"id": "C73", "title": "Coefficients and cross sections are analytic functions of every parameter", "statement": "At every passive core-shell (or, for exact runs, multi-layer) particle in a lossless host - including lossless metals, whose permittivity lies on the branch cut of the square root - the interface problem is uniquely solvable for all parameters nearby, and the coefficients a_n, b_n returned by mie_coefficients are analytic functions of wavenumber, radii, permittivities and host permittivity. For complex parameters they are holomorphic. Extinction, scattering and absorption cross sections and efficiencies are real-analytic functions of all parameters. The branch chosen for the square root of a permittivity does not matter. For the torch backend with exact special functions all nearby calls succeed.", "quantifier": "all passive particles, all orders, all analytic parametrisations of the inputs by any normed space", "why_tests_cant": "existence of gradients of all orders in all directions at every particle, in particular at branch points and resonances, cannot be sampled", "anchors": ["src/pymiediff/multishell.py:mie_coefficients", "src/pymiediff/multishell.py:cross_sections", "src/pymiediff/multishell.py:_miecoef"]}
{"id": "C74", "title": "Power flow of the near fields gives the cross sections", "statement": "For every particle in a lossless host, the fields that nearfields returns outside the particle, integrated over any sphere around it, give the cross sections that cross_sections computes from the same coefficients. The Poynting flux of the scattered field Es, Hs equals n_env |E0|^2 C_sca (times k^2/(k r + eps)^2 r^2, where eps is the shift that the code adds to k r). The interference of incident and scattered fields carries -n_env |E0|^2 C_ext and the total field Et, Ht carries -n_env |E0|^2 C_abs, both in the limit of a vanishing shift. The incident field carries no net power.", "quantifier": "all particles in a lossless host, all numbers of orders, all coefficients, all spheres around the particle, all amplitudes of the incident wave", "why_tests_cant": "equality of an integral over a continuum of directions with a sum of coefficients, including a limit, for all particles and radii", "anchors": ["src/pymiediff/multishell.py:nearfields", "src/pymiediff/multishell.py:cross_sections", "src/pymiediff/special.py:vsh"]}
{"id": "C75", "title": "Absorption is the dissipation by the internal near fields", "statement": "For every particle in a lossless host, nearfields returns at every position inside the particle the total fields of one family of partial waves, one set per layer. Integrating k0 Im(eps) |Et|^2 of these fields over all layers gives n_env |E0|^2 times the absorption cross section that cross_sections computes from the outer coefficients. Through every sphere inside the particle flows inwards exactly the power dissipated within it. In a passive particle every layer dissipates a non-negative amount, at most the whole absorption, and the power never flows outwards.", "quantifier": "all layered particles with nonzero permittivities in a lossless host, all numbers of orders, all amplitudes, all spheres inside the particle", "why_tests_cant": "equality of a volume integral over the internal fields with a sum of outer coefficients, for all particles", "anchors": ["src/pymiediff/multishell.py:nearfields", "src/pymiediff/multishell.py:cross_sections", "src/pymiediff/multishell.py:mie_coefficients"]}
{"id": "C76", "title": "The near fields converge to a solution of the scattering problem", "statement": "For every passive layered particle in a lossless host there are fields, one pair per region, which satisfy Maxwell's equations in every region, are continuous at every interface (tangential E and H, normal eps E and H), have no singularity, and equal in the host the incident plane wave plus a field with the radiation condition. The total fields that nearfields returns with n_max orders, inside every layer and in the host, differ from them by less than any geometric sequence in n_max, uniformly over every shell of positions that excludes the centre and uniformly in the shift eps of k r. All backends converge to the same fields, and the dependence on the shift is continuous, so enough orders and a small shift reach any tolerance.", "quantifier": "all passive layered particles with nonzero permittivities whose neighbouring permittivities do not add to zero, in a lossless host; all amplitudes, positions, regions, orders", "why_tests_cant": "the limit of infinitely many orders, and Maxwell's equations of the limit, for all particles", "anchors": ["src/pymiediff/multishell.py:nearfields", "src/pymiediff/multishell.py:mie_coefficients", "src/pymiediff/special.py:vsh"]}
{"id": "C77", "title": "Gradients through the truncated recurrence converge to the exact gradients", "statement": "Let wavenumber, radii, permittivities and host permittivity depend differentiably on parameters. As the depth n_add of the downward recurrence in mie_coefficients(backend='pena') grows, the derivatives of every returned a_n, b_n and of the extinction, scattering and absorption cross sections and efficiencies, in every direction of parameter space, exist and converge to the derivatives of the exact coefficients, that is of the unique solution of the interface problem, and of the cross sections made from them. So differentiating through the truncated recurrence gives the gradient of the physical quantity and not only of an approximation that happens to have close values.", "quantifier": "all numbers of layers, orders, directions in parameter space; particles at which no 1e-30 guard fires", "why_tests_cant": "a limit statement about derivatives at all particles; finite differences cannot separate the derivative of the truncation error from rounding", "anchors": ["src/pymiediff/multishell.py:mie_coefficients", "src/pymiediff/multishell.py:cross_sections", "src/pymiediff/multishell.py:_miecoef_pena", "src/pymiediff/special.py:pena_D1_n"]}
{"id": "C78", "title": "The pena solver is accurate in inexact arithmetic", "statement": "Let every arithmetic operation and elementary function used by mie_coefficients(backend='pena') and cross_sections have a relative error of at most u. Then pena_D1_n(n, z, n_add) returns, from order 4|z| on, the logarithmic derivative with a relative error of at most 14 u plus a truncation error falling by a factor 6 with every extra order: rounding errors do not accumulate with the recurrence depth. For every particle at which no guard fires and every tolerance there are u and n_add such that in every arithmetic at least as accurate and for every larger n_add all a_n, b_n, cross sections and efficiencies are within the tolerance of those of the exact solution of the interface problem. For a fixed n_add the results approach those of the code in exact arithmetic as u tends to zero.", "quantifier": "all arithmetics with relative error at most u (any summation order), all particles at which no 1e-30 guard fires, all orders and depths", "why_tests_cant": "quantifies over all arithmetics and all particles; a test sees the rounding of one machine and has no exact reference", "anchors": ["src/pymiediff/special.py:pena_D1_n", "src/pymiediff/special.py:pena_D3_n", "src/pymiediff/special.py:pena_Q_n", "src/pymiediff/special.py:pena_psi_zeta_n", "src/pymiediff/multishell.py:_miecoef_pena", "src/pymiediff/multishell.py:cross_sections"]}
{"id": "C79", "title": "loss.backward() through the pena backend returns the gradient", "statement": "Record every operation that mie_coefficients(backend='pena') and cross_sections perform, with the backward formula of PyTorch for each (complex gradients are conjugated, torch.where passes the gradient to the selected branch and multiplies the other one by zero, constants receive nothing). If the leaf tensors hold the wavenumber, radii and permittivities of a particle as functions of real parameters and no guard fires, then the recorded values are the returned a_n, b_n, cross sections and efficiencies, and the backward pass with incoming gradient s delivers the gradient of Re(conj(s) a_n) (and of b_n), and with incoming 1 the gradient of every cross section and efficiency, including the operands whose gradient is masked. When the recurrence depth grows, these gradients converge to those of the exact cross sections. The traversal of the graph in reverse order with accumulation into shared operands delivers, for every graph whose nodes have correct local formulas, the pairing of the incoming gradient with the total derivative.", "quantifier": "all particles and all real parametrisations, all incoming gradients, all orders and depths, all finite graphs", "why_tests_cant": "a test compares with finite differences at a few points to a few digits; the identity of the backward pass with the gradient holds for all parametrisations and all incoming gradients, and a missing conjugate is invisible for real data", "anchors": ["src/pymiediff/special.py:pena_D1_n", "src/pymiediff/special.py:pena_D3_n", "src/pymiediff/special.py:pena_Q_n", "src/pymiediff/special.py:pena_psi_zeta_n", "src/pymiediff/multishell.py:_miecoef_pena", "src/pymiediff/multishell.py:mie_coefficients", "src/pymiediff/multishell.py:cross_sections"]}
{"id": "C80", "title": "Backends return zero at the zeros of the sine", "statement": "At every non-zero zero of the sine sph_jn_torch and sph_jn_torch_via_rec return zero in every order and for every depth, although j_1 does not vanish there, because both are anchored at sin(z)/z. Consequently, whatever the particle is made of, mie_coefficients(backend='torch') returns zero (or NaN) for every a_n and b_n and all cross sections are zero when the size parameter of the outer surface is a multiple of pi, with both choices of which_jn. The pena backend does the same for every number of layers and every recurrence depth, because pena_psi_zeta_n builds psi_n from sin(x); the remark in the documentation that the logarithmic derivatives do not pose this risk is wrong. For the sphere of index 3/2 with k r = pi the calls succeed, return a_1 = b_1 = 0, and the unique scattering coefficient of that sphere is not zero.", "quantifier": "all zeros of the sine (|z| >= 1e-8 for torch), all orders and depths, all particles, both which_jn, any kernel of logarithmic derivatives", "why_tests_cant": "the failure happens on a discrete set of arguments; a test must hit one of them", "anchors": ["src/pymiediff/special.py:sph_jn_torch_via_rec", "src/pymiediff/special.py:sph_jn_torch", "src/pymiediff/special.py:pena_psi_zeta_n", "src/pymiediff/multishell.py:_miecoef", "src/pymiediff/multishell.py:_miecoef_pena", "src/pymiediff/multishell.py:mie_coefficients", "src/pymiediff/multishell.py:cross_sections"]}
{"id": "C81", "title": "loss.backward() through the core-shell backends returns the gradient", "statement": "Record every operation of mie_coefficients and cross_sections with backend='scipy' (through the custom autograd functions of special.py) and backend='torch' (both which_jn, with the recurrences, continued fractions and their guards), with the backward formula of PyTorch for each. If the leaf tensors hold wavenumber, radii and permittivities as functions of real parameters, near the parameters the recurrence depths do not change, no guard fires and the computed interface equations are solvable, then the backward pass with incoming gradient s delivers the gradient of Re(conj(s) c) for each of the eight coefficients c of every order, and with incoming 1 the gradient of every cross section and efficiency. With scipy and a passive particle in a real host these conditions always hold. With torch and a lossless particle solvability holds whenever sin(z) and y_N(z) at the starting order N do not vanish; all conditions hold when no argument of a special function exceeds 3/2 (nor is below the guard 1e-10). For an accepted particle of one or two layers and an explicit order the calls succeed near the parameters.", "quantifier": "all one- and two-layer particles and all real parametrisations, all incoming gradients, all orders", "why_tests_cant": "a test compares with finite differences at a few points to a few digits; a missing conjugate in one of the custom backward functions is invisible for real arguments, and a masked branch only shows where its guard fires", "anchors": ["src/pymiediff/special.py:_AutoDiffJn", "src/pymiediff/special.py:_AutoDiffYn", "src/pymiediff/special.py:sph_jn_torch_via_rec", "src/pymiediff/special.py:sph_jn_torch", "src/pymiediff/special.py:sph_yn_torch", "src/pymiediff/special.py:f_der", "src/pymiediff/multishell.py:_miecoef", "src/pymiediff/multishell.py:mie_coefficients", "src/pymiediff/multishell.py:cross_sections"]}
{"id": "C82", "title": "loss.backward() through angular_scattering returns the gradient, also with respect to the angle", "statement": "Record every operation of pi_tau and angular_scattering with the backward formula of PyTorch. If the backward pass through the external coefficients is right (C79 for pena, C81 for scipy and torch) and the scattering angle is held by a tensor that may itself depend on the parameters, then the backward pass with incoming gradient s delivers the gradient of Re(conj(s) S) for both amplitudes, and with incoming 1 the gradient of the perpendicular, parallel and unpolarised intensity and, where any light is scattered, of the degree of polarisation. The call succeeds for all nearby parameters. The forward and backward directions are included.", "quantifier": "all particles, parametrisations, angles, orders, incoming gradients and backends to which C79 or C81 applies", "why_tests_cant": "a test compares with finite differences at a few angles; a wrong factor in one recurrence step of high order is drowned by the low orders", "anchors": ["src/pymiediff/special.py:pi_tau", "src/pymiediff/multishell.py:angular_scattering"]}
{"id": "C83", "title": "loss.backward() through nearfields returns the gradient with respect to the particle and the probe position", "statement": "Record every operation of nearfields with the torch or scipy backend (spherical coordinates, ratio recurrences, Riccati functions, vector spherical harmonics, selection of the region, sum over the orders, rotation to Cartesian components) with the backward formula of PyTorch. If the backward pass through the internal and external coefficients is right (C81), then for a probe point off the plane x=0, off the cone on which z/r is clamped and off both interfaces, with arguments in the three media clear of the guards and of the zeros of the continued fraction, the backward pass with any incoming gradient delivers the gradient of each Cartesian component of incident, scattered (or internal) and total electric and magnetic field, with respect to all particle parameters and to the coordinates of the point. For a single probe point the call succeeds for all nearby parameters; for small lossless particles only the position conditions remain.", "quantifier": "all core-shell particles and homogeneous spheres, parametrisations, probe points in the core, in the shell or outside, orders, amplitudes of the incident field, incoming gradients", "why_tests_cant": "the gradient with respect to the position goes through six nested chains (r, theta, phi, radial functions, angular functions, rotation); finite differences at sample points cannot tell a wrong factor from cancellation near the interfaces", "anchors": ["src/pymiediff/multishell.py:nearfields", "src/pymiediff/special.py:vsh", "src/pymiediff/helper/helper.py:transform_xyz_to_spherical"]}
{"id": "C84", "title": "loss.backward() through nearfields of the pena backend returns the gradient for any number of layers", "statement": "Record every operation of nearfields with the pena backend (coefficients, hand-through of the expansion coefficients from layer to layer, radial functions at the probe point, vector spherical harmonics, masked assignment by region, sum over the orders, rotation to Cartesian components) with the backward formula of PyTorch. If no guard fires, then for a probe point off the plane x=0, off the cone on which z/r is clamped and off all interfaces, the backward pass with any incoming gradient delivers the gradient of each Cartesian component of incident, scattered (or internal) and total electric and magnetic field, with respect to all particle parameters and to the coordinates of the point. The call succeeds wherever mie_coefficients does, and if the exact functions stay clear of the guards, the conditions hold for all sufficiently deep recurrences.", "quantifier": "all numbers of layers, parametrisations, probe points in any region, orders, recurrence depths, amplitudes of the incident field, incoming gradients", "why_tests_cant": "the recursion over the layers divides by small Wronskians and the regions are written with masks; a gradient that is lost in one mask or one guard changes single entries only, which sampled finite differences do not resolve", "anchors": ["src/pymiediff/multishell.py:nearfields", "src/pymiediff/special.py:vsh_pena", "src/pymiediff/special.py:pena_D1_n"]}
{"id": "C85", "title": "n_max only decides where the series ends; the pena recurrence starts deep enough", "statement": "The coefficients that mie_coefficients returns at an order do not depend on the n_max of the call, and the logarithmic derivatives of pena_D1_n are those of the Riccati-Bessel functions up to an error that the start order n_max + 15 controls. (Expected to FAIL for a user-given n_max with the pena backend: the recurrence starts 15 orders above n_max whatever the argument, so a small n_max changes the low orders as well.) With the order that mie_coefficients chooses itself the error at orders not below the size of the argument is bounded explicitly; with the core-shell backends n_max only truncates if the special functions of each order do not depend on it.", "quantifier": "all orders, extra depths, complex arguments; all particles for the default order", "why_tests_cant": "tests use the default order or compare both backends at small sizes; how the error depends on start order and argument, and that no argument of any layer escapes the bound, is a statement about all of them", "anchors": ["src/pymiediff/special.py:pena_D1_n", "src/pymiediff/multishell.py:mie_coefficients", "src/pymiediff/helper/helper.py:get_truncution_criteroin_pena2009"]}
{"id": "C86", "title": "What cutting the Mie series at n_max costs", "statement": "For a passive particle in a real host and an n_max above the centrifugal barrier of the host and of every layer ((k0 r |eps|)^2 <= n_max (n_max + 1) Re eps), the returned cross sections (extinction, scattering, absorption) never exceed those of the infinite series and fall short by at most an explicit bound. The order that the pena backend chooses itself satisfies this for every lossless dielectric particle and makes the efficiencies accurate to 1e-18 up to outer size parameter 64. The order that the torch and scipy backends choose makes them accurate to 1e-7 up to size parameter 44 and to 1e-6 up to 57 if the layers satisfy the condition; it does not see the refractive index, and for every host, wavenumber and radius there is a lossless sphere whose first missing order is exactly resonant, so that 2 pi (2 n_max + 3) / k^2 of the extinction and scattering cross sections is missing.", "quantifier": "all passive particles with any number of layers, all orders above the barrier; for the resonance all real hosts, wavenumbers and radii", "why_tests_cant": "tests compare sums with references that use the same order; the error is a tail over infinitely many orders, and resonant spheres are isolated points of the parameter space", "anchors": ["src/pymiediff/helper/helper.py:get_truncution_criteroin_wiscombe", "src/pymiediff/helper/helper.py:get_truncution_criteroin_pena2009", "src/pymiediff/multishell.py:mie_coefficients", "src/pymiediff/multishell.py:cross_sections"]}
{"id": "C87", "title": "No division by zero", "statement": "mie_coefficients(backend='pena') and cross_sections never divide by zero for any nonzero wavenumber, permittivities and outer radius, any number of layers, any order, resonant or not: the results do not depend on what stands for x/0. The degree of polarisation of angular_scattering divides by I_perp + I_par, which is zero exactly where both amplitudes vanish, never in the forward direction of a particle that extinguishes light. Expected to FAIL for index-matched particles, where pol_degree is 0/0 at every angle.", "quantifier": "all particles and orders; all angles; all values assigned to x/0", "why_tests_cant": "a division by zero shows only at isolated points of the parameter space, and torch turns it into nan or inf without an exception", "anchors": ["src/pymiediff/multishell.py:mie_coefficients", "src/pymiediff/multishell.py:cross_sections", "src/pymiediff/multishell.py:angular_scattering"]}
{"id": "C88", "title": "The pena waves at small arguments", "statement": "The radial factors that vsh_pena computes for the regular waves are accurate at all distances from the centre. Expected to FAIL: pena_psi_zeta_n forms psi_1 as psi_0 (1/z - D_0), a difference of two numbers of size 1/z that is of size z/3. With 53 bit significands the computed psi_1 at a real argument below 1e-3 is zero or at least 1.1e-16, whatever the rounding, while the exact value is at most z^2/3; at the centre of a particle, which vsh_pena evaluates at rho = 1e-8, both radial factors of order 1 have a relative error of at least 100 percent for every wavelength, medium and n_max. For small z the error of the factor of every order is at most (20 u + truncation) (k+1)/|z|.", "quantifier": "all arithmetics with relative error at most 1e-6 per operation whose real results are doubles; all wavenumbers, media and orders", "why_tests_cant": "a test observes one rounding of one library; the claim holds for every rounding, and tests of the near field sample points away from the centre", "anchors": ["src/pymiediff/special.py:vsh_pena", "src/pymiediff/special.py:pena_psi_zeta_n", "src/pymiediff/special.py:pena_D1_n"]}
{"id": "C89", "title": "The near field at the centre is finite", "statement": "nearfields(backend='pena') returns finite fields at every probe point inside the particle. Expected to FAIL at the centre: nearfields evaluates the outgoing waves also in the core, where their coefficients are zero, and at r = 0 vsh_pena evaluates them at rho = 1e-8. For n_max of at least 110 the function zeta of order 82 leaves the range of double precision for every wavelength, medium and rounding; zero times infinity is nan, so every component of the returned electric field at the centre is infinite or nan, for all expansion coefficients.", "quantifier": "all arithmetics with relative error at most 2^-50 per operation whose real results are doubles; all wavenumbers, media, amplitudes, coefficients, angles and all n_max >= 110", "why_tests_cant": "a test observes one particle at one n_max; test grids for near fields avoid the origin or use few orders", "anchors": ["src/pymiediff/multishell.py:nearfields", "src/pymiediff/special.py:vsh_pena", "src/pymiediff/special.py:pena_D3_n", "src/pymiediff/special.py:pena_psi_zeta_n"]}
{"id": "C90", "title": "The cross sections of a particle do not become nan because of the other particles of the batch", "statement": "cross_sections(backend='pena') returns finite values for every particle and wavenumber of a batch. Expected to FAIL: n_max is common to the whole batch and follows the largest size parameter (and, for one particle, the largest |m x|). For a particle whose outer size parameter is between 1e-4 and 1/4, n_max >= 132 makes a_n and b_n nan from order 129 on and all cross sections and efficiencies nan; below a size parameter of 1/100, n_max >= 90 is enough. A batch that contains a particle with |m x| >= 118 has n_max >= 132.", "quantifier": "all arithmetics with relative error at most 2^-50 per operation and the range of double precision, all layered particles with outer size parameter in the given interval, all batches with one entry |m x| >= 118", "why_tests_cant": "tests use batches of similar particles; the nan appears only for combinations of sizes, and independent of the materials", "anchors": ["src/pymiediff/multishell.py:_miecoef_pena", "src/pymiediff/multishell.py:cross_sections", "src/pymiediff/special.py:pena_psi_zeta_n", "src/pymiediff/helper/helper.py:get_truncution_criteroin_pena2009"]}
{"id": "C91", "title": "A layer of vanishing volume does not matter", "statement": "mie_coefficients and cross_sections of a particle with a core of radius r (any permittivity except 0) approach those of the particle without that core when r -> 0: b_n with an error of the order r^(2n+1), a_n with an error of the order r^(2n+1), or r^(2n-1) if n eps_core + (n+1) eps_1 = 0 (static resonance of the core in its surroundings). A film of vanishing thickness d after any layer, in particular a coating, changes every coefficient by at most a multiple of d. Cross sections and efficiencies converge with them.", "quantifier": "all passive layered particles in a transparent host, all non-zero permittivities of the added layer (also active ones), all orders and both types; torch and scipy backends with exact special functions, and every call that solves the interface problem", "why_tests_cant": "tests compare a few core-shell spheres with homogeneous ones at fixed radii; a statement about the limit, about rates and about the exceptional static resonance concerns infinitely many particles", "anchors": ["src/pymiediff/multishell.py:mie_coefficients", "src/pymiediff/multishell.py:_miecoef", "src/pymiediff/multishell.py:cross_sections"]}
{"id": "C92", "title": "A metallic outer layer approaches a perfect conductor", "statement": "Let the permittivity of the outermost layer go to infinity with Im eps >= 0 and |eps| - Re eps -> infinity (a good conductor eps = i s, a plasma eps = -s). Then the coefficients of mie_coefficients approach those of a perfectly conducting sphere of the outer radius (vanishing tangential electric field: a_n -> psi_n'(x)/zeta_n'(x), b_n -> psi_n(x)/zeta_n(x)), whatever is inside that layer; cs_ext and cs_sca both approach the cross section of that sphere, and cs_abs goes to zero. The condition matters: when the permittivity of a homogeneous sphere goes to infinity along the positive real axis, no coefficient has a limit.", "quantifier": "all numbers of interior layers including none, all non-zero interior permittivities (also active ones), all radii, all orders and both types, all ways in which the permittivity goes to infinity under the condition; torch and scipy backends with exact special functions, and every call that solves the interface problem", "why_tests_cant": "a limit; no finite permittivity reaches it, and large finite ones overflow the special functions", "anchors": ["src/pymiediff/multishell.py:mie_coefficients", "src/pymiediff/multishell.py:_miecoef_pena", "src/pymiediff/multishell.py:_miecoef", "src/pymiediff/multishell.py:cross_sections"]}
{"id": "C93", "title": "Time reversal exchanges absorption and gain", "statement": "Call mie_coefficients for a particle in a lossless host and for the particle with complex conjugated layer permittivities. For every multipole the responses 1 - 2a of the two particles satisfy (1 - 2a') conj(1 - 2a) = 1: what one absorbs the other emits. If a = 1/2 (all light of the channel is absorbed) the conjugated particle has no coefficient, it radiates without illumination; such particles exist for every multipole. If no layer absorbs (Im eps <= 0) then Re a <= |a|^2, cs_ext <= cs_sca and cs_abs <= 0.", "quantifier": "all real wavenumbers and lossless hosts, all numbers of layers, all radii, all non-zero complex permittivities, all orders and both types; every call that solves the interface problem (pena under its guard conditions, torch and scipy with exact special functions)", "why_tests_cant": "an exact relation between two runs for all permittivities, and the exceptional points are isolated complex permittivities that sampling does not hit", "anchors": ["src/pymiediff/multishell.py:mie_coefficients", "src/pymiediff/multishell.py:_miecoef_pena", "src/pymiediff/multishell.py:_miecoef", "src/pymiediff/multishell.py:cross_sections"]}
{"id": "C94", "title": "Gradients of the coefficients are overlap integrals of the internal fields", "statement": "Call mie_coefficients for two particles with the same radii and the same lossless host. Each coefficient differs by -i times the sum over the layers of (eps - eps')/eps_env times the integral over the layer of the product of the two internal fields. Hence the gradient of a coefficient with respect to the permittivity of a layer is -i/eps_env times the integral of the square of the internal field over the layer, and the gradient with respect to a radius is -i k times the jump of the permittivity divided by eps_env times the product of the fields on both sides of the interface. The gradient of cs_ext along h is 2 pi/(k^2 eps_env) times the sum over orders of (2n+1) Im(h times the sum of both integrals). With the permittivity as a complex tensor that requires a gradient, backward() through the SciPy backend leaves exactly these values, conjugated, in eps.grad.", "quantifier": "all real wavenumbers and lossless hosts, all numbers of layers, all increasing radii, all non-zero complex permittivities (gain allowed where the internal fields exist; they always exist for passive layers), all layers, all orders and both types; every call that solves the interface problem", "why_tests_cant": "gradient tests compare finite differences of the same program at sampled points; they cannot compare with the field integrals for all parameters", "anchors": ["src/pymiediff/multishell.py:mie_coefficients", "src/pymiediff/multishell.py:_miecoef_pena", "src/pymiediff/multishell.py:_miecoef", "src/pymiediff/multishell.py:cross_sections", "src/pymiediff/multishell.py:nearfields"]}
{"id": "C95", "title": "The core-shell backends are accurate in finite precision", "statement": "Run mie_coefficients and cross_sections with backend scipy or torch in an arithmetic in which every operation has a relative error of at most u, with SciPy functions whose error is at most u. As u tends to zero all returned coefficients (also the internal ones), cross sections and efficiencies tend to those of exact arithmetic; for backend scipy and every passive sphere or coated sphere they tend to the solution of the interface problem, without further conditions. The closed forms of the code (57 common subexpressions, differences of eight products) and its recurrences are sequences of operations none of which is discontinuous there.", "quantifier": "all arithmetics and SciPy functions with error at most u, all passive particles of one or two layers in a real host (scipy), all lossless particles whose arguments are at most 3/2 (torch recurrence and torch ratios), and all particles at which the depth of the recurrence is not at a jump, no guard fires and the computed interface equations are solvable (every core-shell backend); all orders", "why_tests_cant": "a test runs one arithmetic at sampled parameters; it cannot show that the errors vanish with the precision for all particles", "anchors": ["src/pymiediff/multishell.py:_miecoef", "src/pymiediff/multishell.py:mie_coefficients", "src/pymiediff/multishell.py:cross_sections", "src/pymiediff/special.py:sph_jn_torch_via_rec", "src/pymiediff/special.py:sph_jn_torch", "src/pymiediff/special.py:sph_yn_torch"]}
{"id": "C96", "title": "Raising a permittivity of a lossless particle increases every scattering phase", "statement": "For a particle with real permittivities in a transparent host every coefficient returned by mie_coefficients is (1 - exp(2 i delta)) / 2. As the permittivity of any layer runs through the positive (or the negative) real numbers, the phase delta of every electric and magnetic order increases strictly; its derivative is the squared modulus of the internal field of that order, integrated over the layer. The gradient of a returned coefficient a is therefore -i (1 - 2 a) times a positive number for every layer, and |a|^2 is stationary only for a = 0 and at resonance a = 1. Moving an interface outwards turns the phase in the direction of the step of the permittivity.", "quantifier": "all lossless layered spheres (negative permittivities included), all layers, all orders, both polarisations, all permittivities of one sign; every call that solves the interface problem", "why_tests_cant": "monotonicity over an unbounded range of permittivities for every order, layer and particle cannot be sampled", "anchors": ["src/pymiediff/multishell.py:mie_coefficients", "src/pymiediff/multishell.py:_miecoef", "src/pymiediff/multishell.py:_miecoef_pena"]}
{"id": "C97", "title": "The former broadcaster of core-shell inputs", "statement": "_broadcast_mie_config returns, for N_part radii and N_k0 wavenumbers, the radius of particle p in row p and the permittivities of a matrix (N_part, N_k0) entry by entry; the wavenumbers and the permittivity of the surrounding medium get a leading axis of length one. A matrix of any other shape with N_part * N_k0 entries is accepted and re-read in row-major order, any other array raises RuntimeError, wrong axes of wavenumbers or radii raise AssertionError. One permittivity per particle is not read per particle: for several particles it raises RuntimeError unless N_part = N_k0, and then it is matched to the wavenumbers, whereas mie_coefficients reads the same array per particle.", "quantifier": "all numbers of particles and wavenumbers, all arrays with at most two axes, all entries", "why_tests_cant": "the function is not called any more, so that no test reaches it; the silent mismatch for N_part = N_k0 needs a statement about all entries", "anchors": ["src/pymiediff/multishell.py:_broadcast_mie_config", "src/pymiediff/multishell.py:mie_coefficients"]}
{"id": "C98", "title": "Near fields and angular pattern have the symmetries of the illuminated sphere", "statement": "On a circle around the axis of incidence every field returned by nearfields is fixed by three numbers: E = (u + v cos 2phi, v sin 2phi, w cos phi) and H = (v sin 2phi, u - v cos 2phi, w sin phi), or every point of the circle raises the same exception. Hence two positions that are mirror images in the plane y = 0 get mirrored fields, positions that are mirror images in x = 0 too (off that plane), and in the plane y = 0 the field E has no y component and H only a y component. This holds for every number of orders, every backend, inside and outside, for incident, scattered and total fields, and for two rows of r_probe in one call of Particle.get_nearfields. angular_scattering is even and 2 pi-periodic in the angle.", "quantifier": "all particles, coefficients, wavenumbers, special functions, positions and truncations", "why_tests_cant": "a wrong sign of one vector harmonic in one layer or for one order breaks the symmetry only at particular positions and orders", "anchors": ["src/pymiediff/multishell.py:nearfields", "src/pymiediff/special.py:vsh", "src/pymiediff/special.py:vsh_pena", "src/pymiediff/main.py:Particle.get_nearfields", "src/pymiediff/multishell.py:angular_scattering"]}
{"id": "C99", "title": "Absorption vanishes exactly for lossless particles", "statement": "For a particle without gain in a transparent host, cross_sections reports cs_abs = 0 if and only if every layer has a real permittivity. A single lossy layer, however thin and deep inside, makes every multipole absorb: |a_n|^2 < Re a_n and |b_n|^2 < Re b_n at every order, every entry of cs_abs_multipoles positive, cs_sca < cs_ext. With gain and no loss all signs are reversed. In the near fields, a layer dissipates (amplifies) the field that nearfields returns there if and only if the imaginary part of its permittivity is positive (negative): no layer is dark. For pena the absorption with recurrence depth N tends to a positive limit.", "quantifier": "all numbers of layers and orders, all radii, wavenumbers, permittivities; pena (exact or growing depth), torch, scipy", "why_tests_cant": "a layer whose loss is dropped for one order or one polarization changes the absorption of a test particle by an amount within tolerance; strict positivity for all particles excludes dark layers", "anchors": ["src/pymiediff/multishell.py:cross_sections", "src/pymiediff/multishell.py:mie_coefficients", "src/pymiediff/multishell.py:nearfields"]}
{"id": "C100", "title": "Differentiable derivatives of the spherical Bessel functions", "statement": "sph_jn_der, sph_yn_der and sph_h1n_der return the derivatives of orders 0..n at every entry of the argument, and agree with f_der of the values. The backward pass of sph_h1n_der gives the gradient at every nonzero entry whatever order the autograd engine visits its two terms in, although each term overwrites the argument that the other reads. At an entry equal to zero the gradient of sph_jn_der is within 4e-9 of the limit at zero (second derivatives -1/3, 0, 2/15, 0, ...), for all orders. Evaluating sph_jn on the same tensor after a backward pass gives another value than before. Several orders at once are an AssertionError for these functions, and the largest is used by the pena recurrences.", "quantifier": "all orders, all tensors of complex arguments, all incoming gradients", "why_tests_cant": "gradcheck at random points never has an entry equal to zero, and the order in which the engine visits the nodes is not controlled by a test", "anchors": ["src/pymiediff/special.py:sph_h1n_der", "src/pymiediff/special.py:sph_jn_der", "src/pymiediff/special.py:bessel2ndDer", "src/pymiediff/special.py:_expand_n_z", "src/pymiediff/special.py:_pena_nmax"]}
{"id": "C101", "title": "Gradients with respect to the wavenumber include the dispersion of the materials", "statement": "loss.backward() through Particle.get_mie_coefficients / get_cross_sections (pena backend) gives the total derivative with respect to k0, including the change of every MatDatabase permittivity along its table or Sellmeier formula, in the first call at a wavelength and in later calls with the same tensor. At a row of a table the gradient is the slope of the interval to the left, outside the table and at its first row it is zero. If the wavelength was used before with a k0 that requires no gradient, the remembered permittivity is a constant: the gradient returned is the derivative at fixed permittivity, and for a lossless particle with a material whose permittivity changes with the wavelength this is always a different number; no error is raised.", "quantifier": "all particles, all tables and Sellmeier formulas away from rows and poles, all orders and depths; the mismatch for all lossless particles in the limit of deep recurrences", "why_tests_cant": "a gradient check on a fresh particle passes; the wrong gradient needs an earlier evaluation at the same wavelength without gradients, and the value returned is then still right", "anchors": ["src/pymiediff/materials/mat.py:MatDatabase._get_eps_single_wl", "src/pymiediff/materials/mat.py:MatDatabase._eval", "src/pymiediff/helper/helper.py:interp1d", "src/pymiediff/main.py:Particle.get_material_permittivities"]}
{"id": "C102", "title": "A second backward pass at the same wavelength", "statement": "A program calls a particle that has a MatDatabase material (table or Sellmeier with at least one pole) at a wavelength that was not used before, with a k0 that requires a gradient, and calls backward() on the result. Then backward() on the result of every later call at this wavelength raises RuntimeError, whether or not k0 requires a gradient then and whatever happens in between, because the remembered permittivity belongs to a freed graph. The calls themselves succeed. backward() works after a call at a new wavelength, after calls with a k0 that never requires a gradient, and if every earlier backward() retained its graph.", "quantifier": "all particles, all programs of calls and backward passes, statements that raise being caught", "why_tests_cant": "a test that builds a new particle for every gradient never sees it; it needs two optimisation steps at one wavelength", "anchors": ["src/pymiediff/materials/mat.py:MatDatabase._get_eps_single_wl", "src/pymiediff/main.py:Particle.get_material_permittivities", "src/pymiediff/main.py:Particle.get_cross_sections"]}
{"id": "C103", "title": "GPM extraction: positions inside, probes outside, one matrix per wavelength", "statement": "If extract_GPM_sphere_miediff is given a number n >= 1 of polarizabilities (or None, meaning 36, or a float, which is cut off), it generates n different positions with their centroid at the particle centre, all strictly inside the particle's enclosing sphere, and scaling with the radius; n <= 0 raises ValueError. Generated probe positions are outside the sphere for every r_probe_add > 0. The result has one matrix per wavelength, in order, each the solver's answer for that wavelength and the fields at k0 = 2 pi / wavelength, at the returned positions. The environment handed over is the real part of the particle's environment permittivity, which must be the same at all wavelengths; it is the particle's own environment exactly if that does not absorb. Without wavelengths the call raises IndexError or RuntimeError.", "quantifier": "all n, all radii, all spectra, all near fields and solvers", "why_tests_cant": "the position claim is about every n; a test samples a few, and a position outside the sphere only shows up as a bad fit", "anchors": ["src/pymiediff/helper/tg.py:extract_GPM_sphere_miediff", "src/pymiediff/helper/tg.py:_get_env_eps", "src/pymiediff/helper/tg.py:_get_enclosing_radius"]}
{"id": "C104", "title": "GPM structure: centre, device and refusals", "statement": "StructAutodiffMieGPM3D centres the structure at the origin if r0 is None and otherwise at the three numbers of r0 in their order, however many axes of length one they come with. One number is a TypeError and an array whose first axis of length other than one does not have length three is an AssertionError, both raised only after the whole extraction; an array of shape (3, m) passes. A device argument moves the caller's particle, its tensors and its materials to that device, even if the constructor then raises; no other material is touched, and without a device argument the particle is unchanged. The structure is on the particle's device and an exception of the extraction is the exception of the constructor.", "quantifier": "all r0 tensors of any shape, all particles, materials and devices, all extractions", "why_tests_cant": "the shape checks quantify over all array shapes, and the side effect on the caller's particle is invisible on a CPU-only machine", "anchors": ["src/pymiediff/helper/tg.py:StructAutodiffMieGPM3D.__init__"]}
{"id": "C105", "title": "Weak absorption: the gradient of cs_abs in a lossless particle is the heat its own field makes", "statement": "For a lossless particle (real, possibly negative permittivities) cs_abs is zero. As function of the complex permittivity of one layer it is differentiable in the real sense, its derivative only sees imaginary changes, and the size D of the derivative is positive: sqrt(eps_env) |E0|^2 D equals k0 times the integral of |E|^2 over the layer, with the field which nearfields returns for the lossless particle. So a gradient with respect to a purely real permittivity is zero and a small loss heats each layer in proportion to the local intensity.", "quantifier": "all lossless particles, all layers, all truncation orders, every backend whose coefficients solve the interface problem; end to end for core-shell particles with the torch backend", "why_tests_cant": "an identity between a gradient and a volume integral over the infinitely many points of a layer, for all particles", "anchors": ["src/pymiediff/multishell.py:mie_coefficients", "src/pymiediff/multishell.py:_miecoef_pena", "src/pymiediff/multishell.py:_miecoef", "src/pymiediff/multishell.py:cross_sections", "src/pymiediff/multishell.py:nearfields"]}
{"id": "C106", "title": "Euler's relations between the gradients of wavenumber, radii and permittivities", "statement": "With real leaves for the wavenumber, all radii, the real and imaginary parts of all permittivities and the host permittivity, the gradients that backward leaves in the leaves satisfy two linear relations. For every coefficient and efficiency the sum of r_j * r_j.grad equals k0 * k0.grad; for every cross section the difference is twice the cross section. For all of them twice the sum of permittivity * gradient, host included, equals k0 * k0.grad. Behind the second relation: multiplying all refractive indices, the host's too, by t > 0 and dividing k0 by t gives the same outcome, errors included; the near fields of all backends keep their electric part and multiply the magnetic part by t.", "quantifier": "all numbers of layers, all values of the leaves, all orders and cotangents, all backends, all options; for the recorded runs of pena and of the core-shell backends under the conditions of C79 and C81", "why_tests_cant": "a relation between derivatives for all particles and all depths of the recurrence; finite differences only sample it", "anchors": ["src/pymiediff/multishell.py:mie_coefficients", "src/pymiediff/multishell.py:cross_sections", "src/pymiediff/helper/helper.py:get_truncution_criteroin_pena2009", "src/pymiediff/multishell.py:nearfields", "src/pymiediff/special.py:pena_D1_n", "src/pymiediff/special.py:pena_D3_n", "src/pymiediff/special.py:pena_Q_n", "src/pymiediff/special.py:pena_psi_zeta_n", "src/pymiediff/multishell.py:_miecoef_pena"]}
{"id": "C107", "title": "The gradients with respect to the wavenumber and the host are sums over interfaces and layers", "statement": "For a passive particle in a transparent host the derivative of every a_n, b_n under any simultaneous change of all radii and permittivities is the sum of the interface overlaps and layer overlap integrals of C94. The derivative with respect to k0 is the sum over the interfaces of r_j/k0 times the derivative with respect to r_j. The derivative with respect to eps_env is the sum of r_j/(2 eps_env) times the radius derivative minus eps_j/eps_env times the permittivity derivative.", "quantifier": "all passive particles, all numbers of layers, all orders and both types, every backend whose calls near the given value solve the interface problem; end to end for core-shell particles with the torch backend", "why_tests_cant": "an identity between derivatives and integrals of the internal fields for all particles and orders", "anchors": ["src/pymiediff/multishell.py:mie_coefficients", "src/pymiediff/multishell.py:_miecoef_pena", "src/pymiediff/multishell.py:_miecoef", "src/pymiediff/multishell.py:cross_sections", "src/pymiediff/multishell.py:nearfields"]}
{"id": "C108", "title": "Effective polarizability structures", "statement": "StructAutodiffMieEffPola3D hands torchgdm one dictionary with the polarizability of C50, electric and magnetic dipole at the position of the structure (the origin or the three given numbers), the outermost radius, the wavelengths and their wavenumbers, on the particle's device. It warns once for the electric and once for the magnetic quadrupole, naming exactly the wavelengths at which |a_2| (|b_2|) is above quadrupol_tol. For a passive particle every named wavelength exceeds the documented ratio to the dipole, and a tolerance of one or more gives no warning. (The documented ratio itself is not tested: the dipole terms have no influence. The environment object keeps only the real part of the host permittivity. A given n_env always raises.)", "quantifier": "every wavelength list, coefficients, host, position and tolerance", "why_tests_cant": "all inputs, and warnings that are missing", "anchors": ["src/pymiediff/helper/tg.py:StructAutodiffMieEffPola3D", "src/pymiediff/helper/tg.py:mie_ab_sphere_3d_AD"]}
{"id": "C109", "title": "Detaching tensors", "statement": "detach_tensor returns one array for one tensor (item is ignored) and the arrays of a tuple in the same order, or with item=True their numbers; values are unchanged and recorded gradients have no influence. It raises for tensors off the cpu, pending conjugations, other objects, and with item=True for tensors that do not have exactly one entry; no other call fails.", "quantifier": "every tensor and tuple of tensors", "why_tests_cant": "all argument shapes and lengths", "anchors": ["src/pymiediff/helper/helper.py:detach_tensor"]}
{"id": "C110", "title": "Plot methods of materials", "statement": "plot_epsilon and plot_refractive_index draw the material's values at the given wavelengths. (Expected to FAIL: they import pymiediff.helper.plotting, which is not part of the package.)", "quantifier": "every material, wavelength list and set of installed modules", "why_tests_cant": "the methods are not called by the tests", "anchors": ["src/pymiediff/materials/mat.py:MaterialBase.plot_epsilon", "src/pymiediff/materials/mat.py:MaterialBase.plot_refractive_index"]}
{"id": "C111", "title": "Structures without torchgdm", "statement": "If torchgdm is not installed, any attempt to instantiate StructAutodiffMieEffPola3D or StructAutodiffMieGPM3D raises the _MissingDependency error. (Expected to FAIL: calling an exception class builds an instance and does not raise it.)", "quantifier": "all arguments", "why_tests_cant": "needs an installation without the optional package", "anchors": ["src/pymiediff/helper/tg.py:_MissingDependency"]}
{"id": "C112", "title": "Making a material from the database or a file", "statement": "MatDatabase(name, yaml_file, init_lookup_wavelengths): without a file an unknown name is a ValueError and upper/lower case does not matter; with a file the database is not consulted and the name is only a label (the file stem if empty). Only the first entry counts, further ones cause a warning. A tabulated entry gives an object with this table and its smallest and largest wavelength as range, a formula entry one with its number, coefficients and range (key range before wavelength_range); missing files, entries, keys and unknown kinds are refused. Initial lookup wavelengths change no later permittivity; the constructor then succeeds exactly if the model can be evaluated at each of them and otherwise raises the first exception. All 17 shipped materials can be made under their names.", "quantifier": "every name, file content, directory order, list of initial wavelengths and later history of calls", "why_tests_cant": "all file contents and histories", "anchors": ["src/pymiediff/materials/mat.py:MatDatabase.__init__", "src/pymiediff/materials/mat.py:_load_formula", "src/pymiediff/materials/mat.py:_load_tabulated"]}
{"id": "C113", "title": "A material object is usable", "statement": "Every call of MatDatabase either raises an exception or returns an object whose get_epsilon, set_device and repr work, and an initial lookup wavelength is not evaluated again. (Expected to FAIL: without name and file, for formulas other than 1, and for wavelengths that are not float32 numbers.)", "quantifier": "every name, file content and wavelength", "why_tests_cant": "tests only make shipped materials", "anchors": ["src/pymiediff/materials/mat.py:MatDatabase.__init__", "src/pymiediff/materials/mat.py:MatDatabase.__repr__", "src/pymiediff/materials/mat.py:MatDatabase.get_epsilon"]}
{"id": "C114", "title": "Particles of shipped materials do not emit light", "statement": "Every material of the package gives a permittivity with positive imaginary part, or a real positive one: tables at every wavelength (also outside their range), formulas inside the range the object reports. A particle whose layers are such materials or passive constants, in a lossless host, therefore has exactly one solution of the boundary conditions at every order, and Particle.get_cross_sections (scipy backend, exact special functions, one or two layers) succeeds with nonnegative absorption for every multipole and in total, scattering at most extinction, and zero absorption exactly if no layer is lossy.", "quantifier": "every shipped material, wavelength, radius, order and history of calls", "why_tests_cant": "all combinations of materials, wavelengths and radii", "anchors": ["src/pymiediff/materials/mat.py:MatDatabase.get_epsilon", "src/pymiediff/main.py:Particle.get_cross_sections", "src/pymiediff/multishell.py:cross_sections"]}
{"id": "C115", "title": "Spectra of particles made of shipped materials have no jumps", "statement": "A table of distinct wavelengths, in any order, is interpolated to a continuous function of the wavelength, also at its rows and beyond its ends. Every shipped material has a permittivity that is continuous in the wavelength: tables at every wavelength, formulas inside the range the object reports, where they have no pole. If radii, wavenumber, host and layer permittivities of a passive sphere or core-shell particle in a lossless host depend continuously on a parameter, so do all three cross sections and efficiencies, and amplitudes and intensities of the angular pattern, jointly with the angle. For layers of shipped or constant passive materials cross sections and angular pattern exist at every positive wavenumber (inside the range of the formulas among them) and are continuous functions of it (scipy backend).", "quantifier": "every shipped material, wavelength, order and continuous parameter dependence", "why_tests_cant": "continuity at every wavelength is a statement about infinitely many points", "anchors": ["src/pymiediff/materials/mat.py:MatDatabase.get_epsilon", "src/pymiediff/helper/helper.py:interp1d", "src/pymiediff/multishell.py:cross_sections", "src/pymiediff/multishell.py:angular_scattering"]}
{"id": "C116", "title": "A finely sampled spectrum reproduces the spectrum between the samples", "statement": "For a quantity that is continuous on a closed interval and every tolerance there is a spacing such that interp1d on any samples at least that dense, in any order and possibly repeated, succeeds at every point of the interval and differs from the quantity by less than the tolerance, also before the first and behind the last sample; enough equidistant samples are such samples. In particular extinction, scattering and absorption cross sections of a sphere or core-shell particle of shipped or constant passive materials in a lossless host, computed at fine enough samples of a band and interpolated with interp1d, agree with the cross sections computed directly at every wavenumber of the band (scipy backend). If both ends of the interval are sampled and the quantity is analytic, as the cross sections of particles with constant permittivities are, the error is at most a constant times the square of the spacing.", "quantifier": "every tolerance, band, shipped material, radius, order, sample list and wavenumber", "why_tests_cant": "the statement is about every wavenumber between the samples and every sufficiently dense sample list", "anchors": ["src/pymiediff/helper/helper.py:interp1d", "src/pymiediff/multishell.py:cross_sections", "src/pymiediff/materials/mat.py:MatDatabase.get_epsilon"]}
{"id": "C117", "title": "The torch-native j_n jump where their depth changes", "statement": "sph_jn_torch_via_rec and sph_jn_torch start their downward recurrences a number of orders above the requested one that is rounded from |z|. At real arguments where that number changes by one, 2d/3 for d = 11..35 and (d-10)/2 for d = 21..50, the first order they return has a left limit and jumps by sin x / (x^5 W_N W_(N+1)), with W_N the cross product j_0 y_N - y_0 j_N at the two depths, as long as the recurrences do not meet a zero; so they are not continuous unless sin x = 0. For sph_jn_torch_via_rec(1, z) the jump at z = 22/3 exceeds 1e-4, so arbitrarily close to 22/3 there are arguments at which the returned first order is wrong by more than 5e-5.", "quantifier": "every requested order and every depth change of the two automatic rules", "why_tests_cant": "a jump is a statement about a limit; tests compare values at chosen points with a tolerance", "anchors": ["src/pymiediff/special.py:sph_jn_torch_via_rec", "src/pymiediff/special.py:sph_jn_torch"]}
