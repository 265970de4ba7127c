import Verif.Props.Sensitivity
import Verif.Props.BackwardShell

/-!
# C94: what `loss.backward()` leaves in `eps.grad`

The permittivity of one layer is a complex tensor that requires a gradient.  The recorded run of the core-shell backend (C81) then
delivers the conjugated overlap integral of the internal field.
-/

namespace MieDiff

open Complex Spec Filter Topology

/-- The gradient of `Re (conj s * f)` is `s * conj f'`. -/
theorem vjp_of_deriv {b : ℂ → ℂ} {f : ℂ → ℂ} {e0 f' : ℂ} (h : Vjp e0 b f) (hf : HasDerivAt f f' e0) (s : ℂ) :
    b s = s * (starRingEnd ℂ) f' := by
  have h1 := hasGradientAt_iff_hasFDerivAt.1 (h s)
  have h2 := re_mul_deriv (hf.hasFDerivAt.restrictScalars ℝ) s
  have hu := h1.unique h2
  have key : ∀ d : ℂ, ((starRingEnd ℂ) (b s) * d).re = ((starRingEnd ℂ) s * (d * f')).re := by
    intro d
    have := congrArg (fun L : ℂ →L[ℝ] ℝ => L d) hu
    simp only [InnerProductSpace.toDual_apply_apply, Complex.inner] at this
    rw [mul_comm, this]
    simp
  have k1 := key 1
  have k2 := key I
  apply Complex.ext
  · simp at k1 ⊢; linarith
  · simp at k2 ⊢; linarith

/-- The inputs of a call in which only the permittivity of layer `j` requires a gradient. -/
noncomputable def epsLeaf (p : Particle1) (j : ℕ) : Node.Inputs ℂ where
  k0 := Node.const p.k0
  r := p.rLayers.map fun r => Node.const (r : ℂ)
  eps := (p.epsLayers.map fun e => Node.const e).set j (Node.leaf (p.epsLayers.getD j 0) id)
  env := Node.const p.epsEnv

theorem const_recorded (c e0 : ℂ) : Node.Recorded e0 (Node.const c : Node ℂ) fun _ => c :=
  (Node.Tracks.const c).recorded trivial

theorem leaf_recorded (e0 : ℂ) : Node.Recorded e0 (Node.leaf e0 id : Node ℂ) id := by
  refine ⟨rfl, fun s => ?_, trivial, fun h => by simp [Node.leaf] at h⟩
  rw [hasGradientAt_iff_hasFDerivAt]
  have h2 := re_mul_deriv ((hasDerivAt_id e0).hasFDerivAt.restrictScalars ℝ) s
  refine h2.congr_fderiv ?_
  refine ContinuousLinearMap.ext fun d => ?_
  simp [Complex.inner, Node.leaf]
  ring

theorem epsLeaf_holds (p : Particle1) {j : ℕ} (hcut : p.epsLayers.getD j 0 ∈ slitPlane) :
    (epsLeaf p j).Holds (p.epsLayers.getD j 0) (epsFam p j) := by
  refine ⟨const_recorded _ _, ?_, ?_, const_recorded _ _, fun h => by simp [epsLeaf, Node.const] at h⟩
  · simp only [epsLeaf, epsFam]
    induction p.rLayers with
    | nil => exact .nil
    | cons r l ih => exact .cons (const_recorded _ _) ih
  · simp only [epsLeaf, epsFam]
    generalize p.epsLayers.getD j 0 = e0 at hcut
    generalize p.epsLayers = es
    induction es generalizing j with
    | nil => exact .nil
    | cons e l ih =>
      cases j with
      | zero =>
        refine .cons ⟨leaf_recorded e0, fun _ => hcut⟩ ?_
        clear ih
        induction l with
        | nil => exact .nil
        | cons e l ih => exact .cons ⟨const_recorded _ _, fun h => by simp [Node.const] at h⟩ ih
      | succ j => exact .cons ⟨const_recorded _ _, fun h => by simp [Node.const] at h⟩ ih

section

variable {p : Particle1} {j : ℕ} {k0 e0 : ℝ} {sp : BesselBackend} {N : ℕ} {ri : Bool} {o : ℂ → MieOut}

/-- Calls of the SciPy backend near the given permittivity satisfy the interface equations. -/
theorem scipy_exact (hp : PassiveAt p k0 e0) (hj : j < p.rLayers.length)
    (hcall : ShellCallAt .scipy sp (epsFam p j) (p.epsLayers.getD j 0) N ri o) :
    ∀ᶠ e in 𝓝 (p.epsLayers.getD j 0), ExactRun (p.withEps j e) (o e) ∧ (o e).nMax.toNat = N := by
  have hj' : j < p.epsLayers.length := by rw [hp.len]; exact hj
  have hF := epsFam_analytic p j (p.epsLayers.getD j 0)
  have hat : PassiveAt ((epsFam p j).at (p.epsLayers.getD j 0)) k0 e0 := by
    rw [epsFam_at, withEps_self p hj']; exact hp
  obtain ⟨K, backend, w, nMax, hname, hc⟩ := hcall.call
  obtain ⟨hb, hsel⟩ := hname.select sp
  have hsol : ∀ᶠ t in 𝓝 (p.epsLayers.getD j 0), ∀ i ∈ Finset.range (N + 1), ∀ q, ∃ a, Solves q i ((epsFam p j).at t).layers a := by
    refine (Finset.eventually_all _).2 fun i _ => ?_
    filter_upwards [(C73_coefficients hF hat .tm i).1, (C73_coefficients hF hat .te i).1] with t h1 h2
    intro q
    cases q
    exacts [h1.exists, h2.exists]
  filter_upwards [hc, hsol, layers_ne_near hF hat] with t hc hs hne
  have hN' : (o t).nMax.toNat = N := by rw [hc.2]; simp
  rw [epsFam_at] at hc hs hne
  refine ⟨ExactRun.of_coreShell hb hc.1 (by rw [hc.2]; exact_mod_cast hcall.pos) ?_ hne ?_, hN'⟩
  · intro S hS z hz
    rw [hsel] at hS
    cases hS
    rw [hN']
    exact hcall.exact rfl z (csArgs_ne hne z hz)
  · intro q i _ hi
    exact hs i (Finset.mem_range.2 (by omega)) q

/-- C94 for `backward`: if the permittivity of layer `j` of a passive sphere or coated sphere is a leaf that requires a gradient, the
backward pass through the SciPy backend turns a cotangent `s` of a coefficient into `s` times the conjugated overlap integral of the
internal field with itself, and `cs_ext.backward()` leaves the sum of these integrals in `eps.grad`. -/
theorem C94_backward {V : ℕ → Pol → ℕ → Wave} (hp : PassiveAt p k0 e0) (hj : j < p.rLayers.length)
    (hcut : p.epsLayers.getD j 0 ∈ slitPlane) (hcall : ShellCallAt .scipy sp (epsFam p j) (p.epsLayers.getD j 0) N ri o)
    (hV : ∀ i < N, ∀ q, ChannelWaves p q (i + 1) (V i q)) :
    (∀ i < N, ∀ s, (Node.shell (ShellKind.scipy.bess ℂ N) (epsLeaf p j) (i + 1)).a.back s =
      s * (starRingEnd ℂ) (-I / p.epsEnv * layerOverlap p p (k0 * Real.sqrt e0) .tm (i + 1) (V i .tm) (V i .tm) j) ∧
      (Node.shell (ShellKind.scipy.bess ℂ N) (epsLeaf p j) (i + 1)).b.back s =
      s * (starRingEnd ℂ) (-I / p.epsEnv * layerOverlap p p (k0 * Real.sqrt e0) .te (i + 1) (V i .te) (V i .te) j)) ∧
    (Node.shellCross N (ShellKind.scipy.bess ℂ N) (epsLeaf p j)).ext.back 1 =
      ((2 * Real.pi / ((k0 * Real.sqrt e0) ^ 2 * e0) : ℝ) : ℂ) * ∑ i ∈ Finset.range N, (2 * (i : ℂ) + 3) *
        (I * (starRingEnd ℂ) (layerOverlap p p (k0 * Real.sqrt e0) .tm (i + 1) (V i .tm) (V i .tm) j +
          layerOverlap p p (k0 * Real.sqrt e0) .te (i + 1) (V i .te) (V i .te) j)) := by
  have hj' : j < p.epsLayers.length := by rw [hp.len]; exact hj
  have hat : PassiveAt ((epsFam p j).at (p.epsLayers.getD j 0)) k0 e0 := by
    rw [epsFam_at, withEps_self p hj']; exact hp
  have hx := scipy_exact hp hj hcall
  have hg := C81_scipy (epsLeaf_holds p hcut) hcall hat
  refine ⟨fun i hi s => ?_, ?_⟩
  · obtain ⟨d1, d2⟩ := C94_gradient_run hp.particle hj hx hV hi
    obtain ⟨-, -, ga, gb⟩ := hg.coefficients (i + 1) (by omega) (by omega)
    rw [Nat.add_sub_cancel] at ga gb
    generalize Node.shell (ShellKind.scipy.bess ℂ N) (epsLeaf p j) (i + 1) = c at ga gb ⊢
    exact ⟨vjp_of_deriv ga d1 s, vjp_of_deriv gb d2 s⟩
  · have hgrad := hasGradientAt_iff_hasFDerivAt.1 hg.cross.ext_grad
    generalize (Node.shellCross N (ShellKind.scipy.bess ℂ N) (epsLeaf p j)).ext.back 1 = g at hgrad ⊢
    set ε := p.epsLayers.getD j 0 with hε
    have key : ∀ h : ℂ, (h * (starRingEnd ℂ) g).re = 2 * Real.pi / ((k0 * Real.sqrt e0) ^ 2 * e0) *
        ∑ i ∈ Finset.range N, (2 * (i : ℝ) + 3) *
        (h * (layerOverlap p p (k0 * Real.sqrt e0) .tm (i + 1) (V i .tm) (V i .tm) j +
          layerOverlap p p (k0 * Real.sqrt e0) .te (i + 1) (V i .te) (V i .te) j)).im := by
      intro h
      have h1 := C94_extinction hp.particle hj hx hV h
      have hline : HasDerivAt (fun t : ℝ => ε + t * h) h 0 := by
        have h1 : HasDerivAt (fun t : ℝ => (t : ℂ)) 1 0 := ofRealCLM.hasDerivAt
        simpa using (h1.mul_const h).const_add ε
      have hl0 : ε = ε + ((0 : ℝ) : ℂ) * h := by simp
      rw [hl0] at hgrad
      have h2 := hgrad.comp_hasDerivAt (0 : ℝ) hline
      have := h2.unique h1
      simpa only [InnerProductSpace.toDual_apply_apply, Complex.inner] using this
    have expand : ∀ h z : ℂ, (h * z).im = (h * -I * z).re := by intro h z; simp
    set S := ((2 * Real.pi / ((k0 * Real.sqrt e0) ^ 2 * e0) : ℝ) : ℂ) * ∑ i ∈ Finset.range N, (2 * (i : ℂ) + 3) *
        (I * (starRingEnd ℂ) (layerOverlap p p (k0 * Real.sqrt e0) .tm (i + 1) (V i .tm) (V i .tm) j +
          layerOverlap p p (k0 * Real.sqrt e0) .te (i + 1) (V i .te) (V i .te) j)) with hS
    have key2 : ∀ h : ℂ, (h * (starRingEnd ℂ) g).re = (h * (starRingEnd ℂ) S).re := by
      intro h
      rw [key h, hS, map_mul, conj_ofReal, map_sum, mul_left_comm, re_ofReal_mul]
      congr 1
      rw [Finset.mul_sum, re_sum]
      refine Finset.sum_congr rfl fun i _ => ?_
      rw [expand, map_mul, map_mul, conj_conj, conj_I,
        show (starRingEnd ℂ) (2 * (i : ℂ) + 3) = ((2 * (i : ℝ) + 3 : ℝ) : ℂ) by
          rw [← conj_ofReal]; push_cast; rfl, mul_left_comm, re_ofReal_mul]
      congr 2
      ring
    have k1 := key2 1
    have k2 := key2 I
    apply Complex.ext
    · simpa using k1
    · simpa using k2

end

/-- A glass core in an absorbing shell whose permittivity is the leaf: the calls succeed near it, the internal waves exist, and the
gradient of the extinction is their overlap. -/
example (K : D1Kernel) (N : ℕ) : ∃ (o : ℂ → MieOut) (V : ℕ → Pol → ℕ → Wave),
    (∀ᶠ e in 𝓝 (2 + I : ℂ), mieCoefficients K (codeBackends exactBessel) ⟨1, [1, 2], [4, e], 1⟩ "scipy" "" (some ((N + 1 : ℕ) : ℤ)) =
      .ok (o e)) ∧
    (∀ i < N + 1, ∀ q, ChannelWaves ⟨1, [1, 2], [4, 2 + I], 1⟩ q (i + 1) (V i q)) ∧
    (Node.shellCross (N + 1) (ShellKind.scipy.bess ℂ (N + 1)) (epsLeaf ⟨1, [1, 2], [4, 2 + I], 1⟩ 1)).ext.back 1 =
      ((2 * Real.pi : ℝ) : ℂ) * ∑ i ∈ Finset.range (N + 1), (2 * (i : ℂ) + 3) *
        (I * (starRingEnd ℂ) (layerOverlap ⟨1, [1, 2], [4, 2 + I], 1⟩ ⟨1, [1, 2], [4, 2 + I], 1⟩ 1 .tm (i + 1) (V i .tm) (V i .tm) 1 +
          layerOverlap ⟨1, [1, 2], [4, 2 + I], 1⟩ ⟨1, [1, 2], [4, 2 + I], 1⟩ 1 .te (i + 1) (V i .te) (V i .te) 1)) := by
  set p : Particle1 := ⟨1, [1, 2], [4, 2 + I], 1⟩ with hpdef
  have hp : PassiveAt p 1 1 := by
    refine ⟨⟨by simp [hpdef], one_pos, by simp [hpdef], one_pos, by simp [hpdef]⟩, by simp [hpdef, strictlyIncreasing], rfl, by simp [hpdef],
      by simp [hpdef], ?_⟩
    intro e he
    simp only [hpdef, List.mem_cons, List.not_mem_nil, or_false] at he
    rcases he with rfl | rfl
    · norm_num
    · intro h; simpa using congrArg Complex.im h
  have hcut : p.epsLayers.getD 1 0 ∈ slitPlane := .inl (by simp [hpdef])
  have hat : (epsFam p 1).at (p.epsLayers.getD 1 0) = p := by rw [epsFam_at, withEps_self p (by simp [hpdef])]
  obtain ⟨W, hW⟩ := exists_allWaves hp.host hp.inc hp.len hp.ne hp.passive hp.nonzero
  obtain ⟨o, h1, h2⟩ := C81_calls_succeed (k := .scipy) (backend := "scipy") (w := "") (sp := exactBessel) (epsLeaf_holds p hcut)
    (by unfold ShellKind.Named; decide +kernel) (n := N + 1) (by omega) (fun _ z hz => exactBessel_at hz) (by rw [hat]; exact hp.inc)
    (by simp [epsFam, hpdef]) (by simp [epsFam, hpdef]) (by simp [epsFam, hpdef]) (by
      rw [hat]
      have h4 : ‖csqrt 4‖ ^ 2 = 4 := by rw [← norm_pow, csqrt_sq]; norm_num
      have h5 : (1 : ℝ) ≤ ‖csqrt (2 + I)‖ ^ 2 := by
        rw [← norm_pow, csqrt_sq]
        have := Complex.abs_re_le_norm (2 + I)
        simp at this
        linarith
      have h1 : csqrt 1 = 1 := by simpa using csqrt_ofReal (show (0 : ℝ) ≤ 1 by norm_num)
      have g4 : 1 ≤ ‖csqrt 4‖ := by nlinarith [norm_nonneg (csqrt 4)]
      have g5 : 1 ≤ ‖csqrt (2 + I)‖ := by nlinarith [norm_nonneg (csqrt (2 + I))]
      have big : ∀ z : ℂ, 1 ≤ ‖z‖ → ShellKind.scipy.Stable z ∧ 1e-8 < ‖z‖ := fun z hz =>
        ⟨norm_pos_iff.1 (by linarith), by norm_num; linarith⟩
      simp only [hpdef, Particle1.layers, layersOf, List.map_cons, List.map_nil, List.zip_cons_cons, List.zip_nil_right, csArgs, h1]
      intro z hz
      simp only [List.mem_cons, List.not_mem_nil, or_false] at hz
      rcases hz with rfl | rfl | rfl | rfl <;> refine big _ ?_ <;> simp <;> linarith) K false
  refine ⟨o, fun i q j => W j (i + 1) q, ?_, fun i _ q => hW.channel i q, ?_⟩
  · simpa [epsFam_at, Particle1.withEps, hpdef] using h2
  · simpa using (C94_backward hp (j := 1) (by simp [hpdef]) hcut h1 (V := fun i q j => W j (i + 1) q) fun i _ q => hW.channel i q).2

end MieDiff
