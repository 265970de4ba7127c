import Verif.Proofs.Scattering

/-!
# The near fields converge to the solution of Maxwell's equations (C76)

`nearfields` (multishell.py:1041-1291, 1294-1490) adds `n_max` multipoles.  The theorems below say what the sums converge to: a
solution of the scattering problem of the layered sphere, stated in `Verif/Spec/Scattering.lean` without multipoles.
-/

namespace MieDiff

open Complex Spec Filter Topology

/-- The fields of the torch and scipy backends differ from `E eps j`, `H eps j` by less than any geometric sequence in `n_max`,
uniformly over all positions in a shell `r1 ≤ r ≤ r2`, all regions and all shifts `eps` up to 1.  The special functions are exact. -/
def TorchConverges (p : Particle1) (E0 : ℂ) (E H : ℝ → ℕ → SField) : Prop := ∀ ρ r1 r2 : ℝ, 0 < ρ → 0 < r1 → ∃ C : ℝ,
  ∀ (K : D1Kernel) (B : Backends) (backend w : String) (nMax : Option ℤ) (o : MieOut),
    backend.toLower = "torch" ∨ backend.toLower = "scipy" → mieCoefficients K B p backend w nMax true = .ok o → 1 ≤ o.nMax →
    (∀ S, selectBessel B backend w = .ok S → ∀ z ∈ csArgs p.layers, ExactAt S o.nMax.toNat z) →
  ∀ Bc Bs B2 Bo : BesselBackend, (∀ z, z ≠ 0 → ExactAt Bc o.nMax.toNat z ∧ ExactAt Bs o.nMax.toNat z ∧ ExactAt B2 o.nMax.toNat z ∧
      ExactAt Bo o.nMax.toNat z) →
    ∃ co, o.internal = some co ∧ ∀ (eps : ℝ) (v : V3 ℝ) (j : ℕ), 0 < eps → eps ≤ 1 → r1 ≤ v.dist → v.dist ≤ r2 →
      InRegion p.rLayers j v.dist →
      ∃ F, nearfieldsTorch Bc Bs B2 Bo p.k0 o.k (csqrt o.epsC) (csqrt o.epsS) o.nEnv o.rC o.rS E0 co v eps = .ok F ∧
        FieldsNear F (E eps j) (H eps j) v (C * ρ ^ o.nMax.toNat)

/-- The same for the pena backend, where the guards of the solver and of the radial functions must be inactive. -/
def PenaConverges (p : Particle1) (E0 : ℂ) (E H : ℝ → ℕ → SField) : Prop := ∀ ρ r1 r2 : ℝ, 0 < ρ → 0 < r1 → ∃ C : ℝ,
  ∀ (B : Backends) (backend w : String) (nMax : Option ℤ) (ri : Bool) (o : MieOut),
    backend.toLower = "pena" → mieCoefficients idealD1 B p backend w nMax ri = .ok o →
    SolverClear idealFn o.nMax.toNat p.layers → (∀ l ∈ p.layers, ∀ i, 1 ≤ i → i ≤ o.nMax.toNat →
      ‖ricPsi i (l.1 * l.2)‖ ≤ 1e30 ∧ ‖ricZeta i (l.1 * l.2)‖ ≤ 1e30) →
  ∀ (eps : ℝ) (v : V3 ℝ) (j : ℕ), 0 ≤ eps → eps ≤ 1 → r1 ≤ v.dist → v.dist ≤ r2 → InRegion p.rLayers j v.dist →
    KernelOK o.nMax.toNat (p.k0 * p.media.getD j 0 * v.dist + eps) solverEps →
    ∃ F, nearfieldsPena idealD1 p.k0 p.rLayers p.epsLayers p.epsEnv E0 o.a o.b v eps = .ok F ∧
      FieldsNear F (E eps j) (H eps j) v (C * ρ ^ o.nMax.toNat)

theorem last_lt {rs : List ℝ} (hne : rs ≠ []) {r : ℝ} (h : InRegion rs rs.length r) : rs.getLastD 0 < r := by
  rw [getLastD_eq]
  exact h.2.1 _ (by have := List.length_pos_iff.2 hne; omega)

/-- C76: for a passive particle without plasmonic cancellation at an interface there are fields `E eps j`, `H eps j` such that

* for `eps = 0` they are a solution of the scattering problem: Maxwell's equations in every region, continuity at every interface,
  no singularity, incident plane wave plus radiated field in the host;
* they depend continuously on the shift `eps` that the code adds to the argument of the radial functions;
* the fields computed by `nearfields` with all three backends converge to them faster than any geometric sequence. -/
theorem C76_near_fields_converge {p : Particle1} {k0 e0 : ℝ} (hp : RealHost p k0 e0) (hinc : strictlyIncreasing p.rLayers)
    (hlen : p.epsLayers.length = p.rLayers.length) (hne : p.rLayers ≠ []) (hpass : ∀ e ∈ p.epsLayers, 0 ≤ e.im)
    (hz : ∀ e ∈ p.epsLayers, e ≠ 0) (hq : NoCancel p) (E0 : ℂ) :
    ∃ E H : ℝ → ℕ → SField,
      IsScattering k0 p.rLayers.length (fun j => p.media.getD j 0) p.radius (planeE E0 (k0 * Real.sqrt e0 : ℝ))
        (planeH E0 (k0 * Real.sqrt e0 : ℝ) (Real.sqrt e0 : ℝ)) (E 0) (H 0) ∧
      (∀ j ≤ p.rLayers.length, ∀ r t ph : ℝ, 0 < r → SVec.Tends (fun eps => E eps j r t ph) (𝓝 0) (E 0 j r t ph) ∧
        SVec.Tends (fun eps => H eps j r t ph) (𝓝 0) (H 0 j r t ph)) ∧
      TorchConverges p E0 E H ∧ PenaConverges p E0 E H := by
  obtain ⟨W, hW⟩ := exists_allWaves hp hinc hlen hne hpass hz
  have hd : ∀ j ≤ p.rLayers.length, DecW (W j) := fun j hj => hW.dec hp hinc hlen hne hz hq hj
  have hsol : ∀ q i, ∃ a, Solves q i p.layers a := fun q i => (C68_solvable hp hinc hlen hne hpass hz q i).exists
  have hnE : csqrt p.epsEnv = (Real.sqrt e0 : ℝ) := by rw [hp.env_eq, csqrt_ofReal hp.env_pos.le]
  refine ⟨solE p E0 W, solH p E0 W, ?_, fun j hj r t ph hr => sol_shift hd hp hlen hz E0 hj hr t ph, ?_, ?_⟩
  · rw [← realHost_k hp, ← hnE]
    exact sol_scattering hW hd hp hlen hz E0
  · intro ρ r1 r2 hρ hr1
    obtain ⟨C, hC⟩ := run_tail hW hd hp hlen hne hz E0 (r2 := r2) hρ hr1
    refine ⟨C, fun K B backend w nMax o hb h hpos hS Bc Bs B2 Bo hB => ?_⟩
    have hpe : backend.toLower ≠ "pena" := by rcases hb with h | h <;> rw [h] <;> decide
    have hl := layers_ne hp hz
    obtain ⟨co, hco, hcl, hLW⟩ := csWaves_layer hb h hpos hS hl (fun q i _ _ => hsol q i)
    have run := ExactRun.of_coreShell hpe h hpos hS hl (fun q i _ _ => hsol q i)
    have hane : o.a ≠ [] := by
      intro h0
      have := run.lenA
      rw [h0] at this
      simp at this
      omega
    rw [← run.lenA] at hB
    refine ⟨co, hco, fun eps v j he he1 hv1 hv2 hR => ?_⟩
    have hv : 0 < v.dist := lt_of_lt_of_le hr1 hv1
    rcases Nat.lt_or_ge j p.rLayers.length with hj | hj
    · obtain ⟨F, hF, hI⟩ := torch_inside hb h hane hp hz E0 (fun z hz => (hB z hz).1) (fun z hz => (hB z hz).2.1)
        (fun z hz => (hB z hz).2.2.1) (fun z hz => (hB z hz).2.2.2) hco he.le hv hj hR
      refine ⟨F, hF, ?_⟩
      rw [← run.lenA]
      exact (hC o.a o.b _ hLW eps v F he.le he1 hv1 hv2).1 j hj hI
    · obtain rfl : j = p.rLayers.length := le_antisymm hR.1 hj
      obtain ⟨co', hco', hF⟩ := torch_outside hb h hane hp E0 (fun z hz => (hB z hz).1) (fun z hz => (hB z hz).2.1)
        (fun z hz => (hB z hz).2.2.1) (fun z hz => (hB z hz).2.2.2)
      obtain rfl : co = co' := Option.some.inj (hco.symm.trans hco')
      have hmeta : o.rS = p.rLayers.getLastD 0 ∧ o.nEnv = csqrt p.epsEnv := by
        obtain ⟨-, -, -, n, out, rfl⟩ := mieCoefficients_cs_meta hb h
        exact ⟨rfl, rfl⟩
      have := hF eps v he (by rw [hmeta.1]; exact last_lt hne hR)
      refine ⟨_, this, ?_⟩
      rw [hmeta.2, ← run.lenA]
      exact (hC o.a o.b _ hLW eps v (hostFields 0 0 0 [] [] 0 0 0 0) he.le he1 hv1 hv2).2
  · intro ρ r1 r2 hρ hr1
    obtain ⟨C, hC⟩ := run_tail hW hd hp hlen hne hz E0 (r2 := r2) hρ hr1
    refine ⟨C, fun B backend w nMax ri o hb h hc hbd eps v j he he1 hv1 hv2 hR hker => ?_⟩
    obtain ⟨w', hF, hLW⟩ := pena_inside hb h hc hbd E0
    obtain ⟨la, lb, -⟩ := C11_interface_conditions hb h hc
    have prun := mieCoefficients_pena_inv hb h
    have hpos := prun.pos
    rw [← la] at hker ⊢
    rcases Nat.lt_or_ge j p.rLayers.length with hj | hj
    · rw [media_layer (hlen ▸ hj)] at hker
      obtain ⟨F, hF, hI⟩ := hF eps v j hj hR hker
      exact ⟨F, hF, (hC o.a o.b _ hLW eps v F he he1 hv1 hv2).1 j hj hI⟩
    · obtain rfl : j = p.rLayers.length := le_antisymm hR.1 hj
      have hane : o.a ≠ [] := by
        intro h0
        rw [h0] at la
        simp at la
        omega
      rw [media_host hlen, realHost_k hp] at hker
      have := pena_outside (b := o.b) hp hne hinc hlen hane (lb.trans la.symm) E0 (last_lt hne hR) (eps := eps) (v := v)
        (by convert hker using 1; push_cast; ring)
      exact ⟨_, this, (hC o.a o.b _ hLW eps v (hostFields 0 0 0 [] [] 0 0 0 0) he he1 hv1 hv2).2⟩

/-- C76, consequence: enough orders and a small shift give the exact fields within any tolerance. -/
theorem C76_accuracy {p : Particle1} {E0 : ℂ} {E H : ℝ → ℕ → SField} (hT : TorchConverges p E0 E H)
    (hs : ∀ j ≤ p.rLayers.length, ∀ r t ph : ℝ, 0 < r → SVec.Tends (fun eps => E eps j r t ph) (𝓝 0) (E 0 j r t ph) ∧
        SVec.Tends (fun eps => H eps j r t ph) (𝓝 0) (H 0 j r t ph)) {v : V3 ℝ} (hv : 0 < v.dist) {j : ℕ}
    (hR : InRegion p.rLayers j v.dist) {d : ℝ} (hd : 0 < d) :
    ∃ N : ℕ, ∃ e1 > 0, ∀ (K : D1Kernel) (B : Backends) (backend w : String) (nMax : Option ℤ) (o : MieOut),
      backend.toLower = "torch" ∨ backend.toLower = "scipy" → mieCoefficients K B p backend w nMax true = .ok o → (N : ℤ) ≤ o.nMax →
      (∀ S, selectBessel B backend w = .ok S → ∀ z ∈ csArgs p.layers, ExactAt S o.nMax.toNat z) →
      ∀ Bc Bs B2 Bo : BesselBackend, (∀ z, z ≠ 0 → ExactAt Bc o.nMax.toNat z ∧ ExactAt Bs o.nMax.toNat z ∧
        ExactAt B2 o.nMax.toNat z ∧ ExactAt Bo o.nMax.toNat z) → ∀ eps : ℝ, 0 < eps → eps < e1 →
      ∃ co F, o.internal = some co ∧
        nearfieldsTorch Bc Bs B2 Bo p.k0 o.k (csqrt o.epsC) (csqrt o.epsS) o.nEnv o.rC o.rS E0 co v eps = .ok F ∧
        FieldsNear F (E 0 j) (H 0 j) v d := by
  obtain ⟨C, hC⟩ := hT (1 / 2) v.dist v.dist (by norm_num) hv
  have hpow : Tendsto (fun N : ℕ => C * (1 / 2 : ℝ) ^ N) atTop (𝓝 0) := by
    have := (tendsto_pow_atTop_nhds_zero_of_lt_one (r := (1 / 2 : ℝ)) (by norm_num) (by norm_num)).const_mul C
    simpa using this
  obtain ⟨N, hN⟩ := eventually_atTop.1 (hpow.eventually (gt_mem_nhds (half_pos hd)))
  obtain ⟨⟨c1, c2, c3⟩, c4, c5, c6⟩ := hs j hR.1 v.dist v.polar v.azimuth hv
  have near : ∀ {f : ℝ → ℂ} {l : ℂ}, Tendsto f (𝓝 0) (𝓝 l) → ∀ᶠ e in 𝓝 (0 : ℝ), ‖f e - l‖ < d / 2 := by
    intro f l h
    have := (Metric.tendsto_nhds.1 h) (d / 2) (half_pos hd)
    simpa only [dist_eq_norm] using this
  obtain ⟨e1, he1, hev⟩ := Metric.eventually_nhds_iff.1
    (((near c1).and ((near c2).and (near c3))).and ((near c4).and ((near c5).and (near c6))))
  refine ⟨max N 1, min e1 1, lt_min he1 one_pos, fun K B backend w nMax o hb h hn hS Bc Bs B2 Bo hB eps he hle => ?_⟩
  have hn1 : (1 : ℤ) ≤ o.nMax := le_trans (by exact_mod_cast le_max_right N 1) hn
  have hnN : N ≤ o.nMax.toNat := by
    have : (N : ℤ) ≤ o.nMax := le_trans (by exact_mod_cast le_max_left N 1) hn
    omega
  obtain ⟨co, hco, hF⟩ := hC K B backend w nMax o hb h hn1 hS Bc Bs B2 Bo hB
  obtain ⟨F, hF, hE, hH⟩ := hF eps v j he (hle.le.trans (min_le_right _ _)) le_rfl le_rfl hR
  have hsm := hN _ hnN
  obtain ⟨⟨d1, d2, d3⟩, d4, d5, d6⟩ := hev (y := eps) (by
    rw [dist_zero_right, Real.norm_of_nonneg he.le]; exact lt_of_lt_of_le hle (min_le_left _ _))
  have tri : ∀ {x y z : ℂ}, ‖x - y‖ ≤ C * (1 / 2) ^ o.nMax.toNat → ‖y - z‖ < d / 2 → ‖x - z‖ ≤ d := by
    intro x y z h1 h2
    have := norm_sub_le_norm_sub_add_norm_sub x y z
    linarith
  exact ⟨co, F, hco, hF, ⟨tri hE.1 d1, tri hE.2.1 d2, tri hE.2.2 d3⟩, tri hH.1 d4, tri hH.2.1 d5, tri hH.2.2 d6⟩

theorem lossyDemo_noCancel : NoCancel lossyDemo := by
  intro q hq
  simp only [lossyDemo, List.tail_cons, List.cons_append, List.nil_append, List.zip_cons_cons, List.zip_nil_left,
    List.mem_cons, List.not_mem_nil, or_false] at hq
  rcases hq with rfl | rfl
  · intro h
    have := congrArg im h
    simp at this
  · norm_num

/-- C76 applies to the absorbing core in a transparent shell: the torch backend with exact special functions, started with
`n_max = 1, 2, …` at a point of the core, approaches the field of a solution of the scattering problem. -/
example : ∃ E H : ℕ → SField,
    IsScattering 1 2 (fun j => lossyDemo.media.getD j 0) lossyDemo.radius (planeE 1 (1 * Real.sqrt 1 : ℝ))
      (planeH 1 (1 * Real.sqrt 1 : ℝ) (Real.sqrt 1 : ℝ)) E H ∧
    ∀ d > 0, ∃ N : ℕ, ∃ e1 > 0, ∀ n ≥ N, ∀ eps : ℝ, 0 < eps → eps < e1 → ∃ o co F,
      mieCoefficients idealD1 exactBackends lossyDemo "torch" "recurrence" (some ((n + 1 : ℕ) : ℤ)) true = .ok o ∧
      o.internal = some co ∧ nearfieldsTorch exactBessel exactBessel exactBessel exactBessel 1 o.k (csqrt o.epsC) (csqrt o.epsS)
        o.nEnv o.rC o.rS 1 co ⟨0, 0, 1 / 2⟩ eps = .ok F ∧ FieldsNear F (E 0) (H 0) ⟨0, 0, 1 / 2⟩ d := by
  have hinc : strictlyIncreasing lossyDemo.rLayers := ⟨by norm_num, trivial⟩
  obtain ⟨E, H, h1, h2, h3, -⟩ := C76_near_fields_converge lossyDemo_host hinc rfl (by simp [lossyDemo]) lossyDemo_eps.1
    lossyDemo_eps.2 lossyDemo_noCancel 1
  refine ⟨E 0, H 0, h1, fun d hd => ?_⟩
  have hdist : V3.dist ⟨0, 0, 1 / 2⟩ = 1 / 2 := by
    simp only [V3.dist]
    rw [show (0 : ℝ) ^ 2 + 0 ^ 2 + (1 / 2) ^ 2 = (1 / 2) ^ 2 by norm_num, Real.sqrt_sq (by norm_num)]
  have hR : InRegion lossyDemo.rLayers 0 (V3.dist ⟨0, 0, 1 / 2⟩) := by
    rw [hdist]
    exact ⟨by simp, fun i hi => absurd hi (by omega), fun _ => by simp [lossyDemo]; norm_num⟩
  obtain ⟨N, e1, he1, hN⟩ := C76_accuracy h3 h2 (by rw [hdist]; norm_num) hR hd
  refine ⟨N, e1, he1, fun n hn eps h0 hlt => ?_⟩
  have hl := csArgs_ne (layers_ne lossyDemo_host lossyDemo_eps.2)
  obtain ⟨o, h, ho⟩ := mieCoefficients_torch_ok (K := idealD1) (p := lossyDemo) (n := n) rfl rfl (by norm_num) hl true
  have hS : ∀ S, selectBessel exactBackends "torch" "recurrence" = .ok S → ∀ z ∈ csArgs lossyDemo.layers, ExactAt S o.nMax.toNat z := by
    intro S hS z hz
    have ht : "torch".toLower = "torch" := by decide +kernel
    have hw : "recurrence".toLower = "recurrence" := by decide +kernel
    simp only [selectBessel, ht, hw, exactBackends] at hS
    rw [if_neg (by decide), if_pos (by decide)] at hS
    rw [← Except.ok.inj hS]
    exact exactBessel_at (hl z hz)
  obtain ⟨co, F, a1, a2, a3⟩ := hN idealD1 exactBackends "torch" "recurrence" _ o (Or.inl (by decide +kernel)) h
    (by rw [ho]; exact_mod_cast (by omega : N ≤ n + 1)) hS exactBessel exactBessel exactBessel exactBessel
    (fun z hz => ⟨exactBessel_at hz, exactBessel_at hz, exactBessel_at hz, exactBessel_at hz⟩) eps h0 hlt
  exact ⟨o, co, F, h, a1, a2, a3⟩

end MieDiff
