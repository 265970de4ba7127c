import Verif.Model.BackwardAngular
import Verif.Proofs.BackwardExact
import Verif.Props.Angular
import Verif.Props.BackwardShell

/-!
# C82: reverse-mode gradients of `angular_scattering`

`loss.backward()` through the scattering amplitudes and intensities of any backend, also with respect to the scattering angle.
-/

namespace MieDiff

open Complex Spec Filter Topology
open scoped RealInnerProductSpace

variable {V : Type*} [NormedAddCommGroup V] [InnerProductSpace ℝ V] {v0 : V}

namespace Node

variable {mu : Node V} {m : V → ℝ}

theorem piN_exact (h : Exact v0 mu fun v => (m v : ℂ)) : ∀ k, Exact v0 (piN mu k) fun v => ((angPi k (m v) : ℝ) : ℂ)
  | 0 => (Exact.const 0).congr (Eventually.of_forall fun v => by rw [angPi_zero]; simp)
  | 1 => (Exact.const 1).congr (Eventually.of_forall fun v => by rw [angPi_one]; simp)
  | k + 2 => by
    have hk : ((k + 1 : ℕ) : ℂ) ≠ 0 := by exact_mod_cast Nat.succ_ne_zero k
    refine (((((Exact.const _).mul h).mul (piN_exact h (k + 1))).sub ((Exact.const _).mul (piN_exact h k))).div (Exact.const _) hk).congr
      (Eventually.of_forall fun v => ?_)
    rw [angPi_rec k (m v)]
    push_cast
    ring

theorem tauN_exact (h : Exact v0 mu fun v => (m v : ℂ)) : ∀ k, Exact v0 (tauN mu k) fun v => ((tauVal (m v) k : ℝ) : ℂ)
  | 0 => (Exact.const 0).congr (Eventually.of_forall fun v => by simp [tauVal])
  | k + 1 => by
    refine ((((Exact.const _).mul h).mul (piN_exact h (k + 1))).sub ((Exact.const _).mul (piN_exact h k))).congr
      (Eventually.of_forall fun v => ?_)
    rw [tauVal]
    push_cast
    rfl

end Node

/-- What the recorded run of `angular_scattering` has to deliver.  The degree of polarisation is undefined where no light is scattered. -/
structure AngularBackward [CompleteSpace V] (v0 : V) (A : V → Angular) (c : Node.Angular V) : Prop where
  S1_value : c.S1.val = (A v0).S1
  S2_value : c.S2.val = (A v0).S2
  iPer_value : c.iPer.val = (A v0).iPer
  iPar_value : c.iPar.val = (A v0).iPar
  iUnpol_value : c.iUnpol.val = (A v0).iUnpol
  polDegree_value : c.polDegree.val = (A v0).polDegree
  S1_grad : Vjp v0 c.S1.back fun v => (A v).S1
  S2_grad : Vjp v0 c.S2.back fun v => (A v).S2
  iPer_grad : HasGradientAt (fun v => (A v).iPer) (c.iPer.back 1) v0
  iPar_grad : HasGradientAt (fun v => (A v).iPar) (c.iPar.back 1) v0
  iUnpol_grad : HasGradientAt (fun v => (A v).iUnpol) (c.iUnpol.back 1) v0
  polDegree_grad : (A v0).iUnpol ≠ 0 → HasGradientAt (fun v => (A v).polDegree) (c.polDegree.back 1) v0

section Property

variable [CompleteSpace V] {o : V → MieOut} {n : ℕ} {c : ℕ → Node V × Node V} {theta : Node V} {th : V → ℝ} {A : V → Angular}

theorem ampSum_exact {p q : ℕ → Node V} {P Q : ℕ → V → ℝ} (hc : ∀ i, 1 ≤ i → i ≤ n → CoefBackward v0 o i (c i))
    (hp : ∀ i, Node.Exact v0 (p i) fun v => (P i v : ℂ)) (hq : ∀ i, Node.Exact v0 (q i) fun v => (Q i v : ℂ)) :
    Node.Exact v0 (Node.ampSum n (fun i => (c i).1) (fun i => (c i).2) p q) fun v =>
      ((List.range n).map fun (i : ℕ) => (2 * ((i : ℂ) + 1) + 1) / (((i : ℂ) + 1) * ((i : ℂ) + 1 + 1)) *
        ((o v).a.getD i 0 * (P (i + 1) v : ℂ) + (o v).b.getD i 0 * (Q (i + 1) v : ℂ))).sum := by
  refine Node.Exact.sum_map (f := fun (i : ℕ) v => (2 * ((i : ℂ) + 1) + 1) / (((i : ℂ) + 1) * ((i : ℂ) + 1 + 1)) *
        ((o v).a.getD i 0 * (P (i + 1) v : ℂ) + (o v).b.getD i 0 * (Q (i + 1) v : ℂ))) _ fun i hi => ?_
  have hi' := List.mem_range.1 hi
  have b := hc (i + 1) (by omega) (by omega)
  have ea : Node.Exact v0 (c (i + 1)).1 fun v => (o v).a.getD i 0 := ⟨b.a_value, adj_iff.2 b.a_grad⟩
  have eb : Node.Exact v0 (c (i + 1)).2 fun v => (o v).b.getD i 0 := ⟨b.b_value, adj_iff.2 b.b_grad⟩
  exact (Node.Exact.const _).mul ((ea.mul (hp (i + 1))).add (eb.mul (hq (i + 1))))

/-- C82: whatever backend computed the coefficients, if `backward` through them is right then so is `backward` through the amplitudes and
intensities of `angular_scattering`, for every angle, which may depend on the parameters too. -/
theorem C82_angular (hth : Node.Recorded v0 theta fun v => (th v : ℂ)) (hn : 1 ≤ n)
    (hc : ∀ i, 1 ≤ i → i ≤ n → CoefBackward v0 o i (c i)) (hlen : ∀ᶠ v in 𝓝 v0, (o v).a.length = n)
    (hA : ∀ᶠ v in 𝓝 v0, angularScattering (th v) (o v).a (o v).b = .ok (A v)) : AngularBackward v0 A (Node.angularOf n theta c) := by
  have hmu : Node.Exact v0 (Node.cos theta) fun v => ((Real.cos (th v) : ℝ) : ℂ) :=
    hth.exact.cos.congr (Eventually.of_forall fun v => by push_cast; rfl)
  have hp := Node.piN_exact hmu
  have ht := Node.tauN_exact hmu
  have eq : ∀ᶠ v in 𝓝 v0, (A v).S1 = ((List.range n).map fun (i : ℕ) => (2 * ((i : ℂ) + 1) + 1) / (((i : ℂ) + 1) * ((i : ℂ) + 1 + 1)) *
        ((o v).a.getD i 0 * ((angPi (i + 1) (Real.cos (th v)) : ℝ) : ℂ) + (o v).b.getD i 0 * ((tauVal (Real.cos (th v)) (i + 1) : ℝ) : ℂ))).sum ∧
      (A v).S2 = ((List.range n).map fun (i : ℕ) => (2 * ((i : ℂ) + 1) + 1) / (((i : ℂ) + 1) * ((i : ℂ) + 1 + 1)) *
        ((o v).a.getD i 0 * ((tauVal (Real.cos (th v)) (i + 1) : ℝ) : ℂ) + (o v).b.getD i 0 * ((angPi (i + 1) (Real.cos (th v)) : ℝ) : ℂ))).sum ∧
      (A v).iPer = ‖(A v).S1‖ ^ 2 ∧ (A v).iPar = ‖(A v).S2‖ ^ 2 ∧ (A v).iUnpol = (‖(A v).S2‖ ^ 2 + ‖(A v).S1‖ ^ 2) / 2 ∧
      (A v).polDegree = (‖(A v).S1‖ ^ 2 - ‖(A v).S2‖ ^ 2) / (‖(A v).S1‖ ^ 2 + ‖(A v).S2‖ ^ 2) := by
    filter_upwards [hlen, hA] with v hl hv
    rw [angularScattering_eq _ _ _ (by rintro h0; rw [h0] at hl; simp at hl; omega)] at hv
    have hv := Except.ok.inj hv
    subst_vars
    rw [← hv]
    refine ⟨?_, ?_, rfl, rfl, rfl, rfl⟩ <;> simp only [ampFun, sum_range_map, wgt]
  have e1 : Node.Exact v0 (Node.angularOf n theta c).S1 fun v => (A v).S1 := (ampSum_exact hc hp ht).congr (eq.mono fun v hv => hv.1)
  have e2 : Node.Exact v0 (Node.angularOf n theta c).S2 fun v => (A v).S2 := (ampSum_exact hc ht hp).congr (eq.mono fun v hv => hv.2.1)
  have e3 : Node.Exact v0 (Node.angularOf n theta c).iPer fun v => ((A v).iPer : ℂ) :=
    e1.absSq.congr (eq.mono fun v hv => by rw [hv.2.2.1])
  have e4 : Node.Exact v0 (Node.angularOf n theta c).iPar fun v => ((A v).iPar : ℂ) :=
    e2.absSq.congr (eq.mono fun v hv => by rw [hv.2.2.2.1])
  have e5 : Node.Exact v0 (Node.angularOf n theta c).iUnpol fun v => ((A v).iUnpol : ℂ) :=
    ((e4.add e3).div (Node.Exact.const 2) two_ne_zero).congr (eq.mono fun v hv => by
      rw [hv.2.2.2.2.1, hv.2.2.1, hv.2.2.2.1]
      push_cast
      rfl)
  have z := eq.self_of_nhds
  have v6 : (Node.angularOf n theta c).polDegree.val = ((A v0).polDegree : ℂ) := by
    change ((Node.angularOf n theta c).iPer.val - (Node.angularOf n theta c).iPar.val) /
      ((Node.angularOf n theta c).iPer.val + (Node.angularOf n theta c).iPar.val) = _
    rw [e3.val, e4.val, z.2.2.2.2.2, z.2.2.1, z.2.2.2.1]
    push_cast
    rfl
  refine ⟨e1.val, e2.val, e3.val, e4.val, e5.val, v6, e1.vjp, e2.vjp, e3.gradient, e4.gradient, e5.gradient, fun h0 => ?_⟩
  have h0' : ((A v0).iPer : ℂ) + ((A v0).iPar : ℂ) ≠ 0 := by
    rw [z.2.2.2.2.1] at h0
    rw [z.2.2.1, z.2.2.2.1]
    intro h1
    refine h0 ?_
    have h1 : ‖(A v0).S1‖ ^ 2 + ‖(A v0).S2‖ ^ 2 = 0 := by exact_mod_cast h1
    rw [add_comm, h1, zero_div]
  refine Node.Exact.gradient (((e3.sub e4).div (e3.add e4) h0').congr (eq.mono fun v hv => ?_))
  rw [hv.2.2.2.2.2, hv.2.2.1, hv.2.2.2.1]
  push_cast
  rfl

omit [InnerProductSpace ℝ V] [CompleteSpace V] in
/-- `angular_scattering` succeeds whenever there is at least one order. -/
theorem angular_runs (hn : 1 ≤ n) (hlen : ∀ᶠ v in 𝓝 v0, (o v).a.length = n) (th : V → ℝ) :
    ∃ A : V → Angular, ∀ᶠ v in 𝓝 v0, angularScattering (th v) (o v).a (o v).b = .ok (A v) := by
  refine ⟨fun v => ((angularScattering (th v) (o v).a (o v).b).toOption.getD ⟨0, 0, 0, 0, 0, 0⟩), hlen.mono fun v hl => ?_⟩
  have e := angularScattering_eq (th v) (o v).a (o v).b (by rintro h0; rw [h0] at hl; simp at hl; omega)
  simp only [e]
  rfl

/-- C82 for the core-shell backends: whenever C81 applies. -/
theorem C82_shell {k : ShellKind} {p : Node.Inputs V} {ri : Bool} (hg : ShellGradients v0 k p n ri o) (hn : 1 ≤ n)
    (hth : Node.Recorded v0 theta fun v => (th v : ℂ)) :
    ∃ A : V → Angular, (∀ᶠ v in 𝓝 v0, angularScattering (th v) (o v).a (o v).b = .ok (A v)) ∧
      AngularBackward v0 A (Node.angularOf n theta fun i => ((Node.shell (k.bess V n) p i).a, (Node.shell (k.bess V n) p i).b)) := by
  have hlen := hg.orders.mono fun v hv => hv.1
  obtain ⟨A, hA⟩ := angular_runs hn hlen th
  exact ⟨A, hA, C82_angular hth hn (fun i h1 hi => hg.coefficients i h1 hi) hlen hA⟩

omit [CompleteSpace V] [InnerProductSpace ℝ V] in
theorem PenaCallAt.length {F : ParticleFam V} {N : ℕ} (h : PenaCallAt F v0 n N o) (hN : 1 ≤ N) : ∀ᶠ v in 𝓝 v0, (o v).a.length = n := by
  obtain ⟨B, backend, w, nMax, ri, hb, hcall⟩ := h.call
  filter_upwards [hcall] with v hv
  obtain ⟨-, ea, -, -⟩ := C78_exact_arithmetic hN hb hv.1 hv.2
  rw [ea]
  simp

/-- C82 for the pena backend, every number of layers: whenever C79 applies. -/
theorem C82_pena {F : ParticleFam V} {p : Node.Inputs V} {N : ℕ} (h : p.Holds v0 F) (hN : 1 ≤ N) (hcall : PenaCallAt F v0 n N o)
    (hc : SolverClear (depthFn n N) n (F.at v0).layers) (hd : ∀ z ∈ kernelArgs (F.at v0).layers, DepthClear (n + N) z) (hn : 1 ≤ n)
    (hth : Node.Recorded v0 theta fun v => (th v : ℂ)) :
    ∃ A : V → Angular, (∀ᶠ v in 𝓝 v0, angularScattering (th v) (o v).a (o v).b = .ok (A v)) ∧
      AngularBackward v0 A (Node.angularOf n theta (Node.mie n N p)) := by
  have hlen := hcall.length hN
  obtain ⟨A, hA⟩ := angular_runs hn hlen th
  exact ⟨A, hA, C82_angular hth hn (fun i h1 hi => C79_coefficients h hN hcall hc hd h1 hi) hlen hA⟩

end Property

/-! ## A sphere and a coated sphere with all parameters free -/

/-- The coated sphere of C81 with every core-shell backend, two orders; the angle is the parameter of the wavenumber plus 1/2. -/
example (k : ShellKind) {backend w : String} (hname : k.Named backend w) (K : D1Kernel) :
    ∃ o : CoatParams → MieOut, (∀ᶠ v in 𝓝 coatPt, mieCoefficients K (codeBackends exactBessel) (coatE.at v) backend w (some 2) true = .ok (o v)) ∧
    ∃ A : CoatParams → Angular, (∀ᶠ v in 𝓝 coatPt, angularScattering (v 0 + 1 / 2) (o v).a (o v).b = .ok (A v)) ∧
      AngularBackward coatPt A (Node.angularOf 2 (Node.add (coatLeaf 0) (Node.const (1 / 2))) fun i =>
        ((Node.shell (k.bess _ 2) coatIn i).a, (Node.shell (k.bess _ 2) coatIn i).b)) := by
  have hinc : strictlyIncreasing (coatE.at coatPt).rLayers := by rw [coat_at]; norm_num [strictlyIncreasing]
  have hz : ∀ z ∈ csArgs (coatE.at coatPt).layers, k.Stable z ∧ 1e-8 < ‖z‖ := fun z hz =>
    ⟨small_stable (by have := (coat_args z hz).1; rintro rfl; norm_num at this) (coat_args z hz).2, (coat_args z hz).1⟩
  obtain ⟨o, h1, h2⟩ := C81_calls_succeed (sp := exactBessel) coat_holds hname (n := 2) (by norm_num) (fun _ z hz => exactBessel_at hz) hinc rfl
    (by simp [coatE]) (by simp [coatE]) hz K true
  have hg : ShellGradients coatPt k coatIn 2 true o := by
    refine C81_small coat_holds h1 coat_lossless fun z hz => ⟨?_, (coat_args z hz).2⟩
    have := (coat_args z hz).1
    norm_num at this ⊢
    linarith
  refine ⟨o, h2, C82_shell hg (by norm_num) ?_⟩
  have t := ((coat_tracks 0).add (Node.Tracks.const (1 / 2))).recorded ⟨trivial, trivial⟩
  convert t using 2
  push_cast
  rfl

/-- The homogeneous sphere of C79 with the pena backend at any sufficiently large recurrence depth. -/
example (B : Backends) : ∃ o : ℕ → Params → MieOut, PenaCalls sphereE spherePt 1 o ∧ ∀ᶠ N in atTop,
    ∃ A : Params → Angular, (∀ᶠ v in 𝓝 spherePt, angularScattering (v 1) (o N v).a (o N v).b = .ok (A v)) ∧
      AngularBackward spherePt A (Node.angularOf 1 (coord 1) (Node.mie 1 N sphereIn)) := by
  have hs : SmoothFam sphereE spherePt := sphere_holds.smooth
  have hi : strictlyIncreasing (sphereE.at spherePt).rLayers := by rw [sphereE_at]; simp [monoParticle, strictlyIncreasing]
  obtain ⟨o, h1, h2⟩ := C77_calls_succeed (n := 1) hs hi (by simp [sphereE]) (by simp [sphereE]) B (le_refl 1)
  have hc : SolverClear idealFn 1 (sphereE.at spherePt).layers := by rw [sphereE_at]; exact mono_clear
  have hd : ∀ z ∈ kernelArgs (sphereE.at spherePt).layers, D1Clear z := by rw [sphereE_at]; exact mono_args
  refine ⟨o, h1, ?_⟩
  obtain ⟨N0, h0⟩ := C78_depth_clear hc hd
  filter_upwards [eventually_ge_atTop N0, eventually_ge_atTop 1] with N hN hN1
  obtain ⟨B, backend, w, nMax, ri, hb, hcall⟩ := h1.call
  exact C82_pena sphere_holds hN1 ⟨B, backend, w, nMax, ri, hb, hcall N hN1⟩ (h0 N hN).1 (h0 N hN).2 le_rfl
    ((coord_tracks 1).recorded trivial)

end MieDiff
