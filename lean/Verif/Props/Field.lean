import Verif.Proofs.Field
import Verif.Props.NearField
import Verif.Props.CoreShell

/-!
# Field properties: vector spherical harmonics, Maxwell's equations, tangential continuity (C47, C14)

The code evaluates the harmonics at `rho = k0 * n * r + 1e-8`; the statements below that speak about derivatives or about
continuity use the shift `epsilon = 0`.
-/

namespace MieDiff

open Complex Spec

def V3.toS (v : V3 ℂ) : SVec := ⟨v.c0, v.c1, v.c2⟩

/-- The harmonics of order `n` with radial function `f / rho`. -/
noncomputable def vshExact (n : ℕ) (theta phi : ℝ) (rho : ℂ) (f : ℂ → ℂ) : VSH :=
  vshOrder n theta phi rho (angPi n (Real.cos theta) : ℝ) (angTau n theta : ℝ) (f rho / rho) (deriv f rho / rho)

/-- Radial functions of `vsh_pena`: `psi` for kind 1, `zeta` for kind 3. -/
def PenaKind (kind : ℤ) (f : ℕ → ℂ → ℂ) : Prop := kind = 1 ∧ f = ricPsi ∨ kind = 3 ∧ f = ricZeta

theorem kernels_ideal {n : ℕ} {z : ℂ} (h : KernelOK n z solverEps) :
    kernels idealD1 n z = .ok (tab n (fun k => logD1 k z), tab n (fun k => logD3 k z), tab n (fun k => ricPsi k z),
      tab n (fun k => ricZeta k z)) := by
  rw [kernels_eq (idealD1_fun n)]
  have h3 : tab n (d3Fn idealFn z) = tab n (fun k => logD3 k z) := tab_congr fun k hk => d3Fn_ideal h hk
  have h4 : tab n (psiFn idealFn z) = tab n (fun k => ricPsi k z) := tab_congr fun k hk => psiFn_ideal h k hk
  have h5 : tab n (zetaFn idealFn z) = tab n (fun k => ricZeta k z) := tab_congr fun k hk => zetaFn_ideal h k hk
  rw [h3, h4, h5]
  rfl

theorem vshPena_exact {n : ℕ} (hn : 1 ≤ n) {k0 m : ℂ} {r theta phi : ℝ} {kind : ℤ} {f : ℕ → ℂ → ℂ} {eps : ℝ}
    (hf : PenaKind kind f) (h : KernelOK n (k0 * m * r + eps) solverEps) :
    vshPena idealD1 n k0 m r theta phi kind eps =
      .ok ((List.range n).map fun (i : ℕ) => vshExact (i + 1) theta phi (k0 * m * r + eps) (f (i + 1))) := by
  unfold vshPena
  simp only [C01_pi_tau n hn, kernels_ideal h, Bind.bind, Except.bind]
  have key : ∀ g : ℕ → ℂ → ℂ, (∀ k ≤ n, g k (k0 * m * r + eps) ≠ 0) → ((List.range n).map fun (i : ℕ) =>
      vshOrder (i + 1) theta phi (k0 * m * r + eps)
        ((((List.range (n + 1)).map (fun k => angPi k (Real.cos theta))).getD (i + 1) 0 : ℝ) : ℂ)
        ((((List.range (n + 1)).map (fun k => angTau k theta)).getD (i + 1) 0 : ℝ) : ℂ)
        ((tab n (fun k => g k (k0 * m * r + eps))).getD (i + 1) 0 / (k0 * m * r + eps))
        ((tab n (fun k => deriv (g k) (k0 * m * r + eps) / g k (k0 * m * r + eps))).getD (i + 1) 0 *
          ((tab n (fun k => g k (k0 * m * r + eps))).getD (i + 1) 0 / (k0 * m * r + eps)))) =
      (List.range n).map fun (i : ℕ) => vshExact (i + 1) theta phi (k0 * m * r + eps) (g (i + 1)) := by
    intro g hg
    refine List.map_congr_left fun i hi => ?_
    have hi : i + 1 ≤ n := List.mem_range.1 hi
    have e1 : ((List.range (n + 1)).map (fun k => angPi k (Real.cos theta))).getD (i + 1) 0 =
      angPi (i + 1) (Real.cos theta) := tab_getD (f := fun k => angPi k (Real.cos theta)) hi 0
    have e2 : ((List.range (n + 1)).map (fun k => angTau k theta)).getD (i + 1) 0 = angTau (i + 1) theta :=
      tab_getD (f := fun k => angTau k theta) hi 0
    rw [e1, e2, tab_getD hi, tab_getD hi]
    unfold vshExact
    congr 1
    have := hg (i + 1) hi
    field_simp
  rcases hf with ⟨rfl, rfl⟩ | ⟨rfl, rfl⟩
  · rw [if_pos rfl]
    exact congrArg _ (key ricPsi h.psi)
  · rw [if_neg (by norm_num), if_pos rfl]
    exact congrArg _ (key ricZeta h.zeta)

theorem vshExact_fields (n : ℕ) (theta phi r : ℝ) (k : ℂ) (f : ℂ → ℂ) :
    (vshExact n theta phi (k * r) f).Mo.toS = mFld .odd n f k r theta phi ∧
    (vshExact n theta phi (k * r) f).Me.toS = mFld .even n f k r theta phi ∧
    (vshExact n theta phi (k * r) f).No.toS = nFld .odd n f (deriv f) k r theta phi ∧
    (vshExact n theta phi (k * r) f).Ne.toS = nFld .even n f (deriv f) k r theta phi := by
  refine ⟨?_, ?_, ?_, ?_⟩ <;>
    simp [vshExact, vshOrder, V3.toS, mFld, nFld, Parity.fn, Parity.fn']

theorem PenaKind.sol {kind : ℤ} {f : ℕ → ℂ → ℂ} (h : PenaKind kind f) (n : ℕ) : RicSol n (f n) (deriv (f n)) := by
  rcases h with ⟨_, rfl⟩ | ⟨_, rfl⟩
  · exact ricPsi_sol n
  · exact ricZeta_sol n

/-- C47 for `vsh_pena` with exact logarithmic derivatives: the returned arrays are the harmonics
`M = curl(r psi)`, `N = curl M / k` of the potential `{sin, cos}(phi) P_n^1(cos theta) z_n(k r)`, and `curl N = k M`. -/
theorem C47_vsh_pena {n i : ℕ} (h1 : 1 ≤ i) (hi : i ≤ n) {k0 m : ℂ} (hk : k0 * m ≠ 0) {kind : ℤ} {z : ℕ → ℂ → ℂ}
    (hkind : kind = 1 ∧ z = sphJ ∨ kind = 3 ∧ z = sphH) :
    ∃ Mo Me No Ne : SField, IsVSH .odd i (z i) (k0 * m) Mo No ∧ IsVSH .even i (z i) (k0 * m) Me Ne ∧
      ∀ r theta phi : ℝ, KernelOK n (k0 * m * r) solverEps →
        ∃ vs v, vshPena idealD1 n k0 m r theta phi kind 0 = .ok vs ∧ vs.length = n ∧ vs[i - 1]? = some v ∧
          v.Mo.toS = Mo r theta phi ∧ v.Me.toS = Me r theta phi ∧ v.No.toS = No r theta phi ∧
          v.Ne.toS = Ne r theta phi := by
  obtain ⟨f, hf, hzf⟩ : ∃ f : ℕ → ℂ → ℂ, PenaKind kind f ∧ ∀ w, w ≠ 0 → z i w = f i w / w := by
    rcases hkind with ⟨rfl, rfl⟩ | ⟨rfl, rfl⟩
    · exact ⟨ricPsi, Or.inl ⟨rfl, rfl⟩, fun w hw => by unfold ricPsi; field_simp⟩
    · exact ⟨ricZeta, Or.inr ⟨rfl, rfl⟩, fun w hw => by unfold ricZeta; field_simp⟩
  refine ⟨_, _, _, _, isVSH hzf (hf.sol i) hk, isVSH hzf (hf.sol i) hk, ?_⟩
  intro r theta phi h
  have h0 : k0 * m * r + ((0 : ℝ) : ℂ) = k0 * m * r := by simp
  have e := vshPena_exact (theta := theta) (phi := phi) (h1.trans hi) hf (eps := 0) (by rw [h0]; exact h)
  rw [h0] at e
  refine ⟨_, vshExact i theta phi (k0 * m * r) (f i), e, by simp, ?_, vshExact_fields i theta phi r (k0 * m) (f i)⟩
  obtain ⟨j, rfl⟩ : ∃ j, i = j + 1 := ⟨i - 1, by omega⟩
  have hj : j < n := hi
  simp [hj]

/-- Radial functions of `vsh`.  Kind 2 uses `chi = -rho y`, so its harmonics carry `-y_n` (the documentation says
`y_n`; the near-field formulas subtract them). -/
def VshKind (kind : ℤ) (f : ℕ → ℂ → ℂ) : Prop := kind = 1 ∧ f = ricPsi ∨ kind = 2 ∧ f = ricChi ∨ kind = 3 ∧ f = ricZeta

theorem ricChi_sol (n : ℕ) : RicSol n (ricChi n) (deriv (ricChi n)) := by
  have e : ricChi n = fun w => -(w * sphY n w) := by funext w; unfold ricChi; ring
  have hd : ∀ w, w ≠ 0 → HasDerivAt (ricChi n) (-(((n : ℂ) + 1) / w * (w * sphY n w) - w * sphY (n + 1) w)) w := by
    intro w hw
    rw [e]
    exact ((sphY_seq.ricSol n).d1 w hw).neg
  refine ⟨fun w hw => (hd w hw).differentiableAt.hasDerivAt, fun w hw => ?_⟩
  have h := ((sphY_seq.ricSol n).d2 w hw).neg
  refine (h.congr_deriv ?_).congr_of_eventuallyEq ?_
  · rw [e]; ring
  · filter_upwards [isOpen_ne.mem_nhds hw] with v hv
    exact (hd v hv).deriv

theorem VshKind.sol {kind : ℤ} {f : ℕ → ℂ → ℂ} (h : VshKind kind f) (n : ℕ) : RicSol n (f n) (deriv (f n)) := by
  rcases h with ⟨_, rfl⟩ | ⟨_, rfl⟩ | ⟨_, rfl⟩
  · exact ricPsi_sol n
  · exact ricChi_sol n
  · exact ricZeta_sol n

theorem vsh_exact {n : ℕ} (hn : 1 ≤ n) {k0 m : ℂ} {r theta phi : ℝ} {kind : ℤ} {f : ℕ → ℂ → ℂ} {eps : ℝ}
    (hf : VshKind kind f) (h : k0 * m * r + eps ≠ 0) :
    vsh exactBessel n k0 m r theta phi kind eps =
      .ok ((List.range n).map fun (i : ℕ) => vshExact (i + 1) theta phi (k0 * m * r + eps) (f (i + 1))) := by
  obtain ⟨j, rfl⟩ : ∃ j, n = j + 1 := ⟨n - 1, by omega⟩
  set z : ℂ := k0 * m * r + eps with hz
  obtain ⟨⟨p1, q1, e1, _, _, v1⟩, ⟨p3, q3, e3, _, _, v3⟩, ⟨p2, q2, e2, _, _, v2⟩⟩ :=
    C21_riccati j z h (tab (j + 1) fun k => sphJ k z) (tab (j + 1) fun k => sphY k z) (by simp)
      (fun k hk => by rw [tab_getElem?, if_pos hk]) (by simp) (fun k hk => by rw [tab_getElem?, if_pos hk])
  have key : ∀ (g : ℕ → ℂ → ℂ) (ps qs : List ℂ),
      (∀ k ≤ j + 1, ps[k]? = some (g k z) ∧ ∃ d, qs[k]? = some d ∧ HasDerivAt (g k) d z) →
      ((List.range (j + 1)).map fun (i : ℕ) => vshOrder (i + 1) theta phi z
        ((((List.range (j + 1 + 1)).map (fun k => angPi k (Real.cos theta))).getD (i + 1) 0 : ℝ) : ℂ)
        ((((List.range (j + 1 + 1)).map (fun k => angTau k theta)).getD (i + 1) 0 : ℝ) : ℂ)
        (ps.getD (i + 1) 0 / z) (qs.getD (i + 1) 0 / z)) =
      (List.range (j + 1)).map fun (i : ℕ) => vshExact (i + 1) theta phi z (g (i + 1)) := by
    intro g ps qs hg
    refine List.map_congr_left fun i hi => ?_
    have hi : i + 1 ≤ j + 1 := List.mem_range.1 hi
    have t1 : ((List.range (j + 1 + 1)).map (fun k => angPi k (Real.cos theta))).getD (i + 1) 0 =
      angPi (i + 1) (Real.cos theta) := tab_getD (f := fun k => angPi k (Real.cos theta)) hi 0
    have t2 : ((List.range (j + 1 + 1)).map (fun k => angTau k theta)).getD (i + 1) 0 = angTau (i + 1) theta :=
      tab_getD (f := fun k => angTau k theta) hi 0
    obtain ⟨a, d, b, c⟩ := hg (i + 1) hi
    rw [t1, t2, List.getD_eq_getElem?_getD, List.getD_eq_getElem?_getD, a, b, Option.getD_some, Option.getD_some, ← c.deriv]
    rfl
  have hpt := C01_pi_tau (j + 1) hn theta
  unfold vsh vshWith
  rcases hf with ⟨rfl, rfl⟩ | ⟨rfl, rfl⟩ | ⟨rfl, rfl⟩
  · simp only [hpt, Bind.bind, Except.bind, if_true, exactBessel, Int.toNat_natCast, ← hz, e1]
    exact congrArg _ (key ricPsi p1 q1 v1)
  · simp only [hpt, Bind.bind, Except.bind, if_true, exactBessel, Int.toNat_natCast, ← hz, e2,
      show ((2 : ℤ) = 1) = False by decide, if_false]
    exact congrArg _ (key ricChi p2 q2 v2)
  · simp only [hpt, Bind.bind, Except.bind, if_true, exactBessel, Int.toNat_natCast, ← hz, e3,
      show ((3 : ℤ) = 1) = False by decide, show ((3 : ℤ) = 2) = False by decide, if_false]
    exact congrArg _ (key ricZeta p3 q3 v3)

/-- C47 for `vsh` with exact Bessel functions. -/
theorem C47_vsh {n i : ℕ} (h1 : 1 ≤ i) (hi : i ≤ n) {k0 m : ℂ} (hk : k0 * m ≠ 0) {kind : ℤ} {z : ℕ → ℂ → ℂ}
    (hkind : kind = 1 ∧ z = sphJ ∨ kind = 2 ∧ (z = fun n w => -sphY n w) ∨ kind = 3 ∧ z = sphH) :
    ∃ Mo Me No Ne : SField, IsVSH .odd i (z i) (k0 * m) Mo No ∧ IsVSH .even i (z i) (k0 * m) Me Ne ∧
      ∀ r theta phi : ℝ, r ≠ 0 →
        ∃ vs v, vsh exactBessel n k0 m r theta phi kind 0 = .ok vs ∧ vs.length = n ∧ vs[i - 1]? = some v ∧
          v.Mo.toS = Mo r theta phi ∧ v.Me.toS = Me r theta phi ∧ v.No.toS = No r theta phi ∧
          v.Ne.toS = Ne r theta phi := by
  obtain ⟨f, hf, hzf⟩ : ∃ f : ℕ → ℂ → ℂ, VshKind kind f ∧ ∀ w, w ≠ 0 → z i w = f i w / w := by
    rcases hkind with ⟨rfl, rfl⟩ | ⟨rfl, rfl⟩ | ⟨rfl, rfl⟩
    · exact ⟨ricPsi, Or.inl ⟨rfl, rfl⟩, fun w hw => by unfold ricPsi; field_simp⟩
    · exact ⟨ricChi, Or.inr (Or.inl ⟨rfl, rfl⟩), fun w hw => by unfold ricChi; field_simp⟩
    · exact ⟨ricZeta, Or.inr (Or.inr ⟨rfl, rfl⟩), fun w hw => by unfold ricZeta; field_simp⟩
  refine ⟨_, _, _, _, isVSH hzf (hf.sol i) hk, isVSH hzf (hf.sol i) hk, ?_⟩
  intro r theta phi h
  have h0 : k0 * m * r + ((0 : ℝ) : ℂ) = k0 * m * r := by simp
  have e := vsh_exact (theta := theta) (phi := phi) (h1.trans hi) hf (eps := 0) (k0 := k0) (m := m) (r := r)
    (by rw [h0]; exact mul_ne_zero hk (by exact_mod_cast h))
  rw [h0] at e
  refine ⟨_, vshExact i theta phi (k0 * m * r) (f i), e, by simp, ?_, vshExact_fields i theta phi r (k0 * m) (f i)⟩
  obtain ⟨j, rfl⟩ : ∃ j, i = j + 1 := ⟨i - 1, by omega⟩
  have hj : j < n := hi
  simp [hj]

/-- The hypotheses of C47 hold at a concrete point. -/
example : ((1 : ℂ) * 1 ≠ 0) ∧ KernelOK 1 ((1 : ℂ) * 1 * (qp : ℝ)) solverEps := by
  refine ⟨by norm_num, ?_⟩
  simpa using qp_odd.kernelOK

/-! ### Maxwell's equations -/

/-- Field of one order built from the harmonics as in `nearfields`. -/
noncomputable def eFld (En a b c d k : ℂ) (i : ℕ) : SField := fun r t p =>
  (((((mFld .odd i (ricPsi i) k r t p).smul c).add ((nFld .even i (ricPsi i) (deriv (ricPsi i)) k r t p).smul (-(I * d)))).add
    ((nFld .even i (ricZeta i) (deriv (ricZeta i)) k r t p).smul (I * a))).add
    ((mFld .odd i (ricZeta i) k r t p).smul (-b))).smul En

noncomputable def hFld (En a b c d k m : ℂ) (i : ℕ) : SField := fun r t p =>
  (((((mFld .even i (ricPsi i) k r t p).smul d).add ((nFld .odd i (ricPsi i) (deriv (ricPsi i)) k r t p).smul (I * c))).add
    ((nFld .odd i (ricZeta i) (deriv (ricZeta i)) k r t p).smul (-(I * b)))).add
    ((mFld .even i (ricZeta i) k r t p).smul (-a))).smul (-m * En)

theorem HasCurlAt.congr {F : SField} {C D : SVec} {r t p : ℝ} (h : HasCurlAt F C r t p) (e : C = D) :
    HasCurlAt F D r t p := e ▸ h

theorem fld_maxwell {En a b c d k0 m : ℂ} (hk : k0 * m ≠ 0) (i : ℕ) {r t p : ℝ} (hr : 0 < r) (ht : Real.sin t ≠ 0) :
    MaxwellAt k0 m (eFld En a b c d (k0 * m) i) (hFld En a b c d (k0 * m) m i) r t p := by
  have M1 : ∀ q, HasCurlAt (mFld q i (ricPsi i) (k0 * m)) _ r t p := fun q => mFld_curl (ricPsi_sol i) hk hr ht
  have N1 : ∀ q, HasCurlAt (nFld q i (ricPsi i) (deriv (ricPsi i)) (k0 * m)) _ r t p :=
    fun q => nFld_curl (ricPsi_sol i) hk hr ht
  have M3 : ∀ q, HasCurlAt (mFld q i (ricZeta i) (k0 * m)) _ r t p := fun q => mFld_curl (ricZeta_sol i) hk hr ht
  have N3 : ∀ q, HasCurlAt (nFld q i (ricZeta i) (deriv (ricZeta i)) (k0 * m)) _ r t p :=
    fun q => nFld_curl (ricZeta_sol i) hk hr ht
  have hI : I * I = -1 := I_mul_I
  constructor
  · refine HasCurlAt.congr ((((((M1 .odd).smul c).add ((N1 .even).smul (-(I * d)))).add ((N3 .even).smul (I * a))).add
      ((M3 .odd).smul (-b))).smul En) ?_
    simp only [hFld, SVec.smul, SVec.add, SVec.mk.injEq]
    refine ⟨?_, ?_, ?_⟩
    · linear_combination (-k0 * m * En * (c * (nFld .odd i (ricPsi i) (deriv (ricPsi i)) (k0 * m) r t p).r -
        b * (nFld .odd i (ricZeta i) (deriv (ricZeta i)) (k0 * m) r t p).r)) * -hI
    · linear_combination (-k0 * m * En * (c * (nFld .odd i (ricPsi i) (deriv (ricPsi i)) (k0 * m) r t p).t -
        b * (nFld .odd i (ricZeta i) (deriv (ricZeta i)) (k0 * m) r t p).t)) * -hI
    · linear_combination (-k0 * m * En * (c * (nFld .odd i (ricPsi i) (deriv (ricPsi i)) (k0 * m) r t p).p -
        b * (nFld .odd i (ricZeta i) (deriv (ricZeta i)) (k0 * m) r t p).p)) * -hI
  · refine HasCurlAt.congr ((((((M1 .even).smul d).add ((N1 .odd).smul (I * c))).add ((N3 .odd).smul (-(I * b)))).add
      ((M3 .even).smul (-a))).smul (-m * En)) ?_
    simp only [eFld, SVec.smul, SVec.add, SVec.mk.injEq]
    refine ⟨?_, ?_, ?_⟩
    · linear_combination (k0 * m ^ 2 * En * (d * (nFld .even i (ricPsi i) (deriv (ricPsi i)) (k0 * m) r t p).r -
        a * (nFld .even i (ricZeta i) (deriv (ricZeta i)) (k0 * m) r t p).r)) * -hI
    · linear_combination (k0 * m ^ 2 * En * (d * (nFld .even i (ricPsi i) (deriv (ricPsi i)) (k0 * m) r t p).t -
        a * (nFld .even i (ricZeta i) (deriv (ricZeta i)) (k0 * m) r t p).t)) * -hI
    · linear_combination (k0 * m ^ 2 * En * (d * (nFld .even i (ricPsi i) (deriv (ricPsi i)) (k0 * m) r t p).p -
        a * (nFld .even i (ricZeta i) (deriv (ricZeta i)) (k0 * m) r t p).p)) * -hI

theorem toS_add (u v : V3 ℂ) : (u.add v).toS = u.toS.add v.toS := rfl

theorem toS_smul (c : ℂ) (v : V3 ℂ) : (v.smul c).toS = v.toS.smul c := rfl

/-- The waves that `nearfields` keeps in a region: outside only the outgoing ones. -/
noncomputable def keepC (isOut : Bool) (c : ℂ) : ℂ := if isOut then 0 else c

/-- The per-order fields of a region with exact logarithmic derivatives. -/
theorem regionField_exact {n : ℕ} (hn : 1 ≤ n) {k0 m : ℂ} {r theta phi : ℝ} (E0 : ℂ) (isOut : Bool) (rc : RegionCoefs)
    (h : KernelOK n (k0 * m * r) solverEps) :
    ∃ es hs, regionField idealD1 n k0 m r theta phi E0 isOut rc 0 = .ok (es, hs) ∧ es.length = n ∧ hs.length = n ∧
      ∀ i, 1 ≤ i → i ≤ n → ∃ e g, es[i - 1]? = some e ∧ hs[i - 1]? = some g ∧
        e.toS = eFld (EnCoef E0 i) (rc.a.getD i 0) (rc.b.getD i 0) (keepC isOut (rc.c.getD i 0))
          (keepC isOut (rc.d.getD i 0)) (k0 * m) i r theta phi ∧
        g.toS = hFld (EnCoef E0 i) (rc.a.getD i 0) (rc.b.getD i 0) (keepC isOut (rc.c.getD i 0))
          (keepC isOut (rc.d.getD i 0)) (k0 * m) m i r theta phi := by
  have h0 : k0 * m * r + ((0 : ℝ) : ℂ) = k0 * m * r := by simp
  have h' : KernelOK n (k0 * m * r + ((0 : ℝ) : ℂ)) solverEps := by rw [h0]; exact h
  have e1 := vshPena_exact (theta := theta) (phi := phi) hn (kind := 1) (Or.inl ⟨rfl, rfl⟩) h'
  have e3 := vshPena_exact (theta := theta) (phi := phi) hn (kind := 3) (Or.inr ⟨rfl, rfl⟩) h'
  rw [h0] at e1 e3
  unfold regionField
  simp only [e1, e3, Bind.bind, Except.bind]
  refine ⟨_, _, rfl, by simp, by simp, ?_⟩
  intro i h1 hi
  obtain ⟨j, rfl⟩ : ∃ j, i = j + 1 := ⟨i - 1, by omega⟩
  have hj : j < n := hi
  obtain ⟨a1, a2, a3, a4⟩ := vshExact_fields (j + 1) theta phi r (k0 * m) (ricPsi (j + 1))
  obtain ⟨b1, b2, b3, b4⟩ := vshExact_fields (j + 1) theta phi r (k0 * m) (ricZeta (j + 1))
  simp only [Nat.add_sub_cancel, List.getElem?_map, List.getElem?_range hj, Option.map_some, List.getD_eq_getElem?_getD,
    Option.getD_some]
  refine ⟨_, _, rfl, rfl, ?_⟩
  cases isOut
  · simp only [Bool.false_eq_true, if_false, inField, toS_add, toS_smul, a1, a2, a3, a4, b1, b2, b3, b4, keepC]
    exact ⟨rfl, rfl⟩
  · simp only [if_true, outField, toS_add, toS_smul, b1, b2, b3, b4, keepC, eFld, hFld, SVec.add, SVec.smul,
      SVec.mk.injEq]
    refine ⟨⟨?_, ?_, ?_⟩, ?_, ?_, ?_⟩ <;> ring

/-- C47: in every region the field of every order that `nearfields` sums satisfies Maxwell's equations of that
region's medium.  There are smooth fields `E`, `H` solving them everywhere off the axis and origin whose values are the
entries of the code at every point where the guards are inactive. -/
theorem C47_maxwell {n i : ℕ} (h1 : 1 ≤ i) (hi : i ≤ n) {k0 m : ℂ} (hk : k0 * m ≠ 0) (E0 : ℂ) (isOut : Bool)
    (rc : RegionCoefs) :
    ∃ E H : SField, (∀ r t p, 0 < r → Real.sin t ≠ 0 → MaxwellAt k0 m E H r t p) ∧
      ∀ r theta phi : ℝ, KernelOK n (k0 * m * r) solverEps →
        ∃ es hs e g, regionField idealD1 n k0 m r theta phi E0 isOut rc 0 = .ok (es, hs) ∧
          es[i - 1]? = some e ∧ hs[i - 1]? = some g ∧ e.toS = E r theta phi ∧ g.toS = H r theta phi := by
  refine ⟨eFld (EnCoef E0 i) (rc.a.getD i 0) (rc.b.getD i 0) (keepC isOut (rc.c.getD i 0))
      (keepC isOut (rc.d.getD i 0)) (k0 * m) i, hFld (EnCoef E0 i) (rc.a.getD i 0) (rc.b.getD i 0)
      (keepC isOut (rc.c.getD i 0)) (keepC isOut (rc.d.getD i 0)) (k0 * m) m i,
    fun r t p hr ht => fld_maxwell hk i hr ht, fun r theta phi h => ?_⟩
  obtain ⟨es, hs, e, _, _, hv⟩ := regionField_exact (theta := theta) (phi := phi) (h1.trans hi) E0 isOut rc h
  obtain ⟨x, y, hx, hy, vx, vy⟩ := hv i h1 hi
  exact ⟨es, hs, x, y, e, hx, hy, vx, vy⟩

/-! ## Tangential continuity of the computed fields (C14) -/

theorem eFld_tang (En k0 m ne : ℂ) (rel : ℂ) (hm : m = rel * ne) (hrel : rel ≠ 0) (i : ℕ) (a b c d : ℂ)
    {r : ℝ} (hr : r ≠ 0) (t p : ℝ) :
    SVec.tang (eFld En a b c d (k0 * m) i r t p) =
      (En / (k0 * ne * r) * (Real.cos p * angPi i (Real.cos t) * ((⟨c, b⟩ : Wave).val i (rel * (k0 * ne * r)) / rel) -
          I * (Real.cos p * angTau i t * ((⟨d, a⟩ : Wave).der i (rel * (k0 * ne * r)) / rel))),
        En / (k0 * ne * r) * (-(Real.sin p * angTau i t * ((⟨c, b⟩ : Wave).val i (rel * (k0 * ne * r)) / rel)) +
          I * (Real.sin p * angPi i (Real.cos t) * ((⟨d, a⟩ : Wave).der i (rel * (k0 * ne * r)) / rel)))) := by
  have hrc : (r : ℂ) ≠ 0 := by exact_mod_cast hr
  have e : k0 * m * r = rel * (k0 * ne * r) := by rw [hm]; ring
  simp only [SVec.tang, eFld, SVec.add, SVec.smul, mFld, nFld, e, Parity.fn, Parity.fn', Wave.val, Wave.der, Prod.mk.injEq]
  push_cast
  constructor <;> (field_simp; ring)

theorem hFld_tang (En k0 m ne : ℂ) (rel : ℂ) (hm : m = rel * ne) (hne : k0 * ne ≠ 0) (hrel : rel ≠ 0) (i : ℕ) (a b c d : ℂ)
    {r : ℝ} (hr : r ≠ 0) (t p : ℝ) :
    SVec.tang (hFld En a b c d (k0 * m) m i r t p) =
      (-(ne * En) / (k0 * ne * r) * (-(Real.sin p * angPi i (Real.cos t) * (⟨d, a⟩ : Wave).val i (rel * (k0 * ne * r))) +
          I * (Real.sin p * angTau i t * (⟨c, b⟩ : Wave).der i (rel * (k0 * ne * r)))),
        -(ne * En) / (k0 * ne * r) * (-(Real.cos p * angTau i t * (⟨d, a⟩ : Wave).val i (rel * (k0 * ne * r))) +
          I * (Real.cos p * angPi i (Real.cos t) * (⟨c, b⟩ : Wave).der i (rel * (k0 * ne * r))))) := by
  have hrc : (r : ℂ) ≠ 0 := by exact_mod_cast hr
  have e : k0 * m * r = rel * (k0 * ne * r) := by rw [hm]; ring
  have hne' : ne ≠ 0 := right_ne_zero_of_mul hne
  have hk0 : k0 ≠ 0 := left_ne_zero_of_mul hne
  simp only [SVec.tang, hFld, SVec.add, SVec.smul, mFld, nFld, e, Parity.fn, Parity.fn', Wave.val, Wave.der, Prod.mk.injEq]
  rw [hm]
  push_cast
  constructor <;> (field_simp; ring)

theorem tang_of_cont {En k0 m m' ne rel rel' : ℂ} (hm : m = rel * ne) (hm' : m' = rel' * ne) (hne : k0 * ne ≠ 0)
    (hrel : rel ≠ 0) (hrel' : rel' ≠ 0) {i : ℕ} {a b c d a' b' c' d' : ℂ} {r : ℝ} (hr : r ≠ 0)
    (htm : Cont .tm i rel rel' (k0 * ne * r) ⟨d, a⟩ ⟨d', a'⟩) (hte : Cont .te i rel rel' (k0 * ne * r) ⟨c, b⟩ ⟨c', b'⟩)
    (t p : ℝ) :
    SVec.tang (eFld En a b c d (k0 * m) i r t p) = SVec.tang (eFld En a' b' c' d' (k0 * m') i r t p) ∧
    SVec.tang (hFld En a b c d (k0 * m) m i r t p) = SVec.tang (hFld En a' b' c' d' (k0 * m') m' i r t p) := by
  have e1 : (⟨d, a⟩ : Wave).der i (rel * (k0 * ne * r)) / rel = (⟨d', a'⟩ : Wave).der i (rel' * (k0 * ne * r)) / rel' := by
    rw [div_eq_div_iff hrel hrel']; exact htm.2
  have e2 : (⟨c, b⟩ : Wave).val i (rel * (k0 * ne * r)) / rel = (⟨c', b'⟩ : Wave).val i (rel' * (k0 * ne * r)) / rel' := by
    rw [div_eq_div_iff hrel hrel']; exact hte.1
  rw [eFld_tang En k0 m ne rel hm hrel i a b c d hr, eFld_tang En k0 m' ne rel' hm' hrel' i a' b' c' d' hr,
    hFld_tang En k0 m ne rel hm hne hrel i a b c d hr, hFld_tang En k0 m' ne rel' hm' hne hrel' i a' b' c' d' hr,
    e1, e2, htm.1, hte.2]
  exact ⟨rfl, rfl⟩

/-- The multipole of order `i` of the incident plane wave (Bohren & Huffman Eq. 4.37):
`E_n (M_o1n - i N_e1n)` and `-m E_n (M_e1n + i N_o1n)`. -/
noncomputable def incidentMultipole (E0 k0 m : ℂ) (i : ℕ) : SField × SField :=
  (eFld (EnCoef E0 i) 0 0 1 1 (k0 * m) i, hFld (EnCoef E0 i) 0 0 1 1 (k0 * m) m i)

/-- Medium index of region `j`, the host last. -/
noncomputable def Particle1.media (p : Particle1) : List ℂ := p.epsLayers.map csqrt ++ [csqrt p.epsEnv]

theorem eFld_split (En a b c d k : ℂ) (i : ℕ) (r t p : ℝ) :
    eFld En a b c d k i r t p = (eFld En a b 0 0 k i r t p).add (eFld En 0 0 c d k i r t p) := by
  simp only [eFld, SVec.add, SVec.smul, SVec.mk.injEq]
  refine ⟨?_, ?_, ?_⟩ <;> ring

theorem hFld_split (En a b c d k m : ℂ) (i : ℕ) (r t p : ℝ) :
    hFld En a b c d k m i r t p = (hFld En a b 0 0 k m i r t p).add (hFld En 0 0 c d k m i r t p) := by
  simp only [hFld, SVec.add, SVec.smul, SVec.mk.injEq]
  refine ⟨?_, ?_, ?_⟩ <;> ring

theorem media_indices {p : Particle1} (hlen : p.epsLayers.length = p.rLayers.length) (hne : csqrt p.epsEnv ≠ 0) {j : ℕ}
    (hj : j ≤ p.rLayers.length) : p.media.getD j 0 = p.indices.getD j 0 * csqrt p.epsEnv := by
  have hl : p.layers.map Prod.fst = p.epsLayers.map fun e => csqrt e / csqrt p.epsEnv := by
    unfold Particle1.layers layersOf
    rw [List.map_fst_zip]
    simp [hlen]
  unfold Particle1.media Particle1.indices
  rw [hl, List.getD_eq_getElem?_getD, List.getD_eq_getElem?_getD]
  rcases Nat.lt_or_ge j p.epsLayers.length with h | h
  · rw [List.getElem?_append_left (by simpa using h), List.getElem?_append_left (by simpa using h)]
    simp [h, hne]
  · obtain rfl : j = p.epsLayers.length := by omega
    rw [List.getElem?_append_right (by simp), List.getElem?_append_right (by simp)]
    simp

/-- C14 on the level of fields: at every interface, order and direction, the tangential electric and magnetic
fields computed on the two sides agree; outside, the field is the scattered part that the code computes plus the
multipole of the incident plane wave. -/
theorem C14_tangential_fields {B : Backends} {p : Particle1} {backend w : String} {nMax : Option ℤ}
    {ri : Bool} {o : MieOut} (hb : backend.toLower = "pena")
    (h : mieCoefficients idealD1 B p backend w nMax ri = .ok o)
    (hc : SolverClear idealFn o.nMax.toNat p.layers)
    (hbd : ∀ l ∈ p.layers, ∀ i, 1 ≤ i → i ≤ o.nMax.toNat →
      ‖ricPsi i (l.1 * l.2)‖ ≤ 1e30 ∧ ‖ricZeta i (l.1 * l.2)‖ ≤ 1e30) (E0 : ℂ) (t ph : ℝ) :
    ∃ regs, nfRegions idealD1 o.nMax (extCoefs o.a o.b) true p.layers = .ok regs ∧
      ∀ j, j < p.rLayers.length → ∃ r r' es hs es' hs', regs[j]? = some r ∧ regs[j + 1]? = some r' ∧
        regionField idealD1 o.nMax.toNat p.k0 (p.media.getD j 0) (p.rLayers.getD j 0) t ph E0 false r 0 = .ok (es, hs) ∧
        regionField idealD1 o.nMax.toNat p.k0 (p.media.getD (j + 1) 0) (p.rLayers.getD j 0) t ph E0
          (j + 1 == p.rLayers.length) r' 0 = .ok (es', hs') ∧
        ∀ i, 1 ≤ i → i ≤ o.nMax.toNat → ∃ e g e' g', es[i - 1]? = some e ∧ hs[i - 1]? = some g ∧
          es'[i - 1]? = some e' ∧ hs'[i - 1]? = some g' ∧
          (j + 1 < p.rLayers.length → e.toS.tang = e'.toS.tang ∧ g.toS.tang = g'.toS.tang) ∧
          (j + 1 = p.rLayers.length →
            e.toS.tang = (e'.toS.add ((incidentMultipole E0 p.k0 (csqrt p.epsEnv) i).1 (p.rLayers.getD j 0) t ph)).tang ∧
            g.toS.tang = (g'.toS.add ((incidentMultipole E0 p.k0 (csqrt p.epsEnv) i).2 (p.rLayers.getD j 0) t ph)).tang) := by
  have run := mieCoefficients_pena_inv hb h
  have hn1 : 1 ≤ o.nMax.toNat := by have := run.pos; omega
  obtain ⟨regs, hregs, hlen, hcont, _, hhost⟩ := C14_region_coefficients hb h hc hbd true
  refine ⟨regs, hregs, fun j hj => ?_⟩
  have hll : p.layers.length = p.rLayers.length := by simp [Particle1.layers, layersOf, run.len]
  have hok := nfok_drop _ j (nfok_of_clear hn1 hc hbd)
  have hj' : j < p.layers.length := by omega
  rw [List.drop_eq_getElem_cons hj'] at hok
  have hi := hok.1
  have hx : (p.layers[j]).2 = p.k0 * csqrt p.epsEnv * (p.rLayers.getD j 0 : ℝ) := by
    rw [List.getD_eq_getElem?_getD, List.getElem?_eq_getElem hj]
    simp [Particle1.layers, layersOf]
  have hr0 : regs[j]? = some (regs[j]'(by omega)) := List.getElem?_eq_getElem _
  have hr1 : regs[j + 1]? = some (regs[j + 1]'(by omega)) := List.getElem?_eq_getElem _
  have m0 : p.indices.getD j 0 = (p.layers[j]).1 := by
    unfold Particle1.indices
    rw [indices_drop _ _ hj'.le, List.drop_eq_getElem_cons hj']; rfl
  have m1 : p.indices.getD (j + 1) 0 = nextIndex (p.layers.drop (j + 1)) := indices_drop _ _ hj'
  have hz := hi.inner.ne
  have hz' := hi.outer.ne
  rw [hx] at hz hz'
  have hxne := right_ne_zero_of_mul hz
  have hkn : p.k0 * csqrt p.epsEnv ≠ 0 := left_ne_zero_of_mul hxne
  have hne : csqrt p.epsEnv ≠ 0 := right_ne_zero_of_mul hkn
  have hrne : p.rLayers.getD j 0 ≠ 0 := by
    have := right_ne_zero_of_mul hxne
    exact_mod_cast this
  have e0 := media_indices run.len hne hj.le
  have e1 := media_indices run.len hne (show j + 1 ≤ p.rLayers.length from hj)
  have k0ok : KernelOK o.nMax.toNat (p.k0 * p.media.getD j 0 * (p.rLayers.getD j 0 : ℝ)) solverEps := by
    have := hi.inner
    rw [hx] at this
    rw [e0, m0]
    convert this using 1
    ring
  have k1ok : KernelOK o.nMax.toNat (p.k0 * p.media.getD (j + 1) 0 * (p.rLayers.getD j 0 : ℝ)) solverEps := by
    have := hi.outer
    rw [hx] at this
    rw [e1, m1]
    convert this using 1
    ring
  obtain ⟨es, hs, f0, _, _, v0⟩ := regionField_exact (theta := t) (phi := ph) hn1 E0 false (regs[j]'(by omega)) k0ok
  obtain ⟨es', hs', f1, _, _, v1⟩ := regionField_exact (theta := t) (phi := ph) hn1 E0 (j + 1 == p.rLayers.length)
    (regs[j + 1]'(by omega)) k1ok
  refine ⟨_, _, es, hs, es', hs', hr0, hr1, f0, f1, fun i h1 hin => ?_⟩
  obtain ⟨e, g, he, hg, ve, vg⟩ := v0 i h1 hin
  obtain ⟨e', g', he', hg', ve', vg'⟩ := v1 i h1 hin
  refine ⟨e, g, e', g', he, hg, he', hg', ?_⟩
  obtain ⟨r, r', h3, h4, ctm⟩ := hcont i h1 hin .tm j hj
  obtain ⟨s, s', h5, h6, cte⟩ := hcont i h1 hin .te j hj
  rw [hr0] at h3 h5
  rw [hr1] at h4 h6
  obtain rfl := Option.some.inj h3
  obtain rfl := Option.some.inj h5
  obtain rfl := Option.some.inj h4
  obtain rfl := Option.some.inj h6
  have key := tang_of_cont (En := EnCoef E0 i) e0 e1 hkn (by rw [m0]; exact left_ne_zero_of_mul hi.inner.ne)
    (by rw [m1]; exact left_ne_zero_of_mul hi.outer.ne) hrne (by rw [run.k] at ctm; exact ctm)
    (by rw [run.k] at cte; exact cte) t ph
  constructor
  · intro hlt
    have hf : (j + 1 == p.rLayers.length) = false := by simpa using hlt.ne
    rw [ve, ve', vg, vg', hf]
    exact key
  · intro heq
    have hf : (j + 1 == p.rLayers.length) = true := by simpa using heq
    have hmed : p.media.getD (j + 1) 0 = csqrt p.epsEnv := by
      unfold Particle1.media
      rw [heq, ← run.len, List.getD_eq_getElem?_getD, List.getElem?_append_right (by simp)]
      simp
    obtain ⟨host, hh, w1, w2⟩ := hhost i h1 hin
    rw [← heq, hr1] at hh
    obtain rfl := Option.some.inj hh
    simp only [RegionCoefs.wave, Wave.mk.injEq] at w1 w2
    rw [ve, ve', vg, vg', hf]
    simp only [keepC, if_true, Bool.false_eq_true, if_false] at key ⊢
    unfold incidentMultipole
    rw [hmed] at key ⊢
    rw [w1.1, w2.1] at key
    rw [← eFld_split, ← hFld_split]
    exact key

end MieDiff
