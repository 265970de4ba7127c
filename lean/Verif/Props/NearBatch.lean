import Verif.Props.BatchTorch
import Verif.Props.NearTorch
import Verif.Props.Field

/-!
# C62: near fields of the torch and scipy backends from the user arguments
-/

namespace MieDiff

open Complex Ten Spec

/-! ## The arrays handed to the field code -/

theorem csqrt_re_nonneg (e : ℂ) : 0 ≤ (csqrt e).re := by
  unfold csqrt
  by_cases h : e = 0
  · subst h; simp
  rw [Complex.cpow_def_of_ne_zero h, Complex.exp_re]
  have him : (Complex.log e * (1 / 2)).im = e.arg / 2 := by
    have : Complex.log e * (1 / 2) = Complex.log e * ((1 / 2 : ℝ) : ℂ) := by push_cast; rfl
    rw [this, Complex.im_mul_ofReal, Complex.log_im]; ring
  rw [him]
  have := Complex.neg_pi_lt_arg e
  have := Complex.arg_le_pi e
  exact mul_nonneg (Real.exp_pos _).le (Real.cos_nonneg_of_mem_Icc ⟨by linarith, by linarith⟩)

section
variable {args : LayerArgs} {r : Ten ℝ} {eps : Ten ℂ} {R : Spec.Reading}

theorem torchCoefs_ok {A : BackendsOf ArrFns} {b : Bcast} {backend w : String} {n : ℕ} {o : BatchOut}
    {io : Option (Ten CoreShellOut)} (run : BatchRun A b backend w (some n) true o io) (hw : b.WF) :
    io = some run.out ∧ (torchCoefs o run.out).WF n b.nPart b.nK ∧
    ∀ p k, p < b.nPart → k < b.nK →
      let q := b.particle p k
      (torchCoefs o run.out).k.get [0, k] = q.k0 * csqrt q.epsEnv ∧
      (torchCoefs o run.out).k0.get [0, k] = q.k0 ∧
      (torchCoefs o run.out).nEnv.get [0, k] = csqrt q.epsEnv ∧
      (torchCoefs o run.out).rC.get [p, k] = q.rLayers.headD 0 ∧
      (torchCoefs o run.out).rS.get [p, k] = q.rLayers.getLastD 0 ∧
      (torchCoefs o run.out).nC.get [p, k] = csqrt (q.epsLayers.headD 0) ∧
      (torchCoefs o run.out).nS.get [p, k] = csqrt (q.epsLayers.getLastD 0) ∧
      ∀ j, (torchCoefs o run.out).order j p k = run.out.get [j, p, k] := by
  obtain ⟨c, hc⟩ := run.res
  have hno : o.nMax = n := (Except.ok.inj run.order).symm
  have hs := run.shape
  rw [hno, Int.toNat_natCast] at hs
  have hb : o.b = b := congrArg BatchOut.b hc
  have e1 : o.k = c.k := congrArg BatchOut.k hc
  have e2 : o.rC = c.rC := congrArg BatchOut.rC hc
  have e3 : o.rS = c.rS := congrArg BatchOut.rS hc
  have e4 : o.epsC = c.epsC := congrArg BatchOut.epsC hc
  have e5 : o.epsS = c.epsS := congrArg BatchOut.epsS hc
  have e6 : o.nEnv = b.env.map csqrt := congrArg BatchOut.nEnv hc
  refine ⟨run.int, ⟨?_, ?_, ?_, ?_, ?_, ?_, ?_, ?_, hs, hs, hs, hs, hs, hs, hs, hs⟩, fun p k hp hk => ?_⟩
  · show o.nMax.toNat = n
    rw [hno]; rfl
  · show o.k.shape = _
    rw [e1]; exact c.sk
  · show o.b.k0.shape = _
    rw [hb]; exact hw.k0
  · show o.rC.shape = _
    rw [e2]; exact c.srC
  · show o.rS.shape = _
    rw [e3]; exact c.srS
  · show o.nEnv.shape = _
    rw [e6]; exact hw.env
  · show o.epsC.shape = _
    rw [e4]; exact c.seC
  · show o.epsS.shape = _
    rw [e5]; exact c.seS
  · refine ⟨?_, ?_, ?_, ?_, ?_, ?_, ?_, fun j => rfl⟩
    · show o.k.get _ = _
      rw [e1]; exact c.vk k hk
    · show o.b.k0.get _ = _
      rw [hb]; rfl
    · show o.nEnv.get _ = _
      rw [e6]; rfl
    · show o.rC.get _ = _
      rw [e2]; exact c.vrC p k hp hk
    · show o.rS.get _ = _
      rw [e3]; exact c.vrS p k hp hk
    · show csqrt (o.epsC.get _) = _
      rw [e4, c.veC p k hp hk]
    · show csqrt (o.epsS.get _) = _
      rw [e5, c.veS p k hp hk]

theorem selLast2 {α : Type} {t : Ten α} {a b i : ℕ} (h : t.shape = [a, b]) (hi : i < b) :
    ∃ u, t.selLast i = .ok u ∧ u.shape = [a] ∧ ∀ w, u.get [w] = t.get [w, i] := by
  refine ⟨⟨[a], fun idx => t.get (idx.insertIdx 1 i)⟩, ?_, rfl, fun w => by simp⟩
  unfold Ten.selLast Ten.select
  simp [h, hi]

/-- Spherical coordinates of probe position `s`. -/
noncomputable def probeSph (probe : Ten ℝ) (s : ℕ) : V3 ℝ :=
  xyzToSph eps10Double (probe.get [s, 0]) (probe.get [s, 1]) (probe.get [s, 2])

theorem nearfieldsB_eq {A : BackendsOf ArrFns} {backend w : String} {n : Option ℤ} {o : BatchOut} {out : Ten CoreShellOut}
    {io : Option (Ten CoreShellOut)} (h : mieCoefficientsB A args backend w n true = .ok (o, io)) (hio : io = some out) (J : TorchFns) {probe : Ten ℝ} {Q : ℕ}
    (hp : probe.shape = [Q, 3]) (E0 : ℂ) :
    ∃ rr tt pp : Ten ℝ, rr.shape = [Q] ∧ tt.shape = [Q] ∧ pp.shape = [Q] ∧
      (∀ s, rr.get [s] = (probeSph probe s).c0 ∧ tt.get [s] = (probeSph probe s).c1 ∧ pp.get [s] = (probeSph probe s).c2) ∧
      nearfieldsB A J args probe E0 backend w n = torchFieldsFrom J (torchCoefs o out) rr tt pp E0 := by
  obtain ⟨x, hx, sx, vx⟩ := selLast2 hp (show 0 < 3 by norm_num)
  obtain ⟨y, hy, -, vy⟩ := selLast2 hp (show 1 < 3 by norm_num)
  obtain ⟨z, hz, -, vz⟩ := selLast2 hp (show 2 < 3 by norm_num)
  subst hio
  refine ⟨⟨x.shape, fun i => (xyzToSph eps10Double (x.get i) (y.get i) (z.get i)).c0⟩,
    ⟨x.shape, fun i => (xyzToSph eps10Double (x.get i) (y.get i) (z.get i)).c1⟩,
    ⟨x.shape, fun i => (xyzToSph eps10Double (x.get i) (y.get i) (z.get i)).c2⟩, sx, sx, sx, fun s => ?_, ?_⟩
  · simp only [probeSph, ← vx, ← vy, ← vz]
    exact ⟨trivial, trivial, trivial⟩
  · unfold nearfieldsB
    rw [h]
    simp only [bind_ok, hx, hy, hz]

/-- C62: for several wavelengths other than three, or several particles whose number is not the number of positions, the call
raises. -/
theorem C62_raises (ha : asLayerInputs args = .ok (r, eps))
    (hR : Spec.reading args.k0.shape r.shape eps.shape args.epsEnv.shape = some R) (hi : Increasing R r)
    (hl : R.nLayers = 1 ∨ R.nLayers = 2) {n : ℕ} {backend w : String}
    (hb : backend.toLower = "torch" ∨ backend.toLower = "scipy") (A : BackendsOf ArrFns) (J : TorchFns) {probe : Ten ℝ} {Q : ℕ}
    (hp : probe.shape = [Q, 3]) (E0 : ℂ) (h : ¬((R.nPart = 1 ∨ R.nPart = Q) ∧ (R.nK = 1 ∨ R.nK = 3))) :
    ∃ e, nearfieldsB A J args probe E0 backend w (some n) = .error e := by
  rcases hm : mieCoefficientsB A args backend w (some n) true with e | ⟨o, io⟩
  · exact ⟨e, by unfold nearfieldsB; rw [hm]; rfl⟩
  obtain ⟨b, hbr, hwf, hme⟩ := broadcast_ok hR hi
  obtain ⟨run⟩ := mieCoefficientsB_inv ha hbr hwf (by rw [hme.nLayers]; omega) (by rw [hme.nLayers]; omega) hb hm
  obtain ⟨hio, wf, -⟩ := torchCoefs_ok run hwf
  obtain ⟨rr, tt, pp, sr, st, -, -, e⟩ := nearfieldsB_eq hm hio J hp E0
  rw [e]
  rw [← hme.nPart, ← hme.nK] at h
  exact C43_raises h wf sr st E0 _

/-- C62: for one particle at one wavelength the call runs whenever the coefficients are found, for any number of positions, and
every position gets the fields that the single-point code computes from the coefficients of that particle.  The recurrence
depth of the special functions is that of the largest argument of all positions. -/
theorem C62_single (ha : asLayerInputs args = .ok (r, eps))
    (hR : Spec.reading args.k0.shape r.shape eps.shape args.epsEnv.shape = some R) (hi : Increasing R r)
    (hl : R.nLayers = 1 ∨ R.nLayers = 2) (hP : R.nPart = 1) (hK : R.nK = 1) {n : ℕ} (hn : 1 ≤ n) {backend w : String}
    (hb : backend.toLower = "torch" ∨ backend.toLower = "scipy") {A : BackendsOf ArrFns} {J : TorchFns} (hJ : TotalRic J n)
    {o : BatchOut} {io : Option (Ten CoreShellOut)} (h : mieCoefficientsB A args backend w (some n) true = .ok (o, io))
    {probe : Ten ℝ} {Q : ℕ} (hp : probe.shape = [Q, 3]) (hQ : 0 < Q) (E0 : ℂ)
    (hk0 : ∃ x : ℝ, 0 ≤ x ∧ args.k0.get (R.k0 0) = x) :
    let q := args.particle R r eps 0 0
    let nC := csqrt (q.epsLayers.headD 0)
    let nS := csqrt (q.epsLayers.getLastD 0)
    let nE := csqrt q.epsEnv
    let rho (m : ℂ) (s : ℕ) : ℂ := q.k0 * m * ((probeSph probe s).c0 : ℂ) + ((1e-8 : ℝ) : ℂ)
    let IsMax (m : ℂ) (z : ℝ) : Prop := (∃ s < Q, ‖rho m s‖ = z) ∧ ∀ s < Q, ‖rho m s‖ ≤ z
    ∃ co zc zs zo F, internalAt io n 0 0 = some co ∧ IsMax nC zc ∧ IsMax nS zs ∧ IsMax nE zo ∧
      nearfieldsB A J args probe E0 backend w (some n) = .ok F ∧
      F.Ei.shape = [1, 1, Q, 3] ∧ F.Hi.shape = [1, 1, Q, 3] ∧ F.Es.shape = [1, 1, Q, 3] ∧ F.Hs.shape = [1, 1, Q, 3] ∧
      F.Et.shape = [1, 1, Q, 3] ∧ F.Ht.shape = [1, 1, Q, 3] ∧
      ∀ s < Q, ∃ f, nearfieldsTorch (J zc) (J zs) (J zs) (J zo) q.k0 (q.k0 * nE) nC nS nE (q.rLayers.headD 0)
          (q.rLayers.getLastD 0) E0 co ⟨probe.get [s, 0], probe.get [s, 1], probe.get [s, 2]⟩ = .ok f ∧
        ∀ j < 3, F.Ei.get [0, 0, s, j] = f.Ei.comp j ∧ F.Hi.get [0, 0, s, j] = f.Hi.comp j ∧
          F.Es.get [0, 0, s, j] = f.Es.comp j ∧ F.Hs.get [0, 0, s, j] = f.Hs.comp j ∧
          F.Et.get [0, 0, s, j] = f.Et.comp j ∧ F.Ht.get [0, 0, s, j] = f.Ht.comp j := by
  intro q nC nS nE rho IsMax
  obtain ⟨b, hbr, hwf, hme⟩ := broadcast_ok hR hi
  obtain ⟨run⟩ := mieCoefficientsB_inv ha hbr hwf (by rw [hme.nLayers]; omega) (by rw [hme.nLayers]; omega) hb h
  obtain ⟨hio, wf, hv⟩ := torchCoefs_ok run hwf
  obtain ⟨rr, tt, pp, sr, st, sp, vs, e⟩ := nearfieldsB_eq h hio J hp E0
  obtain ⟨v1, v2, v3, v4, v5, v6, v7, v8⟩ := hv 0 0 (by rw [hme.nPart]; omega) (by rw [hme.nK]; omega)
  have hq : b.particle 0 0 = q := hme.particle (by omega) (by omega)
  rw [hme.nPart, hme.nK, hP, hK] at wf
  rw [hq] at v1 v2 v3 v4 v5 v6 v7
  set t := torchCoefs o run.out with ht
  have hrn : ∀ s, 0 ≤ (probeSph probe s).c0 := fun s => Real.sqrt_nonneg _
  have hph : t.Physical 1 1 Q rr := by
    refine ⟨?_, ?_, ?_, ?_, fun s _ => by rw [(vs s).1]; exact hrn s⟩
    · intro k hk; obtain rfl : k = 0 := by omega
      rw [v2]; exact hk0
    · intro p k hp hk; obtain rfl : k = 0 := by omega
      obtain rfl : p = 0 := by omega
      rw [v6]; exact csqrt_re_nonneg _
    · intro p k hp hk; obtain rfl : k = 0 := by omega
      obtain rfl : p = 0 := by omega
      rw [v7]; exact csqrt_re_nonneg _
    · intro k hk; obtain rfl : k = 0 := by omega
      rw [v3]; exact csqrt_re_nonneg _
  obtain ⟨zc, zs, z2, zo, F, hF, mc, ms, rfl, mo, s1, s2, s3, s4, s5, s6, hval⟩ := torchFieldsFrom_ok hJ hn Nat.one_pos
    Nat.one_pos hQ (.inl rfl) (.inl rfl) wf sr st sp E0 1e-8 hph le_rfl
  have hmax : ∀ {m : ℂ} {z : ℝ} {g : List ℕ → ℂ}, (∀ a p k s j, a < n → p < 1 → k < 1 → s < Q → j < 3 →
      g [a, p, k, s, j] = rho m s) → MaxArg [n, 1, 1, Q, 3] g z → IsMax m z := by
    intro m z g hg hM
    obtain ⟨⟨idx, h1, h2⟩, h3⟩ := hM
    constructor
    · obtain _ | ⟨ha, h1⟩ := h1
      obtain _ | ⟨hb, h1⟩ := h1
      obtain _ | ⟨hc, h1⟩ := h1
      obtain _ | ⟨hd, h1⟩ := h1
      obtain _ | ⟨he, h1⟩ := h1
      cases h1
      exact ⟨_, hd, by rw [← h2, hg _ _ _ _ _ ha hb hc hd he]⟩
    · intro s hs
      rw [← hg 0 0 0 s 0 (by omega) (by omega) (by omega) hs (by omega)]
      exact h3 _ (by simp; omega)
  refine ⟨(List.range n).map fun j => run.out.get [j, 0, 0], zc, z2, zo, F, congrArg (fun x => internalAt x n 0 0) hio, hmax ?_ mc, hmax ?_ ms, hmax ?_ mo, e.trans hF,
    s1, s2, s3, s4, s5, s6, fun s hs => ?_⟩
  · intro a p k s j ha hp hk hs hj
    obtain rfl : k = 0 := by omega
    simp [v2, v6, bi, (vs s).1, rho, nC]
  · intro a p k s j ha hp hk hs hj
    obtain rfl : k = 0 := by omega
    simp [v2, v7, bi, (vs s).1, rho, nS]
  · intro a p k s j ha hp hk hs hj
    obtain rfl : k = 0 := by omega
    simp [v2, v3, (vs s).1, rho, nE]
  · have hlen : ((List.range n).map fun j => run.out.get [j, 0, 0]).length = n := by simp
    have hbig : ∀ m : ℂ, 0 ≤ m.re → 1e-8 ≤ ‖rho m s‖ := fun m hm => rho_big hk0 hm (hrn s) le_rfl
    have tot : ∀ (m : ℂ) (z : ℝ) (kind : ℤ), 0 ≤ m.re → (kind = 1 ∨ kind = 2 ∨ kind = 3) →
        ∃ v, ricKind (J z) ((List.range n).map fun j => run.out.get [j, 0, 0]).length kind (rho m s) = .ok v := by
      intro m z kind hm hk
      rw [hlen]
      exact hJ z kind hk _ (hbig m hm)
    refine ⟨_, nearfieldsTorch_eq (by rw [hlen]; exact hn) q.k0 (q.k0 * nE) nC nS nE (q.rLayers.headD 0)
      (q.rLayers.getLastD 0) E0 ⟨probe.get [s, 0], probe.get [s, 1], probe.get [s, 2]⟩ 1e-8
      (tot nC zc 1 (csqrt_re_nonneg _) (by tauto)) (tot nS z2 1 (csqrt_re_nonneg _) (by tauto))
      (tot nS z2 2 (csqrt_re_nonneg _) (by tauto)) (tot nE zo 3 (csqrt_re_nonneg _) (by tauto)), fun j hj => ?_⟩
    obtain ⟨a1, a2, a3, a4, a5, a6⟩ := hval 0 0 s j Nat.one_pos Nat.one_pos hs hj
    have b1 : bi 1 s = 0 := by simp [bi]
    have b2 : ∀ i, bi 1 i = 0 := fun i => by simp [bi]
    have ex : xyzToSph eps10Double (probe.get [s, 0]) (probe.get [s, 1]) (probe.get [s, 2]) = probeSph probe s := rfl
    have fe : ∀ i, i < n → t.orderField (J zc) (J z2) (J z2) (J zo) E0 1e-8 (rr.get [s]) (tt.get [s]) (pp.get [s]) i 0 0 0 0 =
        torchOrder (EnCoef E0 (i + 1)) (((List.range n).map fun j => run.out.get [j, 0, 0]).getD i ⟨0, 0, 0, 0, 0, 0, 0, 0⟩)
          nC nS nE (q.rLayers.headD 0) (q.rLayers.getLastD 0) (probeSph probe s).c0
          (vshVal (J zc) n i 1 (probeSph probe s).c1 (probeSph probe s).c2 (rho nC s))
          (vshVal (J z2) n i 1 (probeSph probe s).c1 (probeSph probe s).c2 (rho nS s))
          (vshVal (J z2) n i 2 (probeSph probe s).c1 (probeSph probe s).c2 (rho nS s))
          (vshVal (J zo) n i 3 (probeSph probe s).c1 (probeSph probe s).c2 (rho nE s)) := by
      intro i hi
      unfold TorchCoefs.orderField
      rw [(vs s).1, (vs s).2.1, (vs s).2.2, v2, v3, v4, v5, v6, v7, v8, wf.nMax]
      simp [hi, rho, nC, nS, nE]
    have es : ∀ g : V3 ℂ × V3 ℂ → V3 ℂ, ((List.range n).map fun i => (⟨(g (t.orderField (J zc) (J z2) (J z2) (J zo) E0 1e-8
          (rr.get [s]) (tt.get [s]) (pp.get [s]) i 0 0 0 0)).c0,
        (g (t.orderField (J zc) (J z2) (J z2) (J zo) E0 1e-8 (rr.get [s]) (tt.get [s]) (pp.get [s]) i 0 0 0 0)).c1,
        (g (t.orderField (J zc) (J z2) (J z2) (J zo) E0 1e-8 (rr.get [s]) (tt.get [s]) (pp.get [s]) i 0 0 0 0)).c2⟩ : V3 ℂ)) =
        (List.range n).map fun i => g (torchOrder (EnCoef E0 (i + 1))
          (((List.range n).map fun j => run.out.get [j, 0, 0]).getD i ⟨0, 0, 0, 0, 0, 0, 0, 0⟩)
          nC nS nE (q.rLayers.headD 0) (q.rLayers.getLastD 0) (probeSph probe s).c0
          (vshVal (J zc) n i 1 (probeSph probe s).c1 (probeSph probe s).c2 (rho nC s))
          (vshVal (J z2) n i 1 (probeSph probe s).c1 (probeSph probe s).c2 (rho nS s))
          (vshVal (J z2) n i 2 (probeSph probe s).c1 (probeSph probe s).c2 (rho nS s))
          (vshVal (J zo) n i 3 (probeSph probe s).c1 (probeSph probe s).c2 (rho nE s))) := by
      intro g
      refine List.map_congr_left fun i hi => ?_
      rw [fe i (List.mem_range.1 hi)]
    simp only [b2] at a1 a2 a5 a6
    rw [es Prod.fst] at a1
    rw [es Prod.snd] at a2
    simp only [(vs s).1, (vs s).2.1, (vs s).2.2, v1, v3, v5] at a1 a2 a3 a4 a5 a6
    simp only [hlen, ex]
    refine ⟨a3, a4, a1, a2, ?_, ?_⟩
    · rw [a5, a1, a3]
      split_ifs
      · rw [comp_add]
      · rfl
    · rw [a6, a2, a4]
      split_ifs
      · rw [comp_add]
      · rfl

/-- C62 for the torch backend with the default recurrence: the call always runs, with the coefficients `mie_coefficients` returns
for that particle. -/
theorem C62_recurrence (ha : asLayerInputs args = .ok (r, eps))
    (hR : Spec.reading args.k0.shape r.shape eps.shape args.epsEnv.shape = some R) (hi : Increasing R r)
    (hl : R.nLayers = 1 ∨ R.nLayers = 2) (hP : R.nPart = 1) (hK : R.nK = 1) {n : ℕ} (hn : 1 ≤ n) {backend w : String}
    (hb : backend.toLower = "torch") (hw : w.toLower = "recurrence") (sp : BesselBackend) (K : D1Kernel)
    {probe : Ten ℝ} {Q : ℕ} (hp : probe.shape = [Q, 3]) (hQ : 0 < Q) (E0 : ℂ)
    (hk0 : ∃ x : ℝ, 0 ≤ x ∧ args.k0.get (R.k0 0) = x) :
    ∃ o co zc zs zo F,
      mieCoefficients K (codeBackends sp) (args.particle R r eps 0 0) backend w (some n) true = .ok o ∧ o.internal = some co ∧
      nearfieldsB (codeArr sp) torchFns args probe E0 backend w (some n) = .ok F ∧
      ∀ s < Q, ∃ f, nearfieldsTorch (torchFns zc) (torchFns zs) (torchFns zs) (torchFns zo) (args.particle R r eps 0 0).k0 o.k
          (csqrt o.epsC) (csqrt o.epsS) o.nEnv o.rC o.rS E0 co ⟨probe.get [s, 0], probe.get [s, 1], probe.get [s, 2]⟩ = .ok f ∧
        ∀ j < 3, F.Ei.get [0, 0, s, j] = f.Ei.comp j ∧ F.Hi.get [0, 0, s, j] = f.Hi.comp j ∧
          F.Es.get [0, 0, s, j] = f.Es.comp j ∧ F.Hs.get [0, 0, s, j] = f.Hs.comp j ∧
          F.Et.get [0, 0, s, j] = f.Et.comp j ∧ F.Ht.get [0, 0, s, j] = f.Ht.comp j := by
  obtain ⟨o, io, ho, hno, he⟩ := C57_recurrence ha hR hi hl (by omega) (by omega) hn true hb hw sp K
  have he := he 0 (by omega) 0 (by omega) (by rw [hP, hK]; exact C57_one_entry _ _)
  obtain ⟨co, zc, zs, zo, F, hco, -, -, -, hF, -, -, -, -, -, -, hv⟩ := C62_single ha hR hi hl hP hK hn (Or.inl hb)
    (torchFns_total hn) ho hp hQ E0 hk0
  refine ⟨_, co, zc, zs, zo, F, he, hco, hF, ?_⟩
  obtain ⟨b, hbr, hwf, hme⟩ := broadcast_ok hR hi
  obtain ⟨run⟩ := mieCoefficientsB_inv ha hbr hwf (by rw [hme.nLayers]; omega) (by rw [hme.nLayers]; omega) (Or.inl hb) ho
  obtain ⟨-, -, hq⟩ := torchCoefs_ok run hwf
  obtain ⟨v1, -, v3, v4, v5, v6, v7, -⟩ := hq 0 0 (by rw [hme.nPart]; omega) (by rw [hme.nK]; omega)
  rw [hme.particle (by omega) (by omega)] at v1 v3 v4 v5 v6 v7
  intro s hs
  obtain ⟨f, hf, hj⟩ := hv s hs
  refine ⟨f, ?_, hj⟩
  rw [← hf]
  show nearfieldsTorch _ _ _ _ _ ((torchCoefs o run.out).k.get [0, 0]) ((torchCoefs o run.out).nC.get [0, 0])
    ((torchCoefs o run.out).nS.get [0, 0]) ((torchCoefs o run.out).nEnv.get [0, 0]) ((torchCoefs o run.out).rC.get [0, 0])
    ((torchCoefs o run.out).rS.get [0, 0]) _ _ _ = _
  rw [v1, v3, v4, v5, v6, v7]

end

/-! ## Agreement with the pena backend -/

theorem coated_conts_tm {n : ℕ} {m1 m2 x y a d g w : ℂ} (h2 : m2 * x ≠ 0) (h3 : m2 * y ≠ 0)
    (h : CoatedTM (coatedData n m1 m2 x y) a d g w) :
    Cont .tm n m1 m2 x ⟨d, 0⟩ (shellWave g w) ∧ Cont .tm n m2 1 y (shellWave g w) ⟨1, a⟩ := by
  obtain ⟨r1, r2, r3, r4⟩ := h
  simp only [coatedData, psiJet, chiJet, zetaJet] at r1 r2 r3 r4
  refine ⟨⟨?_, ?_⟩, ?_, ?_⟩
  · rw [shellWave_val]; simp only [Wave.val]; linear_combination -r2
  · rw [shellWave_der _ _ _ h2]; simp only [Wave.der]; linear_combination -r1
  · rw [shellWave_val]; simp only [Wave.val, one_mul]; linear_combination r4
  · rw [shellWave_der _ _ _ h3]; simp only [Wave.der, one_mul]; linear_combination r3

theorem coated_conts_te {n : ℕ} {m1 m2 x y b c f v : ℂ} (h2 : m2 * x ≠ 0) (h3 : m2 * y ≠ 0)
    (h : CoatedTE (coatedData n m1 m2 x y) b c f v) :
    Cont .te n m1 m2 x ⟨c, 0⟩ (shellWave f v) ∧ Cont .te n m2 1 y (shellWave f v) ⟨1, b⟩ := by
  obtain ⟨r1, r2, r3, r4⟩ := h
  simp only [coatedData, psiJet, chiJet, zetaJet] at r1 r2 r3 r4
  refine ⟨⟨?_, ?_⟩, ?_, ?_⟩
  · rw [shellWave_val]; simp only [Wave.val]; linear_combination -r1
  · rw [shellWave_der _ _ _ h2]; simp only [Wave.der]; linear_combination -r2
  · rw [shellWave_val]; simp only [Wave.val, one_mul]; linear_combination r3
  · rw [shellWave_der _ _ _ h3]; simp only [Wave.der, one_mul]; linear_combination r4

/-- The waves of the closed form in the core, the shell and the host at one order. -/
noncomputable def CoreShellOut.coreWave (c : CoreShellOut) : Pol → Wave
  | .tm => ⟨c.d, 0⟩
  | .te => ⟨c.c, 0⟩
noncomputable def CoreShellOut.shellWave (c : CoreShellOut) : Pol → Wave
  | .tm => MieDiff.shellWave c.g c.w
  | .te => MieDiff.shellWave c.f c.v
noncomputable def CoreShellOut.hostWave (c : CoreShellOut) : Pol → Wave
  | .tm => ⟨1, c.a⟩
  | .te => ⟨1, c.b⟩

/-- With exact special functions the closed form gives the waves that connect the core to the host. -/
theorem coated_waves {i : ℕ} {m1 m2 x y : ℂ} (n1 : m1 ≠ 0) (n2 : m2 ≠ 0) (n3 : x ≠ 0) (n4 : y ≠ 0) {a b : ℂ}
    (sa : Solves .tm i [(m1, x), (m2, y)] a) (sb : Solves .te i [(m1, x), (m2, y)] b) (q : Pol) :
    Cont q i m1 m2 x ((miecoefOrder (exactIn i m1 m2 x y)).coreWave q) ((miecoefOrder (exactIn i m1 m2 x y)).shellWave q) ∧
    Cont q i m2 1 y ((miecoefOrder (exactIn i m1 m2 x y)).shellWave q) ((miecoefOrder (exactIn i m1 m2 x y)).hostWave q) := by
  obtain ⟨d1, d2⟩ := det_ne_of_solves (n := i) n1 n2 n3 n4
  cases q
  · exact coated_conts_tm (mul_ne_zero n2 n3) (mul_ne_zero n2 n4) (CoatedTM.of_order (exactIn i m1 m2 x y) (d1 a sa))
  · exact coated_conts_te (mul_ne_zero n2 n3) (mul_ne_zero n2 n4) (CoatedTE.of_order (exactIn i m1 m2 x y) (d2 b sb))

theorem cont_self (q : Pol) (i : ℕ) (m x : ℂ) (w : Wave) : Cont q i m m x w w := by cases q <;> exact ⟨rfl, rfl⟩

/-- Harmonics of the second kind are combinations of those of the first and third. -/
theorem vshExact_chi (n : ℕ) (t p : ℝ) {rho : ℂ} (h : rho ≠ 0) :
    let v1 := vshExact n t p rho (ricPsi n)
    let v3 := vshExact n t p rho (ricZeta n)
    let v2 := vshExact n t p rho (ricChi n)
    v2.Mo = V3.smul I (v3.Mo.add (V3.smul (-1) v1.Mo)) ∧ v2.Me = V3.smul I (v3.Me.add (V3.smul (-1) v1.Me)) ∧
    v2.No = V3.smul I (v3.No.add (V3.smul (-1) v1.No)) ∧ v2.Ne = V3.smul I (v3.Ne.add (V3.smul (-1) v1.Ne)) := by
  intro v1 v3 v2
  simp only [v1, v2, v3, vshExact, vshOrder, V3.smul, V3.add, V3.mk.injEq, ricChi_eq, deriv_ricChi_eq n h]
  refine ⟨⟨?_, ?_, ?_⟩, ⟨?_, ?_, ?_⟩, ⟨?_, ?_, ?_⟩, ?_, ?_, ?_⟩ <;> ring

theorem vsh_of_exact {S : BesselBackend} {n : ℕ} {k0 m : ℂ} {r theta phi : ℝ} {kind : ℤ} {eps : ℝ}
    (h : ExactAt S n (k0 * m * r + eps)) :
    vsh S n k0 m r theta phi kind eps = vsh exactBessel n k0 m r theta phi kind eps := by
  unfold vsh vshWith
  simp only [h.j, h.y, exactBessel, Int.toNat_natCast]

/-- Field of one order in a region with the given waves, from exact harmonics. -/
noncomputable def waveField (isOut : Bool) (E0 m rho : ℂ) (theta phi : ℝ) (i : ℕ) (w : Pol → Wave) : V3 ℂ × V3 ℂ :=
  if isOut then outField (EnCoef E0 i) (w .tm).a (w .te).a m (vshExact i theta phi rho (ricZeta i))
  else inField (EnCoef E0 i) (w .tm).a (w .te).a (w .te).d (w .tm).d m (vshExact i theta phi rho (ricPsi i))
    (vshExact i theta phi rho (ricZeta i))

theorem regionField_waves {n : ℕ} (hn : 1 ≤ n) {k0 m : ℂ} {r theta phi : ℝ} (E0 : ℂ) (isOut : Bool) (rc : RegionCoefs)
    {eps : ℝ} (h : KernelOK n (k0 * m * r + eps) solverEps) :
    regionField idealD1 n k0 m r theta phi E0 isOut rc eps =
      .ok ((List.range n).map fun i => (waveField isOut E0 m (k0 * m * r + eps) theta phi (i + 1) (rc.wave (i + 1))).1,
        (List.range n).map fun i => (waveField isOut E0 m (k0 * m * r + eps) theta phi (i + 1) (rc.wave (i + 1))).2) := by
  have e1 := vshPena_exact (theta := theta) (phi := phi) hn (kind := 1) (Or.inl ⟨rfl, rfl⟩) h
  have e3 := vshPena_exact (theta := theta) (phi := phi) hn (kind := 3) (Or.inr ⟨rfl, rfl⟩) h
  unfold regionField
  simp only [e1, e3, Bind.bind, Except.bind, List.map_map]
  congr 2 <;>
  · refine List.map_congr_left fun i hi => ?_
    have hi := List.mem_range.1 hi
    simp only [Function.comp, List.getD_eq_getElem?_getD, List.getElem?_map, List.getElem?_range hi, Option.map_some,
      Option.getD_some, waveField, RegionCoefs.wave]

theorem regionField_succeeds {n : ℕ} (hn : 1 ≤ n) (k0 m : ℂ) (r theta phi : ℝ) (E0 : ℂ) (isOut : Bool) (rc : RegionCoefs)
    (eps : ℝ) : ∃ v, regionField idealD1 n k0 m r theta phi E0 isOut rc eps = .ok v := by
  unfold regionField vshPena
  simp only [C01_pi_tau n hn, kernels_eq (idealD1_fun n), Bind.bind, Except.bind, if_true]
  exact ⟨_, rfl⟩

/-- The fields at a point as the sum over the orders of the region that contains it. -/
noncomputable def fieldsAt (k nE E0 : ℂ) (rS : ℝ) (v : V3 ℝ) (es hs : List (V3 ℂ)) : Fields :=
  let Es := sumCart v.polar v.azimuth es
  let Hs := sumCart v.polar v.azimuth hs
  let Ei := incidentE E0 k v.dist v.polar
  let Hi := incidentH E0 k nE v.dist v.polar
  { Ei := Ei, Hi := Hi, Es := Es, Hs := Hs, Et := if rS < v.dist then Es.add Ei else Es
    Ht := if rS < v.dist then Hs.add Hi else Hs }

theorem nearfieldsPena_waves {k0 : ℂ} {rs : List ℝ} {es : List ℂ} {epsEnv E0 : ℂ} {a b : List ℂ} {v : V3 ℝ} {eps : ℝ}
    (hne : rs ≠ []) (hinc : strictlyIncreasing rs) (hn : 1 ≤ a.length) {regs : List RegionCoefs}
    (hregs : nfRegions idealD1 a.length (extCoefs a b) true (layersOf (k0 * csqrt epsEnv) rs es (csqrt epsEnv)) = .ok regs)
    {j : ℕ} (hj : InRegion rs j v.dist)
    (hk : KernelOK a.length (k0 * (es.map csqrt ++ [csqrt epsEnv]).getD j 0 * v.dist + eps) solverEps) :
    let m := (es.map csqrt ++ [csqrt epsEnv]).getD j 0
    let f (i : ℕ) := waveField (j == rs.length) E0 m (k0 * m * v.dist + eps) v.polar v.azimuth (i + 1)
      ((regs.getD j ⟨[], [], [], []⟩).wave (i + 1))
    nearfieldsPena idealD1 k0 rs es epsEnv E0 a b v eps = .ok (fieldsAt (k0 * csqrt epsEnv) (csqrt epsEnv) E0 (rs.getLastD 0) v
      ((List.range a.length).map fun i => (f i).1) ((List.range a.length).map fun i => (f i).2)) := by
  intro m f
  have hd : (xyzToSph eps10Double v.c0 v.c1 v.c2).c0 = v.dist := rfl
  have ht : (xyzToSph eps10Double v.c0 v.c1 v.c2).c1 = v.polar := rfl
  have hp : (xyzToSph eps10Double v.c0 v.c1 v.c2).c2 = v.azimuth := rfl
  obtain ⟨F, hF⟩ : ∃ F : ℕ → List (V3 ℂ) × List (V3 ℂ), ∀ li, regionField idealD1 a.length k0
      ((es.map csqrt ++ [csqrt epsEnv]).getD li 0) v.dist v.polar v.azimuth E0 (li == rs.length)
      (regs.getD li ⟨[], [], [], []⟩) eps = .ok (F li) := by
    choose F hF using fun li : ℕ => regionField_succeeds hn k0 ((es.map csqrt ++ [csqrt epsEnv]).getD li 0) v.dist v.polar
      v.azimuth E0 (li == rs.length) (regs.getD li ⟨[], [], [], []⟩) eps
    exact ⟨F, hF⟩
  have hFj : F j = ((List.range a.length).map fun i => (f i).1, (List.range a.length).map fun i => (f i).2) :=
    Except.ok.inj ((hF j).symm.trans (regionField_waves hn E0 _ _ hk))
  have hfl := mapM_ok (List.range (rs.length + 1)) _ F (fun li _ => hF li)
  have hmj := (regionMasks_iff rs hne hinc v.dist j).2 hj
  obtain ⟨hml, j', hj', hu⟩ := C15_one_region rs hne hinc v.dist
  obtain rfl := hu j hmj
  unfold layersOf at hregs
  unfold nearfieldsPena
  simp only [hregs, hd, ht, hp, hfl, Bind.bind, Except.bind]
  have hjl : j < rs.length + 1 := by have := hj.1; omega
  rw [maskedAssign_spec [] (regionMasks rs v.dist) _ j ((List.range a.length).map fun i => (f i).1) hmj (fun i hi => hu i hi)
      (by simp [List.getElem?_range hjl, hFj]),
    maskedAssign_spec [] (regionMasks rs v.dist) _ j ((List.range a.length).map fun i => (f i).2) hmj (fun i hi => hu i hi)
      (by simp [List.getElem?_range hjl, hFj]), masks_last]
  simp only [decide_eq_true_eq]
  rfl

theorem nearfieldsTorch_waves {Bc Bs B2 Bo : BesselBackend} {k0 k nC nS nE E0 : ℂ} {rC rS : ℝ} {n : ℕ} (hn : 1 ≤ n)
    (g : ℕ → CoreShellOut) {v : V3 ℝ} {eps : ℝ} (hc : ExactAt Bc n (k0 * nC * v.dist + eps))
    (hs : ExactAt Bs n (k0 * nS * v.dist + eps)) (h2 : ExactAt B2 n (k0 * nS * v.dist + eps))
    (ho : ExactAt Bo n (k0 * nE * v.dist + eps)) :
    let f (i : ℕ) := torchOrder (EnCoef E0 (i + 1)) (g i) nC nS nE rC rS v.dist
      (vshExact (i + 1) v.polar v.azimuth (k0 * nC * v.dist + eps) (ricPsi (i + 1)))
      (vshExact (i + 1) v.polar v.azimuth (k0 * nS * v.dist + eps) (ricPsi (i + 1)))
      (vshExact (i + 1) v.polar v.azimuth (k0 * nS * v.dist + eps) (ricChi (i + 1)))
      (vshExact (i + 1) v.polar v.azimuth (k0 * nE * v.dist + eps) (ricZeta (i + 1)))
    nearfieldsTorch Bc Bs B2 Bo k0 k nC nS nE rC rS E0 ((List.range n).map g) v eps = .ok (fieldsAt k nE E0 rS v
      ((List.range n).map fun i => (f i).1) ((List.range n).map fun i => (f i).2)) := by
  intro f
  have hd : (xyzToSph eps10Double v.c0 v.c1 v.c2).c0 = v.dist := rfl
  have ht : (xyzToSph eps10Double v.c0 v.c1 v.c2).c1 = v.polar := rfl
  have hp : (xyzToSph eps10Double v.c0 v.c1 v.c2).c2 = v.azimuth := rfl
  unfold nearfieldsTorch
  simp only [List.length_map, List.length_range, hd, ht, hp, vsh_of_exact hc, vsh_of_exact hs, vsh_of_exact h2,
    vsh_of_exact ho, vsh_exact hn (kind := 1) (f := ricPsi) (Or.inl ⟨rfl, rfl⟩) hc.ne,
    vsh_exact hn (kind := 1) (f := ricPsi) (Or.inl ⟨rfl, rfl⟩) hs.ne,
    vsh_exact hn (kind := 2) (f := ricChi) (Or.inr (Or.inl ⟨rfl, rfl⟩)) h2.ne,
    vsh_exact hn (kind := 3) (f := ricZeta) (Or.inr (Or.inr ⟨rfl, rfl⟩)) ho.ne, Bind.bind, Except.bind, List.map_map]
  have e : (List.range n).map (fun i => torchOrder (EnCoef E0 (i + 1)) (((List.range n).map g).getD i ⟨0, 0, 0, 0, 0, 0, 0, 0⟩)
      nC nS nE rC rS v.dist
      (((List.range n).map fun i => vshExact (i + 1) v.polar v.azimuth (k0 * nC * v.dist + eps) (ricPsi (i + 1))).getD i
        ⟨V3.zero, V3.zero, V3.zero, V3.zero⟩)
      (((List.range n).map fun i => vshExact (i + 1) v.polar v.azimuth (k0 * nS * v.dist + eps) (ricPsi (i + 1))).getD i
        ⟨V3.zero, V3.zero, V3.zero, V3.zero⟩)
      (((List.range n).map fun i => vshExact (i + 1) v.polar v.azimuth (k0 * nS * v.dist + eps) (ricChi (i + 1))).getD i
        ⟨V3.zero, V3.zero, V3.zero, V3.zero⟩)
      (((List.range n).map fun i => vshExact (i + 1) v.polar v.azimuth (k0 * nE * v.dist + eps) (ricZeta (i + 1))).getD i
        ⟨V3.zero, V3.zero, V3.zero, V3.zero⟩)) = (List.range n).map f := by
    refine List.map_congr_left fun i hi => ?_
    have hi := List.mem_range.1 hi
    simp only [List.getD_eq_getElem?_getD, List.getElem?_map, List.getElem?_range hi, Option.map_some, Option.getD_some, f]
  simp only [← List.map_map, e]
  simp only [List.map_map]
  rfl

/-- The three branches of `torchOrder` are the fields of the waves of the closed form. -/
theorem torchOrder_waves (E0 : ℂ) (c : CoreShellOut) (nC nS nE : ℂ) (rC rS r t p : ℝ) (i : ℕ) {zc zs zo : ℂ} (hs : zs ≠ 0) :
    let f := torchOrder (EnCoef E0 i) c nC nS nE rC rS r (vshExact i t p zc (ricPsi i)) (vshExact i t p zs (ricPsi i))
      (vshExact i t p zs (ricChi i)) (vshExact i t p zo (ricZeta i))
    (rS < r → f = waveField true E0 nE zo t p i c.hostWave) ∧
    (rC < r → r ≤ rS → f = waveField false E0 nS zs t p i c.shellWave) ∧
    (r ≤ rC → r ≤ rS → f = waveField false E0 nC zc t p i c.coreWave) := by
  obtain ⟨x1, x2, x3, x4⟩ := vshExact_chi i t p hs
  intro f
  refine ⟨fun h => ?_, fun h1 h2 => ?_, fun h1 h2 => ?_⟩
  · simp only [f, torchOrder, if_pos h, waveField, if_true, outField, CoreShellOut.hostWave]
    rw [mul_comm nE]
  · simp only [f, torchOrder, if_neg (not_lt.2 h2), if_pos (And.intro h1 h2), x1, x2, x3, x4, waveField, Bool.false_eq_true,
      if_false, inField, CoreShellOut.shellWave, MieDiff.shellWave, V3.smul, V3.add, Prod.mk.injEq, V3.mk.injEq]
    refine ⟨⟨?_, ?_, ?_⟩, ?_, ?_, ?_⟩ <;> ring
  · simp only [f, torchOrder, if_neg (not_lt.2 h2), if_neg (fun h : rC < r ∧ r ≤ rS => not_lt.2 h1 h.1), if_pos h1, waveField,
      Bool.false_eq_true, if_false, inField, CoreShellOut.coreWave, V3.smul, V3.add, Prod.mk.injEq, V3.mk.injEq]
    refine ⟨⟨?_, ?_, ?_⟩, ?_, ?_, ?_⟩ <;> ring

/-- The waves `nearfields` of the pena backend computes in every region are those of the closed form. -/
theorem regions_waves {B : Backends} {p : Particle1} {pena w : String} {nMax : Option ℤ} {o : MieOut}
    (hb : pena.toLower = "pena") (h : mieCoefficients idealD1 B p pena w nMax = .ok o)
    (hc : SolverClear idealFn o.nMax.toNat p.layers)
    (hbd : ∀ l ∈ p.layers, ∀ i, 1 ≤ i → i ≤ o.nMax.toNat →
      ‖ricPsi i (l.1 * l.2)‖ ≤ 1e30 ∧ ‖ricZeta i (l.1 * l.2)‖ ≤ 1e30) (hL : p.rLayers.length = 1 ∨ p.rLayers.length = 2) :
    ∃ regs, nfRegions idealD1 o.nMax (extCoefs o.a o.b) true p.layers = .ok regs ∧
      ∀ i, 1 ≤ i → i ≤ o.nMax.toNat →
        let c := miecoefOrder (exactIn i p.csM1 p.csM2 p.csX p.csY)
        (regs.getD 0 ⟨[], [], [], []⟩).wave i = c.coreWave ∧
        (p.rLayers.length = 2 → (regs.getD 1 ⟨[], [], [], []⟩).wave i = c.shellWave) ∧
        (regs.getD p.rLayers.length ⟨[], [], [], []⟩).wave i = c.hostWave := by
  have run := mieCoefficients_pena_inv hb h
  obtain ⟨regs, hregs, hlen, hcont, -, hhost⟩ := C14_region_coefficients hb h hc hbd true
  obtain ⟨-, -, hsol⟩ := C11_interface_conditions hb h hc
  refine ⟨regs, hregs, fun i h1 hi => ?_⟩
  intro c
  obtain ⟨a, b, ea, eb, sa, ua, sb, ub⟩ := hsol i h1 hi
  obtain ⟨host, hh, ht, he⟩ := hhost i h1 hi
  have hcont := hcont i h1 hi
  have hlen' := run.len
  have hk := run.k
  have hne := hc.ne
  obtain ⟨k0, rs, es, ee⟩ := p
  simp only at hL hlen hcont hlen' hk hh
  have ea' : o.a.getD (i - 1) 0 = a := by rw [List.getD_eq_getElem?_getD, ea]; rfl
  have eb' : o.b.getD (i - 1) 0 = b := by rw [List.getD_eq_getElem?_getD, eb]; rfl
  rw [ea'] at ht
  rw [eb'] at he
  rcases hL with hL | hL
  · obtain ⟨r, rfl⟩ := List.length_eq_one_iff.mp hL
    obtain ⟨e, rfl⟩ := List.length_eq_one_iff.mp (hlen'.trans hL)
    set m := csqrt e / csqrt ee with hm
    set x := k0 * csqrt ee * (r : ℂ) with hx
    have hl : (⟨k0, [r], [e], ee⟩ : Particle1).layers = [(m, x)] := rfl
    rw [hl] at sa sb hne ua ub
    obtain ⟨n1, n3⟩ := hne (m, x) (by simp)
    simp only at n1 n3
    have hw := coated_waves (i := i) n1 n1 n3 n3 ((solves_twice n1 n3).2 sa) ((solves_twice n1 n3).2 sb)
    have hcd : c = miecoefOrder (exactIn i m m x x) := rfl
    rw [← hcd] at hw
    have hcs (q : Pol) : c.shellWave q = c.coreWave q := by
      exact (Cont.unique_inner n1 (mul_ne_zero n1 n3) (hw q).1 (cont_self q i m x _)).symm
    have ca : c.a = a := ua _ ⟨⟨c.d, 0⟩, rfl, by have := (hw .tm).2; rw [hcs] at this; exact this⟩
    have cb : c.b = b := ub _ ⟨⟨c.c, 0⟩, rfl, by have := (hw .te).2; rw [hcs] at this; exact this⟩
    have hho : host.wave i = c.hostWave := by
      funext q; cases q
      · rw [ht, ← ca]; rfl
      · rw [he, ← cb]; rfl
    have e1 : regs.getD 1 ⟨[], [], [], []⟩ = host := by rw [List.getD_eq_getElem?_getD]; exact congrArg (Option.getD · _) hh
    refine ⟨?_, fun h => absurd h (by simp), by simp only [List.length_cons, List.length_nil]; rw [e1, hho]⟩
    funext q
    obtain ⟨r0, r1, g0, g1, hct⟩ := hcont q 0 (by simp)
    obtain rfl : r1 = host := Option.some.inj (g1.symm.trans hh)
    rw [List.getD_eq_getElem?_getD, g0, Option.getD_some]
    rw [hho] at hct
    have h2 := (hw q).2
    rw [hcs] at h2
    refine Cont.unique_inner one_ne_zero (mul_ne_zero n1 n3) (m' := 1) ?_ h2
    rw [hk] at hct
    exact hct
  · obtain ⟨r, r', rfl⟩ := List.length_eq_two.mp hL
    obtain ⟨e, e', rfl⟩ := List.length_eq_two.mp (hlen'.trans hL)
    set m := csqrt e / csqrt ee with hm
    set x := k0 * csqrt ee * (r : ℂ) with hx
    set m2 := csqrt e' / csqrt ee with hm2
    set y := k0 * csqrt ee * (r' : ℂ) with hy
    have hl : (⟨k0, [r, r'], [e, e'], ee⟩ : Particle1).layers = [(m, x), (m2, y)] := rfl
    rw [hl] at sa sb hne ua ub
    obtain ⟨n1, n3⟩ := hne (m, x) (by simp)
    obtain ⟨n2, n4⟩ := hne (m2, y) (by simp)
    simp only at n1 n3 n2 n4
    have hw := coated_waves (i := i) n1 n2 n3 n4 sa sb
    have hcd : c = miecoefOrder (exactIn i m m2 x y) := rfl
    rw [← hcd] at hw
    have ca : c.a = a := ua _ ⟨⟨c.d, 0⟩, rfl, _, (hw .tm).1, (hw .tm).2⟩
    have cb : c.b = b := ub _ ⟨⟨c.c, 0⟩, rfl, _, (hw .te).1, (hw .te).2⟩
    have hho : host.wave i = c.hostWave := by
      funext q; cases q
      · rw [ht, ← ca]; rfl
      · rw [he, ← cb]; rfl
    have e1 : regs.getD 2 ⟨[], [], [], []⟩ = host := by rw [List.getD_eq_getElem?_getD]; exact congrArg (Option.getD · _) hh
    have hsh : (regs.getD 1 ⟨[], [], [], []⟩).wave i = c.shellWave := by
      funext q
      obtain ⟨r0, r1, g0, g1, hct⟩ := hcont q 1 (by simp)
      obtain rfl : r1 = host := Option.some.inj (g1.symm.trans hh)
      rw [List.getD_eq_getElem?_getD, g0, Option.getD_some]
      rw [hho, hk] at hct
      exact Cont.unique_inner one_ne_zero (mul_ne_zero n2 n4) (m' := 1) hct (hw q).2
    refine ⟨?_, fun _ => hsh, by simp only [List.length_cons, List.length_nil]; rw [e1, hho]⟩
    funext q
    obtain ⟨r0, r1, g0, g1, hct⟩ := hcont q 0 (by simp)
    rw [List.getD_eq_getElem?_getD, g0, Option.getD_some]
    rw [List.getD_eq_getElem?_getD, g1, Option.getD_some] at hsh
    rw [hsh, hk] at hct
    exact Cont.unique_inner n2 (mul_ne_zero n1 n3) hct (hw q).1

/-- C62: with exact special functions the torch/scipy and the pena backends return the same near fields of a homogeneous or
core-shell particle at every point, inside and outside. -/
theorem C62_agree {K : D1Kernel} {B B' : Backends} {p : Particle1} {pena w backend w' : String} {nMax : Option ℤ} {o : MieOut}
    (hb : pena.toLower = "pena") (hb' : backend.toLower = "torch" ∨ backend.toLower = "scipy")
    (h : mieCoefficients idealD1 B p pena w nMax = .ok o) (hc : SolverClear idealFn o.nMax.toNat p.layers)
    (hbd : ∀ l ∈ p.layers, ∀ i, 1 ≤ i → i ≤ o.nMax.toNat →
      ‖ricPsi i (l.1 * l.2)‖ ≤ 1e30 ∧ ‖ricZeta i (l.1 * l.2)‖ ≤ 1e30) (hL : p.rLayers.length = 1 ∨ p.rLayers.length = 2)
    {S : BesselBackend} (hsel : selectBessel B' backend w' = .ok S)
    (hS : ∀ z ∈ csArgs p.layers, ExactAt S o.nMax.toNat z) (v : V3 ℝ) (eps : ℝ) (E0 : ℂ)
    (hker : ∀ j, InRegion p.rLayers j v.dist → KernelOK o.nMax.toNat (p.k0 * p.media.getD j 0 * v.dist + eps) solverEps)
    (hnz : ∀ m ∈ p.media, p.k0 * m * v.dist + eps ≠ 0)
    {Bc Bs B2 Bo : BesselBackend} (hBc : ∀ z, z ≠ 0 → ExactAt Bc o.nMax.toNat z) (hBs : ∀ z, z ≠ 0 → ExactAt Bs o.nMax.toNat z)
    (hB2 : ∀ z, z ≠ 0 → ExactAt B2 o.nMax.toNat z) (hBo : ∀ z, z ≠ 0 → ExactAt Bo o.nMax.toNat z) :
    ∃ o' co F, mieCoefficients K B' p backend w' (some o.nMax) true = .ok o' ∧ o'.internal = some co ∧
      nearfieldsPena idealD1 p.k0 p.rLayers p.epsLayers p.epsEnv E0 o.a o.b v eps = .ok F ∧
      nearfieldsTorch Bc Bs B2 Bo p.k0 o'.k (csqrt o'.epsC) (csqrt o'.epsS) o'.nEnv o'.rC o'.rS E0 co v eps = .ok F := by
  have run := mieCoefficients_pena_inv hb h
  have hpos := run.pos
  obtain ⟨regs, hregs, hwv⟩ := regions_waves hb h hc hbd hL
  obtain ⟨la, lb, -⟩ := C11_interface_conditions hb h hc
  obtain ⟨n, hn⟩ : ∃ n, o.nMax.toNat = n + 1 := ⟨o.nMax.toNat - 1, by omega⟩
  have hN : o.nMax = ((n + 1 : ℕ) : ℤ) := by omega
  have hex : ExactAt S (n + 1) p.csY ∧ ExactAt S (n + 1) (p.csM1 * p.csX) ∧ ExactAt S (n + 1) (p.csM2 * p.csX) ∧
      ExactAt S (n + 1) (p.csM2 * p.csY) := by
    rw [hn] at hS
    have hlen' := run.len
    obtain ⟨k0, rs, es, ee⟩ := p
    rcases hL with hL | hL
    · obtain ⟨r, rfl⟩ := List.length_eq_one_iff.mp hL
      obtain ⟨e, rfl⟩ := List.length_eq_one_iff.mp (hlen'.trans hL)
      have h1 := hS (k0 * csqrt ee * (r : ℂ)) (by simp [csArgs, Particle1.layers, layersOf])
      have h2 := hS (csqrt e / csqrt ee * (k0 * csqrt ee * (r : ℂ))) (by simp [csArgs, Particle1.layers, layersOf])
      exact ⟨h1, h2, h2, h2⟩
    · obtain ⟨r, r', rfl⟩ := List.length_eq_two.mp hL
      obtain ⟨e, e', rfl⟩ := List.length_eq_two.mp (hlen'.trans hL)
      refine ⟨hS _ ?_, hS _ ?_, hS _ ?_, hS _ ?_⟩ <;>
        simp [csArgs, Particle1.layers, layersOf, Particle1.csX, Particle1.csY, Particle1.csM1, Particle1.csM2]
  have hm := miecoef_exact hex.1 hex.2.1 hex.2.2.1 hex.2.2.2
  set g : ℕ → CoreShellOut := fun i => miecoefOrder (exactIn (i + 1) p.csM1 p.csM2 p.csX p.csY) with hg
  have hco : mieCoefficients K B' p backend w' (some o.nMax) true = .ok (p.meta o.nMax (tab n g) true) := by
    rw [mieCoefficients_cs_eq K B' p hb' w' (some o.nMax) true run.inc run.len hL]
    simp only [orderChoice, bind_ok, orderRange, if_neg (show ¬(o.nMax + 1 < 1) by omega), hsel]
    rw [hN, hm]
    rfl
  obtain ⟨-, j, hj, -⟩ := C15_one_region p.rLayers run.ne run.inc v.dist
  have hj := (regionMasks_iff p.rLayers run.ne run.inc v.dist j).1 hj
  have hal : ((o.a.length : ℕ) : ℤ) = o.nMax := by rw [la]; omega
  have hP := nearfieldsPena_waves (E0 := E0) (v := v) (eps := eps) (b := o.b) run.ne run.inc (by rw [la]; omega)
    (by rw [hal]; exact hregs) hj (by rw [la]; exact hker j hj)
  have hmC : csqrt (p.epsLayers.headD 0) ∈ p.media := by
    have := run.len
    rcases hes : p.epsLayers with _ | ⟨e, es⟩
    · rw [hes] at this; simp at this; omega
    · simp [Particle1.media, hes]
  have hmS : csqrt (p.epsLayers.getLastD 0) ∈ p.media := by
    have := run.len
    have hne : p.epsLayers ≠ [] := by
      intro h0; rw [h0] at this; simp at this; omega
    rw [List.getLastD_eq_getLast?, List.getLast?_eq_getLast_of_ne_nil hne]
    exact List.mem_append_left _ (List.mem_map_of_mem (List.getLast_mem hne))
  have hmE : csqrt p.epsEnv ∈ p.media := by simp [Particle1.media]
  have hT := nearfieldsTorch_waves (k0 := p.k0) (k := p.k0 * csqrt p.epsEnv) (E0 := E0) (rC := p.rLayers.headD 0)
    (rS := p.rLayers.getLastD 0) (n := o.nMax.toNat) (by omega) g (v := v) (eps := eps) (hBc _ (hnz _ hmC)) (hBs _ (hnz _ hmS))
    (hB2 _ (hnz _ hmS)) (hBo _ (hnz _ hmE))
  refine ⟨_, _, _, hco, rfl, hP, ?_⟩
  have htab : tab n g = (List.range o.nMax.toNat).map g := by rw [hn]; rfl
  show nearfieldsTorch Bc Bs B2 Bo p.k0 (p.k0 * csqrt p.epsEnv) (csqrt (p.epsLayers.headD 0)) (csqrt (p.epsLayers.getLastD 0))
    (csqrt p.epsEnv) (p.rLayers.headD 0) (p.rLayers.getLastD 0) E0 (tab n g) v eps = _
  rw [htab, hT, la]
  have key : ∀ i ∈ List.range o.nMax.toNat,
      torchOrder (EnCoef E0 (i + 1)) (g i) (csqrt (p.epsLayers.headD 0)) (csqrt (p.epsLayers.getLastD 0)) (csqrt p.epsEnv)
        (p.rLayers.headD 0) (p.rLayers.getLastD 0) v.dist
        (vshExact (i + 1) v.polar v.azimuth (p.k0 * csqrt (p.epsLayers.headD 0) * v.dist + eps) (ricPsi (i + 1)))
        (vshExact (i + 1) v.polar v.azimuth (p.k0 * csqrt (p.epsLayers.getLastD 0) * v.dist + eps) (ricPsi (i + 1)))
        (vshExact (i + 1) v.polar v.azimuth (p.k0 * csqrt (p.epsLayers.getLastD 0) * v.dist + eps) (ricChi (i + 1)))
        (vshExact (i + 1) v.polar v.azimuth (p.k0 * csqrt p.epsEnv * v.dist + eps) (ricZeta (i + 1))) =
      waveField (j == p.rLayers.length) E0 ((p.epsLayers.map csqrt ++ [csqrt p.epsEnv]).getD j 0)
        (p.k0 * (p.epsLayers.map csqrt ++ [csqrt p.epsEnv]).getD j 0 * v.dist + eps) v.polar v.azimuth (i + 1)
        ((regs.getD j ⟨[], [], [], []⟩).wave (i + 1)) := by
    intro i hi
    have hi := List.mem_range.1 hi
    obtain ⟨w0, w1, w2⟩ := hwv (i + 1) (by omega) hi
    obtain ⟨t3, t2, t1⟩ := torchOrder_waves E0 (g i) (csqrt (p.epsLayers.headD 0)) (csqrt (p.epsLayers.getLastD 0))
      (csqrt p.epsEnv) (p.rLayers.headD 0) (p.rLayers.getLastD 0) v.dist v.polar v.azimuth (i + 1)
      (zc := p.k0 * csqrt (p.epsLayers.headD 0) * v.dist + eps) (zo := p.k0 * csqrt p.epsEnv * v.dist + eps) (hnz _ hmS)
    have hlen' := run.len
    have hinc := run.inc
    clear hP hT hco hm hex hmC hmS hmE hnz hker hbd hS hc h run
    obtain ⟨k0, rs, es, ee⟩ := p
    obtain ⟨j1, j2, j3⟩ := hj
    simp only at hL j1 j2 j3 t1 t2 t3 w0 w1 w2 hinc
    rcases hL with hL | hL
    · obtain ⟨r, rfl⟩ := List.length_eq_one_iff.mp hL
      obtain ⟨e, rfl⟩ := List.length_eq_one_iff.mp (hlen'.trans hL)
      have : j = 0 ∨ j = 1 := by simp at j1; omega
      rcases this with rfl | rfl
      · have hd : v.dist ≤ r := j3 (by simp)
        rw [w0]; exact t1 hd hd
      · have hd : r < v.dist := j2 0 (by simp)
        have w2 : (regs.getD 1 ⟨[], [], [], []⟩).wave (i + 1) = _ := w2
        rw [w2]; exact t3 hd
    · obtain ⟨r, r', rfl⟩ := List.length_eq_two.mp hL
      obtain ⟨e, e', rfl⟩ := List.length_eq_two.mp (hlen'.trans hL)
      have hrr : r < r' := hinc.1
      have : j = 0 ∨ j = 1 ∨ j = 2 := by simp at j1; omega
      rcases this with rfl | rfl | rfl
      · have hd : v.dist ≤ r := j3 (by simp)
        rw [w0]; exact t1 hd (hd.trans hrr.le)
      · have hd : v.dist ≤ r' := j3 (by simp)
        have hd' : r < v.dist := j2 0 (by simp)
        rw [w1 rfl]; exact t2 hd' hd
      · have hd : r' < v.dist := j2 1 (by simp)
        have w2 : (regs.getD 2 ⟨[], [], [], []⟩).wave (i + 1) = _ := w2
        rw [w2]; exact t3 hd
  rw [List.map_congr_left fun i hi => congrArg Prod.fst (key i hi), List.map_congr_left fun i hi => congrArg Prod.snd (key i hi)]

/-- `C62_agree` applies: the core-shell particle of the C11 example at a point of its surface. -/
example (E0 : ℂ) : ∃ o o' co F, mieCoefficients idealD1 exactBackends demoParticle "pena" "recurrence" (some 1) = .ok o ∧
    mieCoefficients idealD1 exactBackends demoParticle "torch" "recurrence" (some o.nMax) true = .ok o' ∧ o'.internal = some co ∧
    nearfieldsPena idealD1 demoParticle.k0 demoParticle.rLayers demoParticle.epsLayers demoParticle.epsEnv E0 o.a o.b
      ⟨qp, 0, 0⟩ 0 = .ok F ∧
    nearfieldsTorch exactBessel exactBessel exactBessel exactBessel demoParticle.k0 o'.k (csqrt o'.epsC) (csqrt o'.epsS) o'.nEnv
      o'.rC o'.rS E0 co ⟨qp, 0, 0⟩ 0 = .ok F := by
  obtain ⟨o, h, hn⟩ := demo_run exactBackends
  have h1 : o.nMax.toNat = 1 := by rw [hn]; rfl
  have hq := qp_odd.big
  have hqc : (qp : ℂ) ≠ 0 := by exact_mod_cast (by linarith : (qp : ℝ) ≠ 0)
  have hd : (⟨qp, 0, 0⟩ : V3 ℝ).dist = qp := by
    simp only [V3.dist]
    rw [show qp ^ 2 + 0 ^ 2 + 0 ^ 2 = qp ^ 2 by ring, Real.sqrt_sq (by linarith)]
  have s1 : csqrt 1 = 1 := by have := csqrt_nat_sq (r := 1) (by norm_num); simpa using this
  have s2 : csqrt 81 = 9 := by have := csqrt_nat_sq (r := 9) (by norm_num); norm_num at this; exact this
  have s3 : csqrt 9 = 3 := by have := csqrt_nat_sq (r := 3) (by norm_num); norm_num at this; exact this
  have hmed : demoParticle.media = [9, 3, 1] := by simp [Particle1.media, demoParticle, s1, s2, s3]
  have ht : "torch".toLower = "torch" := by decide +kernel
  obtain ⟨o', co, F, a, b, c, d⟩ := C62_agree (K := idealD1) (B' := exactBackends) (backend := "torch") (w' := "recurrence")
    (S := exactBessel) (Bc := exactBessel) (Bs := exactBessel) (B2 := exactBessel) (Bo := exactBessel)
    (by decide +kernel) (Or.inl ht) h (by rw [h1, demo_layers]; exact demo_clear)
    (by rw [h1, demo_layers]; exact demo_bounds) (Or.inr rfl)
    (by
      have hw : "recurrence".toLower = "recurrence" := by decide +kernel
      simp only [selectBessel, ht, hw, exactBackends]
      rw [if_neg (by decide), if_pos (by decide)])
    (by
      rw [demo_layers]
      intro z hz
      refine exactBessel_at ?_
      simp only [demoLayers, csArgs, List.mem_cons, List.not_mem_nil, or_false] at hz
      rcases hz with rfl | rfl | rfl | rfl <;> simp [hqc])
    ⟨qp, 0, 0⟩ 0 E0
    (by
      rintro j ⟨j1, j2, j3⟩
      rw [hd] at j2 j3
      have hj : j = 1 := by
        have : j = 0 ∨ j = 1 ∨ j = 2 := by simp [demoParticle] at j1; omega
        rcases this with rfl | rfl | rfl
        · have := j3 (by simp [demoParticle]); simp [demoParticle] at this; linarith
        · rfl
        · have := j2 1 (by simp); simp [demoParticle] at this
      subst hj
      rw [h1, hd, hmed]
      have : demoParticle.k0 * [(9 : ℂ), 3, 1].getD 1 0 * ((qp : ℝ) : ℂ) + ((0 : ℝ) : ℂ) = ((3 * qp : ℝ) : ℂ) := by
        simp [demoParticle]
      rw [this]
      exact qp3_odd.kernelOK)
    (by
      rw [hmed, hd]
      intro m hm
      simp only [List.mem_cons, List.not_mem_nil, or_false] at hm
      rcases hm with rfl | rfl | rfl <;> simp [demoParticle, hqc])
    (fun z hz => exactBessel_at hz) (fun z hz => exactBessel_at hz) (fun z hz => exactBessel_at hz) (fun z hz => exactBessel_at hz)
  exact ⟨o, o', co, F, h, a, b, c, d⟩

/-- One glass sphere of radius 1 at wavenumber 1. -/
noncomputable def glassOne : LayerArgs where
  k0 := ⟨[], fun _ => 1⟩
  rLayers := some ⟨[1], fun _ => 1⟩
  epsLayers := some ⟨[1], fun _ => 4⟩
  epsEnv := ⟨[], fun _ => 1⟩

/-- `C62_recurrence` applies: one glass sphere, two positions. -/
example (sp : BesselBackend) (K : D1Kernel) : ∃ q o co zc zs zo F,
    mieCoefficients K (codeBackends sp) q "torch" "recurrence" (some 2) true = .ok o ∧ o.internal = some co ∧
    nearfieldsB (codeArr sp) torchFns glassOne ⟨[2, 3], fun idx => (idx.getD 0 0 : ℝ) + 1 / 2⟩ 1 "torch" "recurrence" (some 2) =
      .ok F ∧
    ∀ s : ℕ, s < 2 → ∃ f, nearfieldsTorch (torchFns zc) (torchFns zs) (torchFns zs) (torchFns zo) q.k0 o.k (csqrt o.epsC)
        (csqrt o.epsS) o.nEnv o.rC o.rS 1 co ⟨(s : ℝ) + 1 / 2, (s : ℝ) + 1 / 2, (s : ℝ) + 1 / 2⟩ = .ok f ∧
      ∀ j < 3, F.Et.get [0, 0, s, j] = f.Et.comp j := by
  obtain ⟨o, co, zc, zs, zo, F, h1, h2, h3, h4⟩ := C62_recurrence (args := glassOne) (r := ⟨[1], fun _ => 1⟩)
    (eps := ⟨[1], fun _ => 4⟩) (R := _) (n := 2) (backend := "torch") (w := "recurrence")
    (probe := ⟨[2, 3], fun idx => (idx.getD 0 0 : ℝ) + 1 / 2⟩) (Q := 2) rfl rfl
    (by intro p hp l hl; simp only at hl; omega) (Or.inl rfl) rfl rfl (by omega) (by decide +kernel) (by decide +kernel) sp K rfl
    (by omega) 1 ⟨1, zero_le_one, by simp [glassOne]⟩
  refine ⟨_, o, co, zc, zs, zo, F, h1, h2, h3, fun s hs => ?_⟩
  obtain ⟨f, hf, hj⟩ := h4 s hs
  exact ⟨f, hf, fun j hj' => (hj j hj').2.2.2.2.1⟩

/-- `C62_raises` applies: two spheres at two wavenumbers. -/
example (sp : BesselBackend) (J : TorchFns) (n : ℕ) : ∃ e, nearfieldsB (codeArr sp) J glassBatch
    ⟨[5, 3], fun idx => (idx.getD 0 0 : ℝ)⟩ 1 "scipy" "recurrence" (some n) = .error e :=
  C62_raises (args := glassBatch) (r := ⟨[2, 1], fun idx => (idx.getD 0 0 : ℝ) + 1⟩) (eps := ⟨[], fun _ => ((2 ^ 2 : ℝ) : ℂ)⟩)
    (R := _) rfl rfl (by intro p hp l hl; simp only at hl; omega) (Or.inl rfl) (Or.inr (by decide +kernel)) _ J (Q := 5) rfl 1
    (by decide)

end MieDiff
