import Verif.Props.CoreShell
import Verif.Props.Special
import Verif.Props.Convergence
import Verif.Model.BatchTorch

/-!
# C80: zeros of the sine

Both torch versions of `j_n` are anchored at `j_0(z) = sin z / z`: `sph_jn_torch_via_rec` rescales the recurrence so that order 0 becomes
`sin z / z` (special.py:778-781), `sph_jn_torch` multiplies `sin z / z` by ratios of consecutive orders (special.py:898-911).  Where the
sine vanishes all orders are lost.  The docstring of `sph_jn_torch_via_rec` warns of this at `z = pi` and says that the logarithmic derivatives
do not pose this risk; but the pena backend builds `psi_n` as a product starting with `sin x` as well (special.py:682-694).
-/

namespace MieDiff

open Complex Spec

theorem sphJnViaRec_sin_zero (n : ℕ) {z : ℂ} (hs : sin z = 0) (hz : 1e-10 ≤ ‖z‖) (zm : ℝ) :
    sphJnViaRec n z zm = .ok (tab n fun _ => 0) := by
  obtain ⟨k, h1, -, h2⟩ := (C46_depth_partial n z zm).1 10 35 (by norm_num)
  have hk : 10 ≤ k := by rcases h2 with h2 | h2 <;> omega
  obtain ⟨m, rfl⟩ := Int.eq_ofNat_of_zero_le (show 0 ≤ k by omega)
  rw [h1]
  refine (sphJnViaRecDepth_eq n z m (by omega) (by norm_num) hz).trans ?_
  simp [hs]

theorem sphJnTorch_sin_zero (n : ℕ) {z : ℂ} (hs : sin z = 0) (hz : 1e-8 ≤ ‖z‖) (zm : ℝ) :
    sphJnTorch n z zm = .ok (tab n fun _ => 0) := by
  obtain ⟨k, h1, -, h2⟩ := (C46_depth_partial n z zm).2 50 (not_lt.2 hz)
  have hk : 20 ≤ k := by rcases h2 with h2 | h2 <;> omega
  obtain ⟨m, rfl⟩ := Int.eq_ofNat_of_zero_le (show 0 ≤ k by omega)
  rw [h1]
  refine (sphJnTorchDepth_eq n z m (by norm_num) hz).trans ?_
  simp [hs]

/-- C80: at every zero of the sine except the origin both torch functions return 0 in every order, whatever the depth, although `j_1`
does not vanish there. -/
theorem C80_orders (n : ℕ) {z : ℂ} (hs : sin z = 0) (hz : 1e-8 ≤ ‖z‖) (zm : ℝ) :
    sphJnViaRec n z zm = .ok (List.replicate (n + 1) 0) ∧ sphJnTorch n z zm = .ok (List.replicate (n + 1) 0) ∧ sphJ 1 z ≠ 0 := by
  have e : (tab n fun _ => (0 : ℂ)) = List.replicate (n + 1) 0 := by simp [tab, List.map_const']
  have hz0 : z ≠ 0 := by rintro rfl; norm_num at hz
  refine ⟨by rw [← e]; exact sphJnViaRec_sin_zero n hs (le_trans (by norm_num) hz) zm, by rw [← e]; exact sphJnTorch_sin_zero n hs hz zm, ?_⟩
  have hc : cos z ≠ 0 := by
    intro hc
    have := sin_sq_add_cos_sq z
    rw [hs, hc] at this
    norm_num at this
  rw [sphJ_one hz0, hs]
  simp [hc, hz0]

/-! ## Mie coefficients -/

/-- The hypotheses hold at π, where `j_1(π) = 1/π`. -/
example : sphJnTorch 2 (Real.pi : ℂ) 10 = .ok [0, 0, 0] ∧ sphJ 1 (Real.pi : ℂ) = 1 / Real.pi := by
  have p0 : (Real.pi : ℂ) ≠ 0 := ofReal_ne_zero.2 Real.pi_ne_zero
  refine ⟨(C80_orders 2 sin_pi ?_ 10).2.1, ?_⟩
  · rw [norm_real, Real.norm_of_nonneg Real.pi_pos.le]
    linarith [Real.pi_gt_three]
  · rw [sphJ_one p0, sin_pi, cos_pi]
    field_simp
    simp


theorem fDer_zeros {z : ℂ} {n : ℕ} {l : List ℂ} (h : fDer z (tab n fun _ => 0) = .ok l) (i : ℕ) : l.getD i 0 = 0 := by
  unfold fDer at h
  simp only [Bind.bind, Except.bind] at h
  split at h
  · simp at h
  rename_i v hv
  have hv0 : v = 0 := by
    unfold pyIdx at hv
    rw [tab_getElem?] at hv
    split_ifs at hv; simp_all
  obtain rfl := Except.ok.inj h
  subst hv0
  rcases i with _ | i
  · simp
  · have g : ∀ j, (tab n fun _ => (0 : ℂ)).getD j 0 = 0 := fun j => by
      rw [List.getD_eq_getElem?_getD, tab_getElem?]
      split_ifs <;> rfl
    rw [List.getD_cons_succ, List.getD_eq_getElem?_getD]
    simp only [List.getElem?_map, g]
    cases (List.range _)[i]? <;> simp

theorem miecoefOrder_zero {p : CoreShellIn} (h1 : p.psi_y = 0) (h2 : p.dpsi_y = 0) : (miecoefOrder p).a = 0 ∧ (miecoefOrder p).b = 0 := by
  simp [miecoefOrder, h1, h2]

/-- If all orders of `j_n` vanish at the outer size parameter, so do all scattering coefficients. -/
theorem miecoef_zero {S : BesselBackend} {x y m1 m2 : ℂ} {n : ℤ} {N : ℕ} {out : List CoreShellOut} (hj : S.jn n y = .ok (tab N fun _ => 0))
    (h : miecoef S x y n m1 m2 = .ok out) : ∀ c ∈ out, c.a = 0 ∧ c.b = 0 := by
  unfold miecoef miecoef4 at h
  rw [hj] at h
  simp only [Bind.bind, Except.bind] at h
  repeat' (split at h <;> [simp at h; skip])
  obtain rfl := Except.ok.inj h
  intro c hc
  obtain ⟨i, -, rfl⟩ := List.mem_map.1 (List.mem_of_mem_tail hc)
  have g : ∀ j, (tab N fun _ => (0 : ℂ)).getD j 0 = 0 := fun j => by
    rw [List.getD_eq_getElem?_getD, tab_getElem?]
    split_ifs <;> rfl
  have d := fDer_zeros (by assumption) i
  exact miecoefOrder_zero (by simp only [g, mul_zero]) (by simp only [g, d, mul_zero, add_zero])

/-- The functions of the torch backends at a zero of the sine. -/
theorem torch_sin_zero {sp S : BesselBackend} {backend w : String} (hb : backend.toLower = "torch")
    (hS : selectBessel (codeBackends sp) backend w = .ok S) (n : ℕ) {z : ℂ} (hs : sin z = 0) (hz : 1e-8 ≤ ‖z‖) :
    S.jn n z = .ok (tab n fun _ => 0) := by
  unfold selectBessel at hS
  by_cases hw : w.toLower = "recurrence"
  · rw [if_neg (by simp [hw]), if_pos ⟨hb, hw⟩] at hS
    obtain rfl := Except.ok.inj hS
    exact sphJnViaRec_sin_zero n hs (le_trans (by norm_num) hz) _
  · rw [if_pos ⟨hb, hw⟩] at hS
    obtain rfl := Except.ok.inj hS
    show sphJnTorchNd n z ‖z‖ = _
    unfold sphJnTorchNd
    rw [if_neg fun h => (not_lt.2 hz) h.2]
    exact sphJnTorch_sin_zero n hs hz _

theorem cross_zero {k : ℂ} {r : ℝ} {a b : List ℂ} (za : ∀ c ∈ a, c = 0) (zb : ∀ c ∈ b, c = 0) :
    let cs := crossSections k r a b
    cs.csExt = 0 ∧ cs.csSca = 0 ∧ cs.csAbs = 0 := by
  have mp : ∀ l : List ℂ, (∀ c ∈ l, c = 0) → (mpTerms k l).sum = 0 := fun l hl => by
    refine List.sum_eq_zero fun v hv => ?_
    unfold mpTerms at hv
    obtain ⟨i, hi, rfl⟩ := List.mem_mapIdx.1 hv
    rw [hl _ (List.getElem_mem _), mul_zero]
  have map0 : ∀ (f : ℂ → ℂ) (l : List ℂ), f 0 = 0 → (∀ c ∈ l, c = 0) → ∀ c ∈ l.map f, c = 0 := fun f l hf hl c hc => by
    obtain ⟨d, hd, rfl⟩ := List.mem_map.1 hc
    rw [hl d hd, hf]
  have e1 : (crossSections k r a b).csExt = 0 := by
    simp only [crossSections]
    rw [mp _ (map0 _ _ (by simp) za), mp _ (map0 _ _ (by simp) zb)]
    simp
  have e2 : (crossSections k r a b).csSca = 0 := by
    simp only [crossSections]
    rw [mp _ (map0 _ _ (by simp) za), mp _ (map0 _ _ (by simp) zb)]
    simp
  have e3 := C05_ext_eq_sca_add_abs k r a b
  exact ⟨e1, e2, by rw [e1, e2] at e3; linarith⟩

/-- C80: whatever the particle is made of, if the size parameter of its outer surface is a zero of the sine (a multiple of π in a lossless
host), the torch backend returns zero for every scattering coefficient and cross section, with both choices of `which_jn`.  (Where in
addition the determinant of the closed form vanishes, the code returns NaN; the model has 0 there as well.) -/
theorem C80_invisible {K : D1Kernel} {sp : BesselBackend} {p : Particle1} {backend w : String} {nMax : Option ℤ} {ri : Bool} {o : MieOut}
    (hb : backend.toLower = "torch") (h : mieCoefficients K (codeBackends sp) p backend w nMax ri = .ok o)
    (hs : sin (p.layers.getLastD (1, 0)).2 = 0) (hz : 1e-8 ≤ ‖(p.layers.getLastD (1, 0)).2‖) :
    (∀ c ∈ o.a, c = 0) ∧ (∀ c ∈ o.b, c = 0) ∧
    let cs := crossSections o.k o.rS o.a o.b
    cs.csExt = 0 ∧ cs.csSca = 0 ∧ cs.csAbs = 0 := by
  obtain ⟨m1, x, m2, y, hrun⟩ := mieCoefficients_cs_inv (by rw [hb]; decide) h
  obtain ⟨S, out, hS, hm, ha, hb', -⟩ := hrun.run
  have ey : (p.layers.getLastD (1, 0)).2 = y := by
    rcases hrun.layers with hl | ⟨hl, -, rfl⟩ <;> rw [hl] <;> rfl
  rw [ey] at hs hz
  obtain ⟨n, hn⟩ := Int.eq_ofNat_of_zero_le hrun.nonneg
  rw [hn] at hm
  have z := miecoef_zero (torch_sin_zero hb hS n hs hz) hm
  have za : ∀ c ∈ o.a, c = 0 := by
    rw [ha]
    intro c hc
    obtain ⟨d, hd, rfl⟩ := List.mem_map.1 hc
    exact (z d hd).1
  have zb : ∀ c ∈ o.b, c = 0 := by
    rw [hb']
    intro c hc
    obtain ⟨d, hd, rfl⟩ := List.mem_map.1 hc
    exact (z d hd).2
  exact ⟨za, zb, cross_zero za zb⟩

/-! ## The pena backend -/

theorem prodSeq_zero (zs : ℂ) (D : ℕ → ℂ) : ∀ i, prodSeq 0 zs D i = 0
  | 0 => rfl
  | i + 1 => by rw [prodSeq, prodSeq_zero zs D i, zero_mul]

theorem hFold_x (D : ℂ → ℕ → ℂ) : ∀ (rest : List (ℂ × ℂ)) (st : HState) (m : ℂ),
    (rest.foldl (hStep D) st).x = (((m, st.x) :: rest).getLastD (1, 0)).2
  | [], st, m => rfl
  | l :: rest, st, m => by
    rw [List.foldl_cons, hFold_x D rest _ l.1]
    rfl

/-- C80: the same holds for the pena backend, for any number of layers and whatever kernel supplies the logarithmic derivatives: `psi_n` is
computed as a product starting with `sin x`. -/
theorem C80_pena {K : D1Kernel} {D : ℂ → ℕ → ℂ} {B : Backends} {p : Particle1} {backend w : String} {nMax : Option ℤ} {ri : Bool} {o : MieOut}
    (hb : backend.toLower = "pena") (h : mieCoefficients K B p backend w nMax ri = .ok o) (hK : KernelFun K o.nMax.toNat D)
    (hs : sin (p.layers.getLastD (1, 0)).2 = 0) :
    (∀ c ∈ o.a, c = 0) ∧ (∀ c ∈ o.b, c = 0) ∧
    let cs := crossSections o.k o.rS o.a o.b
    cs.csExt = 0 ∧ cs.csSca = 0 ∧ cs.csAbs = 0 := by
  have hr := mieCoefficients_pena_inv hb h
  obtain ⟨l, rest, hl⟩ := hr.layers_cons
  obtain ⟨ha, hb'⟩ := hr.coefs hK hl
  have hx : (hFinal D l rest).x = (p.layers.getLastD (1, 0)).2 := by
    rw [hl]
    exact hFold_x D rest (hInit D l) l.1
  have z : ∀ q i, coefFn D q (hFinal D l rest) i = 0 := by
    intro q i
    unfold coefFn psiFn finalCoef
    rw [hx, hs, prodSeq_zero, prodSeq_zero]
    simp
  have za : ∀ c ∈ o.a, c = 0 := by
    rw [ha]
    intro c hc
    obtain ⟨i, -, rfl⟩ := List.mem_map.1 hc
    exact z _ _
  have zb : ∀ c ∈ o.b, c = 0 := by
    rw [hb']
    intro c hc
    obtain ⟨i, -, rfl⟩ := List.mem_map.1 hc
    exact z _ _
  exact ⟨za, zb, cross_zero za zb⟩

/-! ## A particle that the code makes invisible -/

theorem fDer_returns (z : ℂ) (n : ℕ) (f : ℕ → ℂ) : ∃ l, fDer z (tab (n + 1) f) = .ok l := by
  unfold fDer
  rw [pyIdx_tab (by omega)]
  exact ⟨_, rfl⟩

/-- `_miecoef` succeeds when the special functions return all orders. -/
theorem miecoef_ok {S : BesselBackend} {x y m1 m2 : ℂ} {n : ℕ}
    (hj : ∀ z ∈ [y, m1 * x, m2 * x, m2 * y], ∃ f, S.jn ((n + 1 : ℕ) : ℤ) z = .ok (tab (n + 1) f))
    (hy : ∀ z ∈ [y, m1 * x, m2 * x, m2 * y], ∃ f, S.yn ((n + 1 : ℕ) : ℤ) z = .ok (tab (n + 1) f)) :
    ∃ out, miecoef S x y ((n + 1 : ℕ) : ℤ) m1 m2 = .ok out ∧ out.length = n + 1 := by
  obtain ⟨f1, h1⟩ := hj y (by simp)
  obtain ⟨f2, h2⟩ := hj (m1 * x) (by simp)
  obtain ⟨f3, h3⟩ := hj (m2 * x) (by simp)
  obtain ⟨f4, h4⟩ := hj (m2 * y) (by simp)
  obtain ⟨g1, k1⟩ := hy y (by simp)
  obtain ⟨g3, k3⟩ := hy (m2 * x) (by simp)
  obtain ⟨g4, k4⟩ := hy (m2 * y) (by simp)
  obtain ⟨d1, e1⟩ := fDer_returns y n f1
  obtain ⟨d2, e2⟩ := fDer_returns (m1 * x) n f2
  obtain ⟨d3, e3⟩ := fDer_returns (m2 * x) n f3
  obtain ⟨d4, e4⟩ := fDer_returns (m2 * y) n f4
  obtain ⟨c1, q1⟩ := fDer_returns y n g1
  obtain ⟨c3, q3⟩ := fDer_returns (m2 * x) n g3
  obtain ⟨c4, q4⟩ := fDer_returns (m2 * y) n g4
  unfold miecoef miecoef4
  rw [h1, h2, h3, h4, k1, k3, k4]
  simp only [Bind.bind, Except.bind]
  rw [e1, e2, e3, e4, q1, q3, q4]
  exact ⟨_, rfl, by simp⟩

/-- The torch functions return all orders for arguments that are not tiny. -/
theorem torch_orders {sp S : BesselBackend} {backend w : String} (hb : backend.toLower = "torch")
    (hS : selectBessel (codeBackends sp) backend w = .ok S) (n : ℕ) {z : ℂ} (hz : 1e-8 ≤ ‖z‖) :
    (∃ f, S.jn n z = .ok (tab n f)) ∧ ∃ f, S.yn n z = .ok (tab n f) := by
  have h10 : (1e-10 : ℝ) ≤ ‖z‖ := le_trans (by norm_num) hz
  unfold selectBessel at hS
  by_cases hw : w.toLower = "recurrence"
  · rw [if_neg (by simp [hw]), if_pos ⟨hb, hw⟩] at hS
    obtain rfl := Except.ok.inj hS
    refine ⟨?_, _, sphYnTorch_eq n z (by norm_num) h10⟩
    obtain ⟨k, h1, -, h2⟩ := (C46_depth_partial n z ‖z‖).1 10 35 (by norm_num)
    have hk : 10 ≤ k := by rcases h2 with h2 | h2 <;> omega
    obtain ⟨m, rfl⟩ := Int.eq_ofNat_of_zero_le (show 0 ≤ k by omega)
    exact ⟨_, h1.trans (sphJnViaRecDepth_eq n z m (by omega) (by norm_num) h10)⟩
  · rw [if_pos ⟨hb, hw⟩] at hS
    obtain rfl := Except.ok.inj hS
    refine ⟨?_, _, sphYnTorch_eq n z (by norm_num) h10⟩
    show ∃ f, sphJnTorchNd n z ‖z‖ = _
    unfold sphJnTorchNd
    rw [if_neg fun h => (not_lt.2 hz) h.2]
    obtain ⟨k, h1, -, h2⟩ := (C46_depth_partial n z ‖z‖).2 50 (not_lt.2 hz)
    have hk : 20 ≤ k := by rcases h2 with h2 | h2 <;> omega
    obtain ⟨m, rfl⟩ := Int.eq_ofNat_of_zero_le (show 0 ≤ k by omega)
    exact ⟨_, h1.trans (sphJnTorchDepth_eq n z m (by norm_num) hz)⟩

/-- A sphere of index 3/2 in vacuum with `k r = π`. -/
noncomputable def piSphere : Particle1 := ⟨(Real.pi : ℂ), [1], [((9 / 4 : ℝ) : ℂ)], ((1 : ℝ) : ℂ)⟩

theorem sqrt_nine_quarters : csqrt ((9 / 4 : ℝ) : ℂ) = 3 / 2 := by
  have := csqrt_nat_sq (r := 3 / 2) (by norm_num)
  rw [show ((3 / 2 : ℝ) ^ 2) = 9 / 4 by norm_num] at this
  rw [this]
  push_cast
  rfl

theorem sqrt_one : csqrt ((1 : ℝ) : ℂ) = 1 := by
  have := csqrt_nat_sq (r := 1) (by norm_num)
  rw [one_pow] at this
  rw [this, ofReal_one]

theorem piSphere_layers : piSphere.layers = [(3 / 2, (Real.pi : ℂ))] := by
  simp only [piSphere, Particle1.layers, layersOf, List.map_cons, List.map_nil, sqrt_nine_quarters, sqrt_one]
  simp

theorem piSphere_run (K : D1Kernel) (sp : BesselBackend) (w : String) :
    ∃ o, mieCoefficients K (codeBackends sp) piSphere "torch" w (some 1) = .ok o ∧ o.a.length = 1 ∧ o.b.length = 1 := by
  have ht : "torch".toLower = "torch" := by decide +kernel
  obtain ⟨S, hS⟩ : ∃ S, selectBessel (codeBackends sp) "torch" w = .ok S := by
    unfold selectBessel
    by_cases hw : w.toLower = "recurrence"
    · rw [if_neg (by simp [hw]), if_pos ⟨ht, hw⟩]; exact ⟨_, rfl⟩
    · rw [if_pos ⟨ht, hw⟩]; exact ⟨_, rfl⟩
  have n1 : (1e-8 : ℝ) ≤ ‖(Real.pi : ℂ)‖ := by
    rw [norm_real, Real.norm_of_nonneg Real.pi_pos.le]
    linarith [Real.pi_gt_three]
  have n2 : (1e-8 : ℝ) ≤ ‖(3 / 2 : ℂ) * (Real.pi : ℂ)‖ := by
    rw [norm_mul, norm_real, Real.norm_of_nonneg Real.pi_pos.le, show ‖(3 / 2 : ℂ)‖ = 3 / 2 by norm_num]
    linarith [Real.pi_gt_three]
  have hz : ∀ z ∈ [(Real.pi : ℂ), 3 / 2 * (Real.pi : ℂ), 3 / 2 * (Real.pi : ℂ), 3 / 2 * (Real.pi : ℂ)], (1e-8 : ℝ) ≤ ‖z‖ := by
    intro z hz
    simp only [List.mem_cons, List.not_mem_nil, or_false] at hz
    rcases hz with rfl | rfl | rfl | rfl <;> assumption
  obtain ⟨out, hout, hl⟩ := miecoef_ok (S := S) (x := (Real.pi : ℂ)) (y := (Real.pi : ℂ)) (m1 := 3 / 2) (m2 := 3 / 2) (n := 0)
    (fun z h => (torch_orders ht hS 1 (hz z h)).1) fun z h => (torch_orders ht hS 1 (hz z h)).2
  unfold piSphere mieCoefficients
  simp only [ht, true_or, not_true_eq_false, if_false]
  rw [if_neg (by simp [strictlyIncreasing]), if_neg (by simp)]
  simp only [Bind.bind, Except.bind, pyIdx, List.getElem?_cons_zero, orderChoice, orderRange, List.length_cons, List.length_nil]
  rw [if_neg (by norm_num)]
  simp only [show ("torch" = "pena") = False by decide, if_false]
  rw [if_neg (by norm_num), hS]
  simp only [zero_add, gt_iff_lt, lt_irrefl, if_false, sqrt_nine_quarters, sqrt_one]
  simp only [ofReal_one, mul_one, div_one]
  have hout' : miecoef S (Real.pi : ℂ) (Real.pi : ℂ) 1 (3 / 2) (3 / 2) = .ok out := hout
  rw [hout']
  exact ⟨_, rfl, by simp [hl], by simp [hl]⟩

/-- C80: for this sphere the torch backend and the pena backend, at every depth of its recurrence, answer with zero coefficients, while
the scattering coefficient of the sphere is not zero. -/
theorem C80_wrong (K : D1Kernel) (sp : BesselBackend) (w : String) :
    (∃ o, mieCoefficients K (codeBackends sp) piSphere "torch" w (some 1) = .ok o ∧ o.a = [0] ∧ o.b = [0]) ∧
    (∃ o, mieCoefficients codeD1 (codeBackends sp) piSphere "pena" w (some 1) = .ok o ∧ o.a = [0] ∧ o.b = [0]) ∧
    (∀ N ≥ 1, ∃ o, mieCoefficients (depthD1 N) (codeBackends sp) piSphere "pena" w (some 1) = .ok o ∧ o.a = [0] ∧ o.b = [0]) ∧
    (∃! a, Solves .tm 1 piSphere.layers a) ∧ ∀ a, Solves .tm 1 piSphere.layers a → a ≠ 0 := by
  obtain ⟨o, h, l1, l2⟩ := piSphere_run K sp w
  have hy : (piSphere.layers.getLastD (1, 0)).2 = (Real.pi : ℂ) := by rw [piSphere_layers]; rfl
  have hz : (1e-8 : ℝ) ≤ ‖(Real.pi : ℂ)‖ := by
    rw [norm_real, Real.norm_of_nonneg Real.pi_pos.le]
    linarith [Real.pi_gt_three]
  obtain ⟨za, zb, -⟩ := C80_invisible (by decide +kernel) h (by rw [hy]; exact sin_pi) (by rw [hy]; exact hz)
  have one : ∀ l : List ℂ, l.length = 1 → (∀ c ∈ l, c = 0) → l = [0] := fun l hl h0 => by
    obtain ⟨c, rfl⟩ := List.length_eq_one_iff.1 hl
    rw [h0 c (by simp)]
  have hb : "pena".toLower = "pena" := by decide +kernel
  have pena : ∀ {K : D1Kernel} {D : ℂ → ℕ → ℂ}, KernelFun K 1 D →
      ∃ o, mieCoefficients K (codeBackends sp) piSphere "pena" w (some 1) = .ok o ∧ o.a = [0] ∧ o.b = [0] := by
    intro K D hK
    obtain ⟨o, h, hn⟩ := mieCoefficients_pena_ok (B := codeBackends sp) (p := piSphere) (w := w) hK hb le_rfl
      (by simp [piSphere, strictlyIncreasing]) rfl (by simp [piSphere])
    have hK' : KernelFun K o.nMax.toNat D := by rw [hn]; exact hK
    obtain ⟨za, zb, -⟩ := C80_pena hb h hK' (by rw [hy]; exact sin_pi)
    obtain ⟨l, rest, hl⟩ := (mieCoefficients_pena_inv hb h).layers_cons
    obtain ⟨ea, eb⟩ := (mieCoefficients_pena_inv hb h).coefs hK' hl
    refine ⟨o, h, one _ ?_ za, one _ ?_ zb⟩
    · rw [ea, List.length_map, List.length_range, hn]; rfl
    · rw [eb, List.length_map, List.length_range, hn]; rfl
  refine ⟨⟨o, h, one _ l1 za, one _ l2 zb⟩, pena (codeD1_fun 1), fun N hN => pena (depthD1_fun 1 N hN), ?_, ?_⟩
  · have hp : RealHost piSphere Real.pi 1 := ⟨rfl, Real.pi_pos, rfl, one_pos, by simp [piSphere]⟩
    refine C68_solvable hp (by simp [piSphere, strictlyIncreasing]) rfl (by simp [piSphere]) ?_ ?_ _ _
    · intro e he
      simp only [piSphere, List.mem_singleton] at he
      rw [he, ofReal_im]
    · intro e he
      simp only [piSphere, List.mem_singleton] at he
      rw [he]
      norm_num
  · rw [piSphere_layers]
    rintro a ⟨⟨d, c⟩, hc, h1, h2⟩ rfl
    obtain rfl : c = 0 := hc
    simp only [Wave.val, Wave.der, zero_mul, sub_zero, one_mul, mul_one] at h1 h2
    have p0 : (Real.pi : ℂ) ≠ 0 := ofReal_ne_zero.2 Real.pi_ne_zero
    have q0 : (3 / 2 * Real.pi : ℂ) ≠ 0 := mul_ne_zero (by norm_num) p0
    have s : sin (3 / 2 * (Real.pi : ℂ)) = -1 := by
      rw [show (3 / 2 * (Real.pi : ℂ)) = Real.pi / 2 + Real.pi by ring, sin_add_pi, sin_pi_div_two]
    have k : cos (3 / 2 * (Real.pi : ℂ)) = 0 := by
      rw [show (3 / 2 * (Real.pi : ℂ)) = Real.pi / 2 + Real.pi by ring, cos_add_pi, cos_pi_div_two, neg_zero]
    have psi : ∀ z : ℂ, z ≠ 0 → ricPsi 1 z = sin z / z - cos z := fun z hz => by
      unfold ricPsi
      rw [sphJ_one hz]
      field_simp
    rw [deriv_ricPsi_lower 0 p0, deriv_ricPsi_lower 0 q0, ricPsi_zero _ p0, ricPsi_zero _ q0, zero_add, psi _ p0, psi _ q0, s, k] at h2
    rw [psi _ p0, psi _ q0, s, k] at h1
    rw [sin_pi, cos_pi] at h1 h2
    have hd : d = -(3 / 2 * Real.pi) := by
      field_simp at h1 ⊢
      linear_combination -h1
    rw [hd] at h2
    field_simp at h2
    have h3 : (((9 * Real.pi ^ 2 - 4 : ℝ)) : ℂ) = ((-9 : ℝ) : ℂ) := by
      push_cast
      refine mul_left_cancel₀ p0 ?_
      rw [Nat.cast_zero] at h2
      linear_combination h2
    have h4 := ofReal_injective h3
    nlinarith [Real.pi_gt_three]

end MieDiff
