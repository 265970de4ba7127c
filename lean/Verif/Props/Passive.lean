import Verif.Props.MatInit
import Verif.Props.EndToEnd
import Verif.Props.BackwardShell
import Verif.Props.Convergence
import Verif.Props.Absorption

/-!
# C114: particles made of the shipped materials do not emit light
-/

namespace MieDiff

open Complex

namespace Spec

/-- Permittivity of a medium that absorbs, or of a transparent one. -/
def Passive (e : ℂ) : Prop := 0 < e.im ∨ e.im = 0 ∧ 0 < e.re

/-- `o` is what `MatDatabase(name)` gives for a material of the package. -/
def ShippedObj (C : Casts) (o : DbObj) : Prop :=
  ∃ files disk name file device, files.Perm shippedNames ∧ Shipped disk ∧ file ∈ shippedNames ∧ pyLower name = materialKey file ∧
    name ≠ "" ∧ (dbInit C (refindexData files) disk name none device none).1 = .ok (.full o)

/-- A material of a layer: a passive constant, or a shipped material; a Sellmeier formula only inside its range. -/
def PassiveMat (C : Casts) (wl : ℝ) : Material → Prop
  | .const e _ => Passive e
  | .disp d => ∃ o, ShippedObj C o ∧ o.mat.disp = d ∧ (o.modelType = .data ∨ o.wlRange.1 ≤ C.f32 wl ∧ C.f32 wl ≤ o.wlRange.2)

end Spec

theorem Spec.Passive.im_nonneg {e : ℂ} (h : Spec.Passive e) : 0 ≤ e.im := h.elim le_of_lt fun h => h.1.ge

theorem Spec.Passive.ne_zero {e : ℂ} (h : Spec.Passive e) : e ≠ 0 := by
  rintro rfl
  rcases h with h | h
  · simp at h
  · simp at h

theorem passive_convex : Convex ℝ {e | Spec.Passive e} := by
  intro x hx y hy a b ha hb hab
  have hx' := hx.im_nonneg
  have hy' := hy.im_nonneg
  simp only [Set.mem_ofPred_eq, Spec.Passive, add_im, real_smul, mul_im, ofReal_re, ofReal_im, zero_mul, add_zero, add_re, mul_re, sub_zero] at *
  have h1 := mul_nonneg ha hx'
  have h2 := mul_nonneg hb hy'
  rcases (add_nonneg h1 h2).lt_or_eq with h | h
  · exact .inl h
  · refine .inr ⟨h.symm, ?_⟩
    have e1 : a * x.im = 0 := by linarith
    have e2 : b * y.im = 0 := by linarith
    have re : ∀ {t : ℝ} {z : ℂ}, 0 ≤ t → (0 < z.im ∨ z.im = 0 ∧ 0 < z.re) → t * z.im = 0 → t = 0 ∨ 0 < t * z.re := by
      intro t z ht hz h0
      rcases ht.eq_or_lt with h | h
      · exact .inl h.symm
      · rcases mul_eq_zero.mp h0 with h' | h'
        · exact .inl h'
        · rcases hz with hz | hz
          · rw [h'] at hz; exact absurd hz (lt_irrefl _)
          · exact .inr (mul_pos h hz.2)
    rcases re ha hx e1 with h3 | h3 <;> rcases re hb hy e2 with h4 | h4
    · rw [h3, h4] at hab; norm_num at hab
    · rw [h3, zero_mul, zero_add]; exact h4
    · rw [h4, zero_mul, add_zero]; exact h3
    · exact add_pos h3 h4

/-- Rounding both parts with a relative error (no underflow, no overflow) keeps a permittivity passive, which is the assumption on
`complex64` made below. -/
theorem relative_passive {C : Casts} {u : ℝ} (hu : u < 1) (h : ∀ z : ℂ, |(C.c64 z).re - z.re| ≤ u * |z.re| ∧ |(C.c64 z).im - z.im| ≤ u * |z.im|) :
    ∀ z, Spec.Passive z → Spec.Passive (C.c64 z) := by
  intro z hz
  have pos : ∀ {x y : ℝ}, 0 < x → |y - x| ≤ u * |x| → 0 < y := by
    intro x y hx h
    rw [abs_of_pos hx] at h
    have := (abs_le.mp h).1
    nlinarith
  rcases hz with hz | ⟨h0, hz⟩
  · exact .inl (pos hz (h z).2)
  · refine .inr ⟨?_, pos hz (h z).1⟩
    have := (h z).2
    rw [h0, abs_zero, mul_zero, sub_zero] at this
    exact abs_nonpos_iff.mp this

theorem bindM_inv {α β : Type} {x : Except MatErr α} {f : α → Except MatErr β} {b : β} (h : (x >>= f) = .ok b) :
    ∃ y, x = .ok y ∧ f y = .ok b := by
  cases x with
  | error e => cases h
  | ok y => exact ⟨y, rfl, h⟩

/-- C114: every shipped material is passive: tables at every wavelength, formulas inside the range the object reports. -/
theorem C114_material {C : Casts} (hC : ∀ z, Spec.Passive z → Spec.Passive (C.c64 z)) {o : DbObj} (ho : Spec.ShippedObj C o) (wl : ℝ)
    (hwl : o.modelType = .data ∨ o.wlRange.1 ≤ wl ∧ wl ≤ o.wlRange.2) : ∃ v, o.mat.disp.eval wl = .ok v ∧ Spec.Passive v := by
  obtain ⟨files, disk, name, file, device, hf, hd, h, hn, hne, hob⟩ := ho
  obtain ⟨o', h1, -, h2, -⟩ := C112_shipped C files disk hf hd name file device h hn hne
  rw [h1] at hob
  cases hob
  rcases List.mem_append.mp h with hm | hm
  · obtain ⟨f, hfm, rfl⟩ := List.mem_map.mp hm
    obtain ⟨e, hr, ht, hdat⟩ := hd.1 f hfm
    obtain ⟨rows, hl, -, hnil, -, hp⟩ := shipped_rows f hfm
    obtain ⟨r, hr', -⟩ := tableRange_extremes (l := rows.map fun r => C.f32 r.1) (by simpa using hnil)
    have hsp : splitWs e.type = ["tabulated".toList, "nk".toList] := by rw [ht]; decide +kernel
    have hmod : loadModel C e = .ok (.data, r, .ofTable C rows) := by
      simp only [loadModel, hsp, if_true, hdat, yKey, hl, hr', ofPy, Bind.bind, Except.bind]
    simp only [dbInit, if_neg hne, shipped_find hf h hn] at h1
    rw [dbLoad_ok hr hmod] at h1
    cases h1
    obtain ⟨y, hy, hy'⟩ := (C33_convex wl (rows.map fun r => (C.f32 r.1, C.c64 r.2))).2 (by simpa using hnil)
    refine ⟨y, hy, convexHull_min ?_ passive_convex hy'⟩
    rintro v ⟨p, hp', rfl⟩
    obtain ⟨q, hq, rfl⟩ := List.mem_map.mp hp'
    exact hC _ (hp q hq)
  · rcases h2 with ⟨ht, -⟩ | ⟨ht, -, hv⟩
    · exfalso
      obtain ⟨f, hfm, rfl⟩ := List.mem_map.mp hm
      obtain ⟨e, hr, ht', -⟩ := hd.2 f hfm
      simp only [dbInit, if_neg hne, shipped_find hf h hn] at h1
      have hsp : splitWs e.type = ["formula".toList, "1".toList] := by rw [ht']; decide +kernel
      obtain ⟨e', es, m, d, g1, g2, -, g4⟩ := dbLoad_inv (congrArg Prod.fst h1)
      rw [hr] at g1
      cases g1
      cases g4
      simp only [loadModel, hsp, if_neg (show ("formula".toList : List Char) ≠ "tabulated".toList by decide), if_true,
        show pyIntTok "1".toList = some 1 by decide +kernel] at g2
      obtain ⟨_, -, g2⟩ := bindM_inv g2
      obtain ⟨_, -, g2⟩ := bindM_inv g2
      obtain ⟨_, -, g2⟩ := bindM_inv g2
      obtain ⟨_, -, g2⟩ := bindM_inv g2
      cases g2
      cases ht
    · rcases hwl with h' | ⟨h3, h4⟩
      · rw [ht] at h'; cases h'
      · obtain ⟨v, hv, hv'⟩ := hv wl h3 h4
        exact ⟨v, hv, .inr ⟨by simp, by simp; linarith⟩⟩

section
variable {C : Casts} {before after : List WOp} {a : ParticleArgs} {k0 : DTen ℝ} {K : ℕ} {Q : ℕ → Particle1}

/-- C114: a particle whose layers are passive constants or shipped materials hands passive permittivities to the solver. -/
theorem C114_layers (hC : ∀ z, Spec.Passive z → Spec.Passive (C.c64 z)) (S : Scenario C before a after k0 K Q) (he : a.epsLayers = none)
    (κ : ℕ → ℝ) (hκ : ∀ k < K, (Q k).k0 = κ k)
    (hm : ∀ k < K, ∀ m ∈ Spec.layerMats a, ∀ M, Spec.materialOf C ((⟨[], []⟩ : World).run C before).heap m = some M →
      Spec.PassiveMat C (2 * Real.pi / κ k) M) :
    ∀ k < K, ∀ e ∈ (Q k).epsLayers, Spec.Passive e := by
  intro k hk e hek
  obtain ⟨ix, -, D⟩ := S.ix
  have hw : k0.ten.get (ix k) = κ k := by
    have := D.wavenumber k hk
    rw [hκ k hk] at this
    exact_mod_cast this.symm
  have hF := D.mats he k hk
  obtain ⟨i, hi, rfl⟩ := List.getElem_of_mem hek
  obtain ⟨M, hM, hv⟩ := hF.get (i := i) (hF.length_eq ▸ hi) hi
  have hp := hm k hk _ (List.get_mem _ ⟨i, hF.length_eq ▸ hi⟩) M hM
  rw [hw] at hv
  cases M with
  | const x ls =>
    simp only [Spec.Material.at, Except.ok.injEq] at hv
    have : Spec.Passive x := hp
    rw [hv] at this
    exact this
  | disp d =>
    obtain ⟨o, ho, rfl, hr⟩ := hp
    obtain ⟨v, hv', hpv⟩ := C114_material hC ho (C.f32 (2 * Real.pi / κ k)) hr
    simp only [Spec.Material.at, hv', Except.map, Except.ok.injEq] at hv
    have := hC _ hpv
    rw [hv] at this
    exact this

theorem Scenario.eps_length (S : Scenario C before a after k0 K Q) (he : a.epsLayers = none) :
    ∀ k < K, (Q k).epsLayers.length = (Q k).rLayers.length := by
  intro k hk
  obtain ⟨ix, -, D⟩ := S.ix
  rw [D.radii k hk, ← (D.mats he k hk).length_eq]
  rcases S.accepted.1 with ⟨r, L, hr, hs, -, ⟨e, h, -⟩ | ⟨ms, -, hms, hl, -⟩, -⟩ | ⟨h1, -, h3, rc, mc, hrc, hmc, -, -, hsh⟩
  · rw [he] at h; cases h
  · simp [Spec.layerMats, hms, ParticleArgs.radii, hr, Ten.numel, hs, hl]
  · rcases hsh with ⟨h4, h5⟩ | ⟨rs, ms, h4, h5, -⟩
    · simp [Spec.layerMats, h3, ParticleArgs.radii, h1, hrc, hmc, h4, h5]
    · simp [Spec.layerMats, h3, ParticleArgs.radii, h1, hrc, hmc, h4, h5]

theorem increasing_of_index {l : List ℝ} (h : ∀ i x y, l[i]? = some x → l[i + 1]? = some y → x < y) : strictlyIncreasing l := by
  induction l with
  | nil => trivial
  | cons x l ih =>
    cases l with
    | nil => trivial
    | cons y l => exact ⟨h 0 x y rfl rfl, ih fun i u v hu hv => h (i + 1) u v (by simpa using hu) (by simpa using hv)⟩

/-- C114: in a lossless host the boundary conditions of such a particle have exactly one solution at every order. -/
theorem C114_solvable (hC : ∀ z, Spec.Passive z → Spec.Passive (C.c64 z)) (S : Scenario C before a after k0 K Q) (he : a.epsLayers = none)
    (hinc : ∀ i x y, a.radii[i]? = some x → a.radii[i + 1]? = some y → x < y)
    (κ e0 : ℕ → ℝ) (hh : ∀ k < K, RealHost (Q k) (κ k) (e0 k))
    (hm : ∀ k < K, ∀ m ∈ Spec.layerMats a, ∀ M, Spec.materialOf C ((⟨[], []⟩ : World).run C before).heap m = some M →
      Spec.PassiveMat C (2 * Real.pi / κ k) M) :
    ∀ k < K, ∀ (q : Spec.Pol) (n : ℕ), ∃! c, Spec.Solves q n (Q k).layers c := by
  intro k hk q n
  obtain ⟨ix, -, D⟩ := S.ix
  have hr := D.radii k hk
  have hp := C114_layers hC S he κ (fun k hk => (hh k hk).k0_eq) hm k hk
  refine C68_solvable (hh k hk) (by rw [hr]; exact increasing_of_index hinc) (S.eps_length he k hk) ?_ (fun e h => (hp e h).im_nonneg)
    (fun e h => (hp e h).ne_zero) q n
  rw [hr]
  exact List.ne_nil_of_length_pos S.layers

/-- C114: `get_cross_sections` of a sphere or core-shell particle of shipped materials in a lossless host succeeds with the
scipy backend and exact special functions; at every wavenumber each absorption multipole and the total absorption are not negative,
so that no more light is scattered than is taken out of the beam; the absorption vanishes exactly when no layer is lossy. -/
theorem C114_absorption (hC : ∀ z, Spec.Passive z → Spec.Passive (C.c64 z)) (S : Scenario C before a after k0 K Q) (he : a.epsLayers = none)
    (hinc : ∀ i x y, a.radii[i]? = some x → a.radii[i + 1]? = some y → x < y) (hl : a.radii.length ≤ 2)
    (κ e0 : ℕ → ℝ) (hh : ∀ k < K, RealHost (Q k) (κ k) (e0 k))
    (hm : ∀ k < K, ∀ m ∈ Spec.layerMats a, ∀ M, Spec.materialOf C ((⟨[], []⟩ : World).run C before).heap m = some M →
      Spec.PassiveMat C (2 * Real.pi / κ k) M)
    {backend : String} (w : String) (hb : backend.toLower = "scipy") {sp : BesselBackend}
    (hsp : ∀ (n : ℕ) z l, sp.jn n z = .ok l → l.length = n + 1) (hneg : ∀ n < 0, ∀ z l, sp.jn n z ≠ .ok l)
    {n : ℕ} (hn : 1 ≤ n) (hex : ∀ z ≠ 0, ExactAt sp n z) :
    ∃ q c, particleAfter C before a after = some q ∧
      q.crossSectionsWith (codeArr sp) C k0 (worldAfter C before a after).heap backend w (some n) = .ok c ∧
      ∀ k < K, (∀ x ∈ (c.at n K k).csAbsMp.1, 0 ≤ x) ∧ (∀ x ∈ (c.at n K k).csAbsMp.2, 0 ≤ x) ∧ 0 ≤ (c.at n K k).csAbs ∧
        (c.at n K k).csSca ≤ (c.at n K k).csExt ∧ ((c.at n K k).csAbs = 0 ↔ ∀ e ∈ (Q k).epsLayers, e.im = 0) := by
  have hp := C114_layers hC S he κ (fun k hk => (hh k hk).k0_eq) hm
  have hb' : backend.toLower ≠ "pena" := by rw [hb]; decide
  have hsel : selectBessel (codeBackends sp) backend w = .ok sp := by
    unfold selectBessel
    rw [hb, if_neg (by rintro ⟨h, -⟩; exact absurd h (by decide)), if_neg (by rintro ⟨h, -⟩; exact absurd h (by decide)), if_pos rfl]
    rfl
  have hrun : ∀ k < K, ∃ o, mieCoefficients codeD1 (codeBackends sp) (Q k) backend w (some n) = .ok o ∧ o.nMax = n := by
    intro k hk
    obtain ⟨ix, -, D⟩ := S.ix
    have hr := D.radii k hk
    have hz := csArgs_ne (layers_ne (hh k hk) fun e h => (hp k hk e h).ne_zero)
    have l1 : 1 ≤ (Q k).rLayers.length := by rw [hr]; exact S.layers
    have l2 : (Q k).rLayers.length ≤ 2 := by rw [hr]; exact hl
    obtain ⟨-, -, -, a1, a2, a3, a4⟩ := layers_ends (S.eps_length he k hk) l1 l2 rfl rfl rfl rfl
    obtain ⟨n, rfl⟩ : ∃ n', n = n' + 1 := ⟨n - 1, by omega⟩
    exact shellCall_ok (.inr hb) hn (by rw [hr]; exact increasing_of_index hinc) (S.eps_length he k hk) l1 l2 hsel
      (miecoef_exact (hex _ (hz _ a1)) (hex _ (hz _ a2)) (hex _ (hz _ a3)) (hex _ (hz _ a4))) false
  obtain ⟨q, m, c, s, hq, -, hc, -, h⟩ := C58_scipy S hinc hl w hb hsp hneg codeD1 hn (Ten.ofList 0 []) (nt := 0) rfl
    fun k hk => (hrun k hk).imp fun _ h => h.1
  refine ⟨q, c, hq, hc, fun k hk => ?_⟩
  obtain ⟨o, ho, hon⟩ := hrun k hk
  obtain ⟨o', ho', hco⟩ := crossSectionsOf_inv (h k hk).2.1
  rw [ho] at ho'
  cases ho'
  have hex' : ∀ S', selectBessel (codeBackends sp) backend w = .ok S' → ∀ z ∈ csArgs (Q k).layers, ExactAt S' o.nMax.toNat z := by
    intro S' hS' z hz
    rw [hsel] at hS'
    cases hS'
    rw [hon, Int.toNat_natCast]
    exact hex z (csArgs_ne (layers_ne (hh k hk) fun e h => (hp k hk e h).ne_zero) z hz)
  have hpos : 1 ≤ o.nMax := by rw [hon]; exact_mod_cast hn
  have hE := (C68_core_shell hb' ho hpos hex' (hh k hk) (fun e h => (hp k hk e h).im_nonneg) (fun e h => (hp k hk e h).ne_zero)).2.1
  have hZ := (C99_core_shell (.inr hb) ho hpos hex' (hh k hk) (fun e h => (hp k hk e h).ne_zero) (fun e h => (hp k hk e h).im_nonneg)).1
  rw [(mieCoefficients_basic ho).k, realHost_k (hh k hk)] at hZ
  rw [hco, (mieCoefficients_basic ho).k, realHost_k (hh k hk)]
  have hmp := (C05_multipoles (κ k * Real.sqrt (e0 k)) o.rS o.a o.b).2.2
  have ha : ∀ x ∈ (crossSections ((κ k * Real.sqrt (e0 k) : ℝ) : ℂ) o.rS o.a o.b).csAbsMp.1, 0 ≤ x := by
    rw [hmp]; intro x hx
    have := absMp_bound (s := 1) (fun z hz => by have := hE z (.inl hz); linarith) x hx
    linarith
  have hbb : ∀ x ∈ (crossSections ((κ k * Real.sqrt (e0 k) : ℝ) : ℂ) o.rS o.a o.b).csAbsMp.2, 0 ≤ x := by
    rw [hmp]; intro x hx
    have := absMp_bound (s := 1) (fun z hz => by have := hE z (.inr hz); linarith) x hx
    linarith
  have hab : 0 ≤ (crossSections ((κ k * Real.sqrt (e0 k) : ℝ) : ℂ) o.rS o.a o.b).csAbs := by
    rw [(C05_totals _ _ _ _).2.2]
    exact add_nonneg (List.sum_nonneg ha) (List.sum_nonneg hbb)
  refine ⟨ha, hbb, hab, ?_, hZ⟩
  rw [C05_ext_eq_sca_add_abs]
  linarith

end

/-! ### Example -/

/-- A core of a dispersive material (object 0) with a shell of index 2, asked at 500 and 600 nm. -/
noncomputable def coreArgs : ParticleArgs where
  rLayers := some (Ten.ofList 0 [50, 80])
  matLayers := some [.obj 0, .num 2]

noncomputable def coreQ (v : ℕ → ℂ) (k : ℕ) : Particle1 where
  k0 := ((2 * Real.pi / (500 + 100 * (k : ℕ)) : ℝ) : ℂ)
  rLayers := [50, 80]
  epsLayers := [v k, 2 ^ 2]
  epsEnv := 1 ^ 2

theorem coreScenario {d : Dispersion} {v : ℕ → ℂ} (hv : ∀ k : ℕ, d.eval (500 + 100 * k) = .ok (v k)) :
    Scenario ⟨id, id⟩ [.newDb d "cpu"] coreArgs [] demoK0 2 (coreQ v) where
  unshared := by
    refine ⟨by simp, ?_, trivial⟩
    intro a _ id _ p hp
    simp [World.step] at hp
  accepted := by
    refine ⟨.inl ⟨_, 2, rfl, rfl, by norm_num, .inr ⟨_, rfl, rfl, rfl, ?_⟩, rfl, rfl, rfl, rfl⟩, trivial⟩
    intro m hm
    simp only [List.mem_cons, List.not_mem_nil, or_false] at hm
    rcases hm with rfl | rfl <;> trivial
  exist := by
    intro m hm
    simp only [coreArgs, ParticleArgs.allMats, Option.getD_some, Option.toList_none, List.append_nil, List.cons_append,
      List.nil_append, List.mem_cons, List.not_mem_nil, or_false] at hm
    rcases hm with rfl | rfl | rfl
    · simp [MatArg.Exists, World.run, World.step]
    · trivial
    · trivial
  one := by norm_num
  ix := by
    refine ⟨fun k => [k], rfl, ?_, ?_, ?_, ?_, ?_⟩
    · intro k _
      simp [coreQ, demoK0]
    · intro k _
      simp [coreQ, coreArgs, ParticleArgs.radii, Ten.ofList, Ten.numel, List.range_succ]
    · intro k _
      exact ⟨_, rfl, rfl⟩
    · intro e he
      cases he
    · intro _ k _
      have hwl : 2 * Real.pi / demoK0.ten.get [k] = 500 + 100 * k := by
        have h1 : (500 + 100 * (k : ℝ)) ≠ 0 := by positivity
        have h2 := Real.pi_ne_zero
        simp only [demoK0, List.headD_cons]
        field_simp
      rw [hwl]
      refine .cons ⟨.disp d, rfl, ?_⟩ (.cons ⟨.const (2 ^ 2) [], rfl, rfl⟩ .nil)
      simp only [Spec.Material.at, id, hv]
      rfl

theorem coreArgs_increasing : ∀ i x y, coreArgs.radii[i]? = some x → coreArgs.radii[i + 1]? = some y → x < y := by
  intro i x y hx hy
  rcases i with _ | i
  · simp [coreArgs, ParticleArgs.radii, Ten.ofList, Ten.numel, List.range_succ] at hx hy
    subst hx hy
    norm_num
  · simp [coreArgs, ParticleArgs.radii, Ten.ofList, Ten.numel, List.range_succ] at hy

theorem core_host (v : ℕ → ℂ) : ∀ k < 2, RealHost (coreQ v k) (2 * Real.pi / (500 + 100 * (k : ℕ))) 1 := fun k _ =>
  ⟨rfl, by positivity, by simp [coreQ], one_pos, by
    intro r hr
    simp only [coreQ, List.mem_cons, List.not_mem_nil, or_false] at hr
    rcases hr with rfl | rfl <;> norm_num⟩

theorem core_mats {o : DbObj} (ho : Spec.ShippedObj ⟨id, id⟩ o) (ht : o.modelType = .data) : ∀ k < 2, ∀ m ∈ Spec.layerMats coreArgs, ∀ M,
    Spec.materialOf ⟨id, id⟩ ((⟨[], []⟩ : World).run ⟨id, id⟩ [.newDb o.mat.disp "cpu"]).heap m = some M →
      Spec.PassiveMat ⟨id, id⟩ (2 * Real.pi / (2 * Real.pi / (500 + 100 * (k : ℕ)))) M := by
  intro k _ m hm M hM
  simp only [Spec.layerMats, coreArgs, List.mem_cons, List.not_mem_nil, or_false] at hm
  rcases hm with rfl | rfl
  · cases hM
    exact ⟨o, ho, rfl, .inl ht⟩
  · cases hM
    exact .inr (by norm_num [pow_two])

/-- Exact special functions that refuse a negative order. -/
noncomputable def scipyExact : BesselBackend where
  jn n z := if n < 0 then .error .valueError else .ok (tab n.toNat fun k => Spec.sphJ k z)
  yn n z := if n < 0 then .error .valueError else .ok (tab n.toNat fun k => Spec.sphY k z)

/-- A core of any shipped tabulated material with a shell of index 2 in vacuum: the absorption is not negative. -/
example {o : DbObj} (ho : Spec.ShippedObj ⟨id, id⟩ o) (ht : o.modelType = .data) :
    ∃ q c, particleAfter ⟨id, id⟩ [.newDb o.mat.disp "cpu"] coreArgs [] = some q ∧
      q.crossSectionsWith (codeArr scipyExact) ⟨id, id⟩ demoK0 (worldAfter ⟨id, id⟩ [.newDb o.mat.disp "cpu"] coreArgs []).heap "scipy" "recurrence"
        (some (3 : ℕ)) = .ok c ∧ ∀ k < 2, 0 ≤ (c.at 3 2 k).csAbs := by
  choose v hv using fun k : ℕ => C114_material (C := ⟨id, id⟩) (fun _ h => h) ho (500 + 100 * k) (.inl ht)
  obtain ⟨q, c, hq, hc, h⟩ := C114_absorption (C := ⟨id, id⟩) (fun _ h => h) (coreScenario fun k => (hv k).1) rfl
    coreArgs_increasing
    (by simp [coreArgs, ParticleArgs.radii, Ten.ofList, Ten.numel]) (fun k => 2 * Real.pi / (500 + 100 * (k : ℕ))) (fun _ => 1)
    (core_host v) (core_mats ho ht)
    (backend := "scipy") "recurrence" (by decide +kernel) (sp := scipyExact)
    (by
      intro n z l h
      simp only [scipyExact, if_neg (show ¬(n : ℤ) < 0 by omega), Except.ok.injEq] at h
      rw [← h]
      simp [tab])
    (by intro n hn z l h; simp [scipyExact, hn] at h)
    (n := 3) (by norm_num) (fun z hz => ⟨hz, rfl, rfl⟩)
  exact ⟨q, c, hq, hc, fun k hk => (h k hk).2.2.1⟩

/-- Silicon of the package is such a material. -/
theorem silicon_shipped : ∃ o, Spec.ShippedObj ⟨id, id⟩ o ∧ o.modelType = .data := by
  have hmem : "Si_Schinke2015.yml" ∈ Spec.shippedNames := by rw [shippedNames_eq]; decide +kernel
  obtain ⟨o, h, -⟩ := C112_shipped ⟨id, id⟩ Spec.shippedNames shippedDisk (List.Perm.refl _) shippedDisk_ok "SI" "Si_Schinke2015.yml" "cpu"
    hmem (by decide +kernel) (by decide)
  refine ⟨o, ⟨Spec.shippedNames, shippedDisk, "SI", _, "cpu", List.Perm.refl _, shippedDisk_ok, hmem, by decide +kernel,
    by decide, by rw [h]⟩, ?_⟩
  have hm : ("Si_Schinke2015.yml", dataSi) ∈ shippedTables := by simp [shippedTables]
  obtain ⟨e, hr, ht, -⟩ := shippedDisk_ok.1 _ hm
  simp only [dbInit, if_neg (show ("SI" : String) ≠ "" by decide), shipped_find (List.Perm.refl _) hmem (show pyLower "SI" = _ by decide +kernel)] at h
  obtain ⟨e', es, m, d, g1, g2, -, g4⟩ := dbLoad_inv (congrArg Prod.fst h)
  rw [hr] at g1
  cases g1
  cases g4
  simp only [loadModel, show splitWs e.type = ["tabulated".toList, "nk".toList] by rw [ht]; decide +kernel, if_true] at g2
  obtain ⟨_, -, g2⟩ := bindM_inv g2
  obtain ⟨_, -, g2⟩ := bindM_inv g2
  obtain ⟨_, -, g2⟩ := bindM_inv g2
  cases g2
  rfl

/-- Silicon is passive at every wavelength, and at 500 and 600 nm the silicon particle with its shell has one solution per order. -/
example : ∃ o v, Spec.ShippedObj ⟨id, id⟩ o ∧ (∀ k : ℕ, o.mat.disp.eval (500 + 100 * k) = .ok (v k) ∧ Spec.Passive (v k)) ∧
    ∀ k < 2, ∀ (q : Spec.Pol) (n : ℕ), ∃! c, Spec.Solves q n (coreQ v k).layers c := by
  obtain ⟨o, ho, ht⟩ := silicon_shipped
  choose v hv using fun k : ℕ => C114_material (C := ⟨id, id⟩) (fun _ h => h) ho (500 + 100 * k) (.inl ht)
  exact ⟨o, v, ho, hv, C114_solvable (C := ⟨id, id⟩) (fun _ h => h) (coreScenario fun k => (hv k).1) rfl coreArgs_increasing
    (fun k => 2 * Real.pi / (500 + 100 * (k : ℕ))) (fun _ => 1) (core_host v) (core_mats ho ht)⟩

end MieDiff
