import Verif.Proofs.RoundedShell
import Verif.Props.Rounded

/-!
# C95: rounding errors of the core-shell backends

`backend='scipy'` and `backend='torch'` in an arithmetic whose operations have relative error at most `u` (`Arith.Within`), with SciPy's
functions having error at most `u` (`Arith.Bess.Within`).  With exact operations the program is the model of the other chapters.
-/

namespace MieDiff

open Complex Spec Filter Topology

/-- SciPy's functions without error. -/
noncomputable def exactScipy : Arith.Bess := ⟨fun z k => sphJ k z, fun z k => sphY k z⟩

variable {p : Particle1} {n : ℕ} {k : ShellKind} {sp : BesselBackend}

/-! ## Exact arithmetic -/

theorem exact_jRec (z : ℂ) (N j : ℕ) : exactArith.jRec z N j = jDown z N j := by
  induction j with
  | zero => rfl
  | succ j ih => simp only [Arith.jRec, jDown, ih]; rfl

theorem exact_safe (z : ℂ) : exactArith.safe z = guardSet 1e-10 z := rfl

theorem exact_viaRec (n d : ℕ) (z : ℂ) : exactArith.viaRec n d z = viaRecFn n d z := by
  funext k
  simp only [Arith.viaRec, exact_jRec, exact_safe]
  rfl

theorem exact_ratioDown (z : ℂ) (N j : ℕ) : exactArith.ratioDown z N j = cfDown z N j := by
  induction j with
  | zero => rfl
  | succ j ih => simp only [Arith.ratioDown, cfDown, ih]; rfl

theorem exact_ratioProd (z : ℂ) (N j : ℕ) : exactArith.ratioProd z N j = cfProd z N j := by
  induction j with
  | zero => rfl
  | succ j ih => simp only [Arith.ratioProd, cfProd, cf, ih, exact_ratioDown]; rfl

theorem exact_ratio (n d : ℕ) (z : ℂ) : exactArith.ratio n d z = ratioFn n d z := by
  funext k
  cases k with
  | zero => rfl
  | succ k => simp only [Arith.ratio, ratioFn, exact_ratioProd]; rfl

theorem exact_yRec (z : ℂ) : ∀ k, exactArith.yRec z k = yUp z k
  | 0 => rfl
  | 1 => by simp only [Arith.yRec, yUp, sq]; rfl
  | k + 2 => by simp only [Arith.yRec, yUp, exact_yRec z k, exact_yRec z (k + 1)]; rfl

theorem exact_recDepth (z : ℂ) : exactArith.recDepth z = Node.recDepth z := by
  have e : (exactArith.mul ((3 / 2 : ℝ) : ℂ) (exactArith.abs z)).re = 3 / 2 * ‖z‖ := by
    change (((3 / 2 : ℝ) : ℂ) * (‖z‖ : ℂ)).re = _
    rw [← ofReal_mul, ofReal_re]
  unfold Arith.recDepth
  rw [e]
  rfl

theorem exact_ratioDepth (z : ℂ) : exactArith.ratioDepth z = Node.ratioDepth z := by
  have e : (exactArith.mul (exactArith.abs z) ((2 : ℝ) : ℂ)).re = ‖z‖ * 2 := by
    change ((‖z‖ : ℂ) * ((2 : ℝ) : ℂ)).re = _
    rw [← ofReal_mul, ofReal_re]
  unfold Arith.ratioDepth
  rw [e]
  rfl

theorem exact_bess (n : ℕ) (z : ℂ) : (k.rounded exactArith exactScipy n).jn z = (k.fn n z).j z ∧
    (k.rounded exactArith exactScipy n).yn z = (k.fn n z).y z := by
  cases k with
  | scipy => exact ⟨rfl, rfl⟩
  | recurrence =>
    refine ⟨?_, funext fun j => ?_⟩
    · simp only [ShellKind.rounded, Arith.bessRec, exact_viaRec, exact_recDepth]; rfl
    · simp only [ShellKind.rounded, Arith.bessRec, exact_yRec]; rfl
  | ratios =>
    refine ⟨?_, funext fun j => ?_⟩
    · simp only [ShellKind.rounded, Arith.bessRatio, exact_ratio, exact_ratioDepth]; rfl
    · simp only [ShellKind.rounded, Arith.bessRatio, exact_yRec]; rfl

theorem exact_fDer (z : ℂ) (f : ℕ → ℂ) : exactArith.fDer z f = derFn z f := by
  funext j
  cases j <;> rfl

theorem exact_shellOrder (q : CoreShellIn) : exactArith.shellOrder q = miecoefOrder q := by
  simp only [Arith.shellOrder, miecoefOrder, sq q.m2]
  rfl

theorem exact_shell (hlen : p.epsLayers.length = p.rLayers.length) (l1 : 1 ≤ p.rLayers.length) (l2 : p.rLayers.length ≤ 2) (i : ℕ) :
    exactArith.shell (k.rounded exactArith exactScipy n) p i = miecoefOrder (k.inputs n i p.layers) := by
  obtain ⟨e1, e2, -⟩ := layers_ends hlen l1 l2 rfl rfl rfl rfl
  have hm : ∀ a b, exactArith.mul a b = a * b := fun _ _ => rfl
  simp only [Arith.shell, exact_shellOrder, ShellKind.inputs, e1, e2, Arith.shellIn, exact_fDer, (exact_bess n _).1, (exact_bess n _).2, hm]
  rfl

/-- What a successful call returns. -/
theorem shell_out {K : D1Kernel} {backend w : String} {nMax : Option ℤ} {ri : Bool} {o : MieOut} (hname : k.Named backend w)
    (h : mieCoefficients K (codeBackends sp) p backend w nMax ri = .ok o) (hn : o.nMax = n) (hpos : 1 ≤ n)
    (hsp : k = .scipy → ∀ z ∈ csArgs p.layers, ExactAt sp n z) :
    ShellRun (codeBackends sp) p backend w ri o ∧
    o.a = (List.range n).map (fun i => (miecoefOrder (k.inputs n (i + 1) p.layers)).a) ∧
    o.b = (List.range n).map (fun i => (miecoefOrder (k.inputs n (i + 1) p.layers)).b) ∧
    o.internal = if ri then some ((List.range n).map fun i => miecoefOrder (k.inputs n (i + 1) p.layers)) else none := by
  obtain ⟨hb, hsel⟩ := hname.select sp
  have run := shellRun_of hb h
  refine ⟨run, ?_⟩
  obtain ⟨S, out, hS, hm, ea, eb, ei⟩ := run.run
  rw [hsel] at hS
  cases hS
  rw [hn] at hm
  obtain ⟨e1, e2, -, a1, a2, a3, a4⟩ := layers_ends run.len run.one run.two rfl rfl rfl rfl
  obtain ⟨j0, j1, j2, j3⟩ := miecoef_ok_jn hm
  have runs : ∀ z ∈ csArgs p.layers, (∃ l, (k.select sp).jn n z = .ok l) → RunsAt (k.select sp) n (k.fn n z) z := by
    intro z hz hl
    cases k with
    | scipy => exact ⟨(hsp rfl z hz).j, (hsp rfl z hz).y⟩
    | recurrence => exact rec_runs sp n z
    | ratios =>
      have h8 : 1e-8 ≤ ‖z‖ := by
        by_contra hc
        obtain ⟨l, hl⟩ := hl
        change sphJnTorchNd n z ‖z‖ = _ at hl
        unfold sphJnTorchNd at hl
        rw [if_pos ⟨by exact_mod_cast hpos, not_le.1 hc⟩] at hl
        simp at hl
      exact ratio_runs sp n h8
  obtain ⟨n, rfl⟩ : ∃ n', n = n' + 1 := ⟨n - 1, by omega⟩
  rw [miecoef_run (runs _ a1 j0) (runs _ a2 j1) (runs _ a3 j2) (runs _ a4 j3)] at hm
  cases hm
  simp only [ShellKind.inputs, e1, e2]
  refine ⟨?_, ?_, ?_⟩
  · rw [ea, map_tab]; rfl
  · rw [eb, map_tab]; rfl
  · rw [ei]; rfl

/-- C95: with exact operations and exact SciPy functions the operation-by-operation program returns what `mie_coefficients` and
`cross_sections` return. -/
theorem C95_exact_arithmetic {K : D1Kernel} {backend w : String} {nMax : Option ℤ} {ri : Bool} {o : MieOut} (hname : k.Named backend w)
    (h : mieCoefficients K (codeBackends sp) p backend w nMax ri = .ok o) (hn : o.nMax = n) (hpos : 1 ≤ n)
    (hsp : k = .scipy → ∀ z ∈ csArgs p.layers, ExactAt sp n z) :
    exactScipy.Within 0 ∧
    (let B := k.rounded exactArith exactScipy n
     o.a = (List.range n).map (fun i => (exactArith.shell B p (i + 1)).a) ∧
     o.b = (List.range n).map (fun i => (exactArith.shell B p (i + 1)).b) ∧
     o.internal = (if ri then some ((List.range n).map fun i => exactArith.shell B p (i + 1)) else none) ∧
     (let cs := crossSections o.k o.rS o.a o.b
      exactArith.shellCross n B p = ⟨cs.csExt, cs.csSca, cs.csAbs, cs.qExt, cs.qSca, cs.qAbs⟩)) := by
  obtain ⟨run, ea, eb, ei⟩ := shell_out hname h hn hpos hsp
  refine ⟨⟨fun z _ k => ?_, fun z _ k => ?_⟩, ?_⟩
  · simp [exactScipy]
  · simp [exactScipy]
  intro B
  have hs : ∀ i, exactArith.shell B p i = miecoefOrder (k.inputs n i p.layers) := fun i => exact_shell run.len run.one run.two i
  simp only [hs]
  refine ⟨ea, eb, ei, ?_⟩
  have zipr : ∀ f g : ℕ → ℂ, List.zipWith (· - ·) ((List.range n).map f) ((List.range n).map g) =
      (List.range n).map fun i => f i - g i := fun f g => by rw [List.zipWith_map, List.zipWith_self]
  have eff : ∀ c r : ℝ, ((c : ℂ) / ((Real.pi : ℂ) * ((r : ℂ) * (r : ℂ)))).re = c / (Real.pi * r ^ 2) := fun c r => by
    rw [← ofReal_mul, ← ofReal_mul, ← ofReal_div, ofReal_re, sq]
  have hsq : ∀ z : ℂ, ((‖z‖ ^ 2 : ℝ) : ℂ) = (‖z‖ : ℂ) * (‖z‖ : ℂ) := fun z => by rw [sq]; push_cast; rfl
  simp only [crossSections, ea, eb, run.k, run.rS, List.map_map, Function.comp_def, mpTerms_map_range, zipr, ← eff, hsq,
    ← List.sum_append]
  simp only [Arith.shellCross, Arith.crossWith, exact_mpTerm, hs]
  rfl

/-! ## Accuracy -/

/-- Two sets of coefficients of one order differ by less than `ε`. -/
structure OutClose (x y : CoreShellOut) (ε : ℝ) : Prop where
  a : ‖x.a - y.a‖ < ε
  b : ‖x.b - y.b‖ < ε
  c : ‖x.c - y.c‖ < ε
  d : ‖x.d - y.d‖ < ε
  f : ‖x.f - y.f‖ < ε
  g : ‖x.g - y.g‖ < ε
  v : ‖x.v - y.v‖ < ε
  w : ‖x.w - y.w‖ < ε

/-- Two sets of cross sections differ by less than `ε`. -/
structure CrossClose (x : Arith.Cross) (y : CrossSections) (ε : ℝ) : Prop where
  ext : |x.ext - y.csExt| < ε
  sca : |x.sca - y.csSca| < ε
  abs : |x.abs - y.csAbs| < ε
  qExt : |x.qExt - y.qExt| < ε
  qSca : |x.qSca - y.qSca| < ε
  qAbs : |x.qAbs - y.qAbs| < ε

/-- The run in the arithmetic `A` with special functions `B` is within `ε` of the result `o`. -/
structure ShellClose (A : Arith) (B : Arith.Bess) (n : ℕ) (p : Particle1) (o : MieOut) (ε : ℝ) : Prop where
  coef : ∀ i, 1 ≤ i → i ≤ n → ‖(A.shell B p i).a - o.a.getD (i - 1) 0‖ < ε ∧ ‖(A.shell B p i).b - o.b.getD (i - 1) 0‖ < ε
  internal : ∀ l, o.internal = some l → ∀ i, 1 ≤ i → i ≤ n → OutClose (A.shell B p i) (l.getD (i - 1) noOrder) ε
  cross : CrossClose (A.shellCross n B p) (crossSections o.k o.rS o.a o.b) ε

theorem Arith.Bess.Within.mono {S : Arith.Bess} {u v : ℝ} (h : S.Within u) (huv : u ≤ v) : S.Within v :=
  ⟨fun z hz k => (h.j z hz k).trans (mul_le_mul_of_nonneg_right huv (by positivity)),
    fun z hz k => (h.y z hz k).trans (mul_le_mul_of_nonneg_right huv (by positivity))⟩

/-- What holds eventually for every sequence of arithmetics and special functions holds uniformly. -/
theorem uniform_shell {P : Arith → Arith.Bess → Prop}
    (h : ∀ (A : ℕ → Arith) (S : ℕ → Arith.Bess), Refining A → BessRefining S → ∀ᶠ t in atTop, P (A t) (S t)) :
    ∃ u0 > 0, ∀ A : Arith, A.Within u0 → ∀ S : Arith.Bess, S.Within u0 → P A S := by
  by_contra hcon
  push Not at hcon
  have hk : ∀ t : ℕ, ∃ A : Arith, ∃ S : Arith.Bess, A.Within (1 / ((t : ℝ) + 1)) ∧ S.Within (1 / ((t : ℝ) + 1)) ∧ ¬ P A S := by
    intro t
    obtain ⟨A, h1, S, h2, h3⟩ := hcon (1 / ((t : ℝ) + 1)) (by positivity)
    exact ⟨A, S, h1, h2, h3⟩
  choose A S h1 h2 h3 using hk
  obtain ⟨t, ht⟩ := (h A S ⟨_, tendsto_one_div_add_atTop_nhds_zero_nat, h1⟩ ⟨_, tendsto_one_div_add_atTop_nhds_zero_nat, h2⟩).exists
  exact h3 t ht

theorem close_of_lim {f : ℕ → ℂ} {l : ℂ} (hf : Tendsto f atTop (𝓝 l)) {ε : ℝ} (hε : 0 < ε) : ∀ᶠ t in atTop, ‖f t - l‖ < ε := by
  filter_upwards [Metric.tendsto_nhds.1 hf ε hε] with t ht
  rwa [dist_eq_norm] at ht

theorem OutRnd.close {A : ℕ → Arith} {x : ℕ → CoreShellOut} {y : CoreShellOut} (h : OutRnd A x y) {ε : ℝ} (hε : 0 < ε) :
    ∀ᶠ t in atTop, OutClose (x t) y ε := by
  filter_upwards [close_of_lim h.a.lim hε, close_of_lim h.b.lim hε, close_of_lim h.c.lim hε, close_of_lim h.d.lim hε,
    close_of_lim h.f.lim hε, close_of_lim h.g.lim hε, close_of_lim h.v.lim hε, close_of_lim h.w.lim hε] with t h1 h2 h3 h4 h5 h6 h7 h8
  exact ⟨h1, h2, h3, h4, h5, h6, h7, h8⟩

/-- All coefficients and cross sections are eventually close to those of `out`. -/
theorem shell_eventually {A : ℕ → Arith} {B : ℕ → Arith.Bess} {out : ℕ → CoreShellOut} (hA : Refining A)
    (hk : p.k0 * csqrt p.epsEnv ≠ 0) (hr : p.rLayers.getLastD 0 ≠ 0)
    (h : ∀ i, 1 ≤ i → i ≤ n → OutRnd A (fun t => (A t).shell (B t) p i) (out i)) {ε : ℝ} (hε : 0 < ε) :
    ∀ᶠ t in atTop, (∀ i, 1 ≤ i → i ≤ n → OutClose ((A t).shell (B t) p i) (out i) ε) ∧
      CrossClose ((A t).shellCross n (B t) p) (crossOf n p (fun i => (out i).a) fun i => (out i).b) ε := by
  have h1 : ∀ᶠ t in atTop, ∀ i ∈ Set.Icc 1 n, OutClose ((A t).shell (B t) p i) (out i) ε :=
    (eventually_all_finite (Set.finite_Icc 1 n)).2 fun i hi => (h i hi.1 hi.2).close hε
  obtain ⟨c1, c2, c3, c4, c5, c6⟩ := crossWith_refines (n := n)
    (c := fun t i => (((A t).shell (B t) p i).a, ((A t).shell (B t) p i).b)) hA hk hr
    (ca := fun i => (out (i + 1)).a) (cb := fun i => (out (i + 1)).b)
    (fun i hi => (h (i + 1) (by omega) (by omega)).a.lim) (fun i hi => (h (i + 1) (by omega) (by omega)).b.lim)
  have nr : ∀ {f : ℕ → ℝ} {l : ℝ}, Tendsto f atTop (𝓝 l) → ∀ᶠ t in atTop, |f t - l| < ε := fun hf => by
    filter_upwards [Metric.tendsto_nhds.1 hf ε hε] with t ht
    rwa [Real.dist_eq] at ht
  filter_upwards [h1, nr c1, nr c2, nr c3, nr c4, nr c5, nr c6] with t k0 k1 k2 k3 k4 k5 k6
  exact ⟨fun i i1 i2 => k0 i ⟨i1, i2⟩, k1, k2, k3, k4, k5, k6⟩

theorem shell_regular (hlen : p.epsLayers.length = p.rLayers.length) (l1 : 1 ≤ p.rLayers.length) (l2 : p.rLayers.length ≤ 2)
    (hz : ∀ z ∈ csArgs p.layers, z ≠ 0) : csqrt p.epsEnv ≠ 0 ∧ p.k0 * csqrt p.epsEnv ≠ 0 ∧ p.rLayers.getLastD 0 ≠ 0 := by
  obtain ⟨-, -, -, a1, -⟩ := layers_ends hlen l1 l2 rfl rfl rfl rfl
  have h := hz _ a1
  have hk := left_ne_zero_of_mul h
  refine ⟨right_ne_zero_of_mul hk, hk, fun h0 => h ?_⟩
  rw [h0]
  simp

/-- C95: for every tolerance there is a rounding error such that in every arithmetic at least as accurate, with SciPy functions at least as
accurate, all coefficients (also the internal ones), cross sections and efficiencies are within the tolerance of those returned by the
program in exact arithmetic, if the depths of the recurrences are not at a jump (`Stable`), no guard fires (`Clear`) and the
computed interface equations are solvable. -/
theorem C95_accurate {K : D1Kernel} {backend w : String} {nMax : Option ℤ} {ri : Bool} {o : MieOut} (hname : k.Named backend w)
    (h : mieCoefficients K (codeBackends sp) p backend w nMax ri = .ok o) (hn : o.nMax = n) (hpos : 1 ≤ n)
    (hsp : k = .scipy → ∀ z ∈ csArgs p.layers, ExactAt sp n z)
    (hz : ∀ z ∈ csArgs p.layers, k.Stable z ∧ k.Clear n z) (hd : k.Solvable n p.layers) {ε : ℝ} (hε : 0 < ε) :
    ∃ u0 > 0, ∀ A : Arith, A.Within u0 → ∀ S : Arith.Bess, S.Within u0 → ShellClose A (k.rounded A S n) n p o ε := by
  obtain ⟨run, ea, eb, ei⟩ := shell_out hname h hn hpos hsp
  obtain ⟨h0, hk, hr⟩ := shell_regular run.len run.one run.two fun z hz' => (hz z hz').2.ne
  refine uniform_shell fun A S hA hS => ?_
  have key := shell_eventually (n := n) hA hk hr (fun i i1 i2 =>
    shell_refines (k := k) hA hS run.len run.one run.two h0 hz (hd i i1 i2).1 (hd i i1 i2).2) hε
  filter_upwards [key] with t ht
  have out : ∀ i, 1 ≤ i → i ≤ n →
      ((List.range n).map fun i => miecoefOrder (k.inputs n (i + 1) p.layers)).getD (i - 1) noOrder = miecoefOrder (k.inputs n i p.layers) := by
    intro i i1 i2
    rw [List.getD_eq_getElem?_getD, List.getElem?_map, List.getElem?_range (by omega)]
    simp [Nat.sub_add_cancel i1]
  refine ⟨fun i i1 i2 => ⟨?_, ?_⟩, fun l hl i i1 i2 => ?_, ?_⟩
  · rw [ea, getD_range (f := fun j => (miecoefOrder (k.inputs n j p.layers)).a) i1 i2]
    exact (ht.1 i i1 i2).a
  · rw [eb, getD_range (f := fun j => (miecoefOrder (k.inputs n j p.layers)).b) i1 i2]
    exact (ht.1 i i1 i2).b
  · rw [ei] at hl
    split at hl
    · cases hl
      rw [out i i1 i2]
      exact ht.1 i i1 i2
    · cases hl
  · rw [run.k, run.rS, ea, eb]
    exact ht.2

/-- C95 for `backend='scipy'`: for every passive sphere or coated sphere in a real host, without further conditions, the rounded coefficients
approach the solution of the interface problem, and the cross sections those computed from it. -/
theorem C95_scipy {k0 e0 : ℝ} (hp : PassiveAt p k0 e0) (l2 : p.rLayers.length ≤ 2) (n : ℕ) {ε : ℝ} (hε : 0 < ε) :
    ∃ u0 > 0, ∀ A : Arith, A.Within u0 → ∀ S : Arith.Bess, S.Within u0 →
      (∀ i, 1 ≤ i → i ≤ n → ‖(A.shell S p i).a - coef .tm i p.layers‖ < ε ∧ ‖(A.shell S p i).b - coef .te i p.layers‖ < ε) ∧
      CrossClose (A.shellCross n S p) (crossOf n p (fun i => coef .tm i p.layers) fun i => coef .te i p.layers) ε := by
  have hne := layers_ne hp.host hp.nonzero
  have l1 : 1 ≤ p.rLayers.length := List.length_pos_iff.2 hp.ne
  obtain ⟨m1, x, m2, y, e1, e2, hl, a1, a2, a3, a4⟩ : ∃ m1 x m2 y, p.layers.headD 0 = (m1, x) ∧ p.layers.getLastD 0 = (m2, y) ∧
      (p.layers = [(m1, x), (m2, y)] ∨ p.layers = [(m1, x)] ∧ m1 = m2 ∧ x = y) ∧ y ∈ csArgs p.layers ∧ m1 * x ∈ csArgs p.layers ∧
      m2 * x ∈ csArgs p.layers ∧ m2 * y ∈ csArgs p.layers := ⟨_, _, _, _, layers_ends hp.len l1 l2 rfl rfl rfl rfl⟩
  obtain ⟨n1, n2, n3, n4, hiff⟩ : m1 ≠ 0 ∧ m2 ≠ 0 ∧ x ≠ 0 ∧ y ≠ 0 ∧
      ∀ q i a, Solves q i [(m1, x), (m2, y)] a ↔ Solves q i p.layers a := by
    rcases hl with hl | ⟨hl, rfl, rfl⟩
    · rw [hl] at hne ⊢
      have e1 := hne (m1, x) (by simp)
      have e2 := hne (m2, y) (by simp)
      exact ⟨e1.1, e2.1, e1.2, e2.2, fun _ _ _ => Iff.rfl⟩
    · rw [hl] at hne ⊢
      have e1 := hne (m1, x) (by simp)
      exact ⟨e1.1, e1.1, e1.2, e1.2, fun q i a => solves_twice e1.1 e1.2⟩
  have hz : ∀ z ∈ csArgs p.layers, z ≠ 0 := csArgs_ne hne
  obtain ⟨h0, hk, hr⟩ := shell_regular hp.len l1 l2 hz
  have hin : ∀ i, ShellKind.scipy.inputs n i p.layers = exactIn i m1 m2 x y := fun i => by
    simp only [ShellKind.inputs, e1, e2, ShellKind.fn]
    exact fnIn_exact (hz _ a1) (hz _ a2) (hz _ a3) (hz _ a4) i
  have det : ∀ i, coatedDetTM (exactIn i m1 m2 x y).data ≠ 0 ∧ coatedDetTE (exactIn i m1 m2 x y).data ≠ 0 := by
    intro i
    obtain ⟨d1, d2⟩ := det_ne_of_solves (n := i) n1 n2 n3 n4
    obtain ⟨a, sa, -⟩ := C68_solvable hp.host hp.inc hp.len hp.ne hp.passive hp.nonzero .tm i
    obtain ⟨b, sb, -⟩ := C68_solvable hp.host hp.inc hp.len hp.ne hp.passive hp.nonzero .te i
    exact ⟨d1 a ((hiff .tm i a).2 sa), d2 b ((hiff .te i b).2 sb)⟩
  have co : ∀ i, (miecoefOrder (exactIn i m1 m2 x y)).a = coef .tm i p.layers ∧
      (miecoefOrder (exactIn i m1 m2 x y)).b = coef .te i p.layers := by
    intro i
    have s1 : Solves .tm i [(m1, x), (m2, y)] (miecoefOrder (exactIn i m1 m2 x y)).a :=
      ⟨⟨_, 0⟩, rfl, chain_of_TM (hz _ a3) (hz _ a4) (CoatedTM.of_order _ (det i).1)⟩
    have s2 : Solves .te i [(m1, x), (m2, y)] (miecoefOrder (exactIn i m1 m2 x y)).b :=
      ⟨⟨_, 0⟩, rfl, chain_of_TE (hz _ a3) (hz _ a4) (CoatedTE.of_order _ (det i).2)⟩
    exact ⟨(coef_eq hne ((hiff _ _ _).1 s1)).symm, (coef_eq hne ((hiff _ _ _).1 s2)).symm⟩
  refine uniform_shell fun A S hA hS => ?_
  have key := shell_eventually (n := n) (B := fun t => S t) (out := fun i => miecoefOrder (exactIn i m1 m2 x y)) hA hk hr (fun i _ _ => by
    rw [← hin i]
    exact shell_refines (k := .scipy) hA hS hp.len l1 l2 h0 (fun z hz' => ⟨hz z hz', hz z hz'⟩)
      (by rw [hin]; exact (det i).1) (by rw [hin]; exact (det i).2)) hε
  filter_upwards [key] with t ht
  simp only [co] at ht
  refine ⟨fun i i1 i2 => ?_, ht.2⟩
  have := ht.1 i i1 i2
  rw [← (co i).1, ← (co i).2]
  exact ⟨this.a, this.b⟩

/-- C95 for small lossless spheres and coated spheres and every core-shell backend: if no argument of the special functions exceeds 3/2
(nor is in the range of the guards), the rounded results approach those of the program in exact arithmetic, without further conditions. -/
theorem C95_small {K : D1Kernel} {backend w : String} {nMax : Option ℤ} {ri : Bool} {o : MieOut} {k0 e0 : ℝ} (hname : k.Named backend w)
    (h : mieCoefficients K (codeBackends sp) p backend w nMax ri = .ok o) (hn : o.nMax = n) (hpos : 1 ≤ n)
    (hsp : k = .scipy → ∀ z ∈ csArgs p.layers, ExactAt sp n z) (hp : LosslessAt p k0 e0)
    (hz : ∀ z ∈ csArgs p.layers, 1e-10 < ‖z‖ ∧ ‖z‖ ≤ 3 / 2) {ε : ℝ} (hε : 0 < ε) :
    ∃ u0 > 0, ∀ A : Arith, A.Within u0 → ∀ S : Arith.Bess, S.Within u0 → ShellClose A (k.rounded A S n) n p o ε := by
  have run := shellRun_of (hname.select sp).1 h
  have hlay := lossless_layers hp
  have harg := lossless_args hlay
  have hc : ∀ z ∈ csArgs p.layers, k.Stable z ∧ k.Clear n z := fun z hz' =>
    ⟨small_stable (by have := (hz z hz').1; rintro rfl; norm_num at this) (hz z hz').2, small_clear hpos (hz z hz').1 (hz z hz').2⟩
  refine C95_accurate hname h hn hpos hsp hc (fun i h1 hi => ?_) hε
  obtain ⟨m1, x, m2, y, e1, e2, hl, a1, a2, a3, a4⟩ : ∃ m1 x m2 y, p.layers.headD 0 = (m1, x) ∧ p.layers.getLastD 0 = (m2, y) ∧
      (p.layers = [(m1, x), (m2, y)] ∨ p.layers = [(m1, x)] ∧ m1 = m2 ∧ x = y) ∧ y ∈ csArgs p.layers ∧ m1 * x ∈ csArgs p.layers ∧
      m2 * x ∈ csArgs p.layers ∧ m2 * y ∈ csArgs p.layers := ⟨_, _, _, _, layers_ends run.len run.one run.two rfl rfl rfl rfl⟩
  have mem : (m1, x) ∈ p.layers ∧ (m2, y) ∈ p.layers := by
    rcases hl with hl | ⟨hl, rfl, rfl⟩ <;> rw [hl] <;> simp
  obtain ⟨s1, _, hs1, _, q1⟩ := hlay _ mem.1
  obtain ⟨s2, _, hs2, _, q2⟩ := hlay _ mem.2
  have q1 : m1 = s1 := congrArg Prod.fst q1
  have q2 : m2 = s2 := congrArg Prod.fst q2
  have seq : ∀ z ∈ csArgs p.layers, RealSeq (k.fn n z) n z := by
    intro z hz'
    have h2 := (hz z hz').2
    obtain ⟨t, ht, rfl⟩ := harg z hz'
    rw [Complex.norm_real, Real.norm_eq_abs, abs_of_pos ht] at h2
    exact ShellKind.realSeq hpos (ofReal_im t) (hc _ hz').2 (small_independent hpos ht h2)
  simp only [ShellKind.inputs, e1, e2]
  refine real_solvable ?_ ?_ ?_ ?_ (seq _ a1) (seq _ a2) (seq _ a3) (seq _ a4) h1 hi
  · rw [q1]; exact ofReal_im _
  · rw [q2]; exact ofReal_im _
  · rw [q1]; exact_mod_cast hs1.ne'
  · rw [q2]; exact_mod_cast hs2.ne'

/-! ## Examples -/

/-- SciPy's functions, all too large by a factor `1 + u`. -/
noncomputable def tiltedScipy (u : ℝ) : Arith.Bess := ⟨fun z k => (1 + u) * sphJ k z, fun z k => (1 + u) * sphY k z⟩

theorem tiltedScipy_within {u : ℝ} (hu : 0 ≤ u) : (tiltedScipy u).Within u := by
  have key : ∀ w : ℂ, ‖(1 + u) * w - w‖ ≤ u * (1 + ‖w‖) := fun w => by
    rw [show (1 + u) * w - w = u * w by ring, norm_mul, norm_real, Real.norm_of_nonneg hu]
    nlinarith [norm_nonneg w]
  exact ⟨fun _ _ _ => key _, fun _ _ _ => key _⟩

/-- A glass core in an absorbing shell: in the inexact arithmetic with inexact SciPy functions the extinction efficiency is found to any
accuracy. -/
example {ε : ℝ} (hε : 0 < ε) : ∃ u > 0, |((tilted u).shellCross 3 (tiltedScipy u) ⟨1, [1, 2], [4, 2 + I], 1⟩).qExt -
    (crossOf 3 ⟨1, [1, 2], [4, 2 + I], 1⟩ (fun i => coef .tm i (⟨1, [1, 2], [4, 2 + I], 1⟩ : Particle1).layers)
      fun i => coef .te i (⟨1, [1, 2], [4, 2 + I], 1⟩ : Particle1).layers).qExt| < ε := by
  have hp : PassiveAt (⟨1, [1, 2], [4, 2 + I], 1⟩ : Particle1) 1 1 := by
    refine ⟨⟨by simp, one_pos, by simp, one_pos, ?_⟩, ?_, rfl, by simp, ?_, ?_⟩
    · intro r hr
      simp only [List.mem_cons, List.not_mem_nil, or_false] at hr
      rcases hr with rfl | rfl <;> norm_num
    · norm_num [strictlyIncreasing]
    · intro e he
      simp only [List.mem_cons, List.not_mem_nil, or_false] at he
      rcases he with rfl | rfl <;> simp
    · intro e he
      simp only [List.mem_cons, List.not_mem_nil, or_false] at he
      rcases he with rfl | rfl
      · norm_num
      · intro h0
        have := congrArg Complex.im h0
        simp at this
  obtain ⟨u, hu, h⟩ := C95_scipy hp (by simp) 3 hε
  exact ⟨u, hu, (h _ (tilted_within hu.le) _ (tiltedScipy_within hu.le)).2.qExt⟩

/-- The coated sphere of C81 with every core-shell backend: the call succeeds, and the coefficients of the shell are found to any accuracy. -/
example {backend w : String} (hname : k.Named backend w) (K : D1Kernel) {ε : ℝ} (hε : 0 < ε) :
    ∃ o, mieCoefficients K (codeBackends exactBessel) (coatE.at coatPt) backend w (some 2) true = .ok o ∧
      ∃ u > 0, ShellClose (tilted u) (k.rounded (tilted u) (tiltedScipy u) 2) 2 (coatE.at coatPt) o ε := by
  have hz : ∀ z ∈ csArgs (coatE.at coatPt).layers, k.Stable z ∧ 1e-8 < ‖z‖ := fun z hz =>
    ⟨small_stable (by have := (coat_args z hz).1; rintro rfl; norm_num at this) (coat_args z hz).2, (coat_args z hz).1⟩
  have hinc : strictlyIncreasing (coatE.at coatPt).rLayers := by rw [coat_at]; norm_num [strictlyIncreasing]
  obtain ⟨o, -, h2⟩ := C81_calls_succeed (sp := exactBessel) coat_holds hname (n := 2) (by norm_num) (fun _ z hz => exactBessel_at hz) hinc rfl
    (by simp [coatE]) (by simp [coatE]) hz K true
  have h := h2.self_of_nhds
  have hn : (o coatPt).nMax = (2 : ℕ) := cs_order (hname.select exactBessel).1 h
  refine ⟨_, h, ?_⟩
  obtain ⟨u, hu, hc⟩ := C95_small hname h hn (by norm_num)
    (fun _ z hz' => exactBessel_at (by have := (coat_args z hz').1; rintro rfl; norm_num at this)) coat_lossless
    (fun z hz' => ⟨by have := (coat_args z hz').1; norm_num at this ⊢; linarith, (coat_args z hz').2⟩) hε
  exact ⟨u, hu, hc _ (tilted_within hu.le) _ (tiltedScipy_within hu.le)⟩

end MieDiff
