import Verif.Proofs.BackwardShellReal

/-!
# C81: reverse-mode gradients of the core-shell backends

`loss.backward()` through `backend='scipy'` and `backend='torch'`, with the vocabulary of C79.
-/

namespace MieDiff

open Complex Spec Filter Topology
open scoped RealInnerProductSpace

/-- The names under which a user selects the backend. -/
def ShellKind.Named (backend w : String) : ShellKind → Prop
  | scipy => backend.toLower = "scipy"
  | recurrence => backend.toLower = "torch" ∧ w.toLower = "recurrence"
  | ratios => backend.toLower = "torch" ∧ w.toLower ≠ "recurrence"

/-- The values from which the code computes the coefficients of order `i` of a particle with layers `l` (first layer: core, last layer:
shell). -/
noncomputable def ShellKind.inputs (k : ShellKind) (n i : ℕ) (l : List (ℂ × ℂ)) : CoreShellIn :=
  let c := l.headD 0
  let s := l.getLastD 0
  fnIn (k.fn n s.2) (k.fn n (c.1 * c.2)) (k.fn n (s.1 * c.2)) (k.fn n (s.1 * s.2)) c.2 s.2 c.1 s.1 i

/-- The interface equations, with the computed values, are uniquely solvable. -/
def ShellKind.Solvable (k : ShellKind) (n : ℕ) (l : List (ℂ × ℂ)) : Prop :=
  ∀ i, 1 ≤ i → i ≤ n → coatedDetTM (k.inputs n i l).data ≠ 0 ∧ coatedDetTE (k.inputs n i l).data ≠ 0

variable {V : Type*} [NormedAddCommGroup V] [InnerProductSpace ℝ V] {v0 : V}

/-- Calls of a core-shell backend for all parameters near `v0`, truncated at order `n`; SciPy, if used, is exact. -/
structure ShellCallAt (k : ShellKind) (sp : BesselBackend) (F : ParticleFam V) (v0 : V) (n : ℕ) (ri : Bool) (o : V → MieOut) : Prop where
  pos : 1 ≤ n
  exact : k = .scipy → ∀ z ≠ 0, ExactAt sp n z
  call : ∃ K backend w nMax, k.Named backend w ∧ ∀ᶠ v in 𝓝 v0,
    mieCoefficients K (codeBackends sp) (F.at v) backend w nMax ri = .ok (o v) ∧ (o v).nMax = n

theorem ShellKind.Named.select {k : ShellKind} {backend w : String} (h : k.Named backend w) (sp : BesselBackend) :
    backend.toLower ≠ "pena" ∧ selectBessel (codeBackends sp) backend w = .ok (k.select sp) := by
  unfold selectBessel
  cases k with
  | scipy =>
    have h : backend.toLower = "scipy" := h
    rw [h]
    exact ⟨by decide, by simp [ShellKind.select]⟩
  | recurrence =>
    rw [h.1, h.2]
    exact ⟨by decide, by simp [ShellKind.select]⟩
  | ratios =>
    rw [h.1]
    exact ⟨by decide, by rw [if_pos ⟨rfl, h.2⟩]; rfl⟩

theorem miecoef_ok_jn {S : BesselBackend} {x y m1 m2 : ℂ} {n : ℤ} {out : List CoreShellOut} (h : miecoef S x y n m1 m2 = .ok out) :
    (∃ l, S.jn n y = .ok l) ∧ (∃ l, S.jn n (m1 * x) = .ok l) ∧ (∃ l, S.jn n (m2 * x) = .ok l) ∧ ∃ l, S.jn n (m2 * y) = .ok l := by
  unfold miecoef miecoef4 at h
  cases h1 : S.jn n y with
  | error e => simp [h1, Bind.bind, Except.bind] at h
  | ok l1 =>
  cases h2 : S.yn n y with
  | error e => simp [h1, h2, Bind.bind, Except.bind] at h
  | ok l2 =>
  cases h3 : S.jn n (m1 * x) with
  | error e => simp [h1, h2, h3, Bind.bind, Except.bind] at h
  | ok l3 =>
  cases h4 : S.jn n (m2 * x) with
  | error e => simp [h1, h2, h3, h4, Bind.bind, Except.bind] at h
  | ok l4 =>
  cases h5 : S.jn n (m2 * y) with
  | error e => simp [h1, h2, h3, h4, h5, Bind.bind, Except.bind] at h
  | ok l5 => exact ⟨⟨_, rfl⟩, ⟨_, rfl⟩, ⟨_, rfl⟩, ⟨_, rfl⟩⟩

/-- First and last layer of a particle with one or two layers, and the arguments of its special functions. -/
theorem layers_ends {p : Particle1} (hlen : p.epsLayers.length = p.rLayers.length) (h1 : 1 ≤ p.rLayers.length)
    (h2 : p.rLayers.length ≤ 2) {m1 x m2 y : ℂ} (e1 : m1 = csqrt (p.epsLayers.headD 0) / csqrt p.epsEnv)
    (e2 : x = p.k0 * csqrt p.epsEnv * (p.rLayers.headD 0 : ℝ)) (e3 : m2 = csqrt (p.epsLayers.getLastD 0) / csqrt p.epsEnv)
    (e4 : y = p.k0 * csqrt p.epsEnv * (p.rLayers.getLastD 0 : ℝ)) :
    p.layers.headD 0 = (m1, x) ∧ p.layers.getLastD 0 = (m2, y) ∧
    (p.layers = [(m1, x), (m2, y)] ∨ p.layers = [(m1, x)] ∧ m1 = m2 ∧ x = y) ∧
    y ∈ csArgs p.layers ∧ m1 * x ∈ csArgs p.layers ∧ m2 * x ∈ csArgs p.layers ∧ m2 * y ∈ csArgs p.layers := by
  obtain ⟨k0, rs, es, ee⟩ := p
  rcases rs with _ | ⟨r1, _ | ⟨r2, _ | ⟨r3, rs⟩⟩⟩
  · simp at h1
  · rcases es with _ | ⟨a1, _ | ⟨a2, es⟩⟩
    · simp at hlen
    · subst e1 e2 e3 e4
      simp [Particle1.layers, layersOf, csArgs]
    · simp at hlen
  · rcases es with _ | ⟨a1, _ | ⟨a2, _ | ⟨a3, es⟩⟩⟩
    · simp at hlen
    · simp at hlen
    · subst e1 e2 e3 e4
      simp [Particle1.layers, layersOf, csArgs]
    · simp at hlen
  · simp at h2

section Property

variable [CompleteSpace V] {p : Node.Inputs V} {F : ParticleFam V} {n : ℕ} {ri : Bool} {o : V → MieOut} {k : ShellKind}
  {sp : BesselBackend}

/-- What is known about a run whose arguments are regular. -/
structure ShellKnown (k : ShellKind) (p : Node.Inputs V) (F : ParticleFam V) (v0 : V) (n : ℕ) (ri : Bool) (o : V → MieOut)
    (out : ℕ → V → CoreShellOut) : Prop where
  tracks : ∀ i, Node.OutTracks v0 (Node.shell (k.bess V n) p i) (out i)
  ok : ∀ i, 1 ≤ i → i ≤ n → Node.OutGood (Node.shell (k.bess V n) p i) (out i v0)
  near : ∀ᶠ v in 𝓝 v0, (o v).a = (List.range n).map (fun i => (out (i + 1) v).a) ∧
    (o v).b = (List.range n).map (fun i => (out (i + 1) v).b) ∧
    (o v).internal = (if ri then some ((List.range n).map fun i => out (i + 1) v) else none) ∧
    (o v).k = F.k0 v * csqrt (F.env v) ∧ (o v).rS = (F.at v).rLayers.getLastD 0
  k_ne : F.k0 v0 * csqrt (F.env v0) ≠ 0
  r_ne : (F.at v0).rLayers.getLastD 0 ≠ 0

theorem ShellKind.Clear.ne {z : ℂ} (h : k.Clear n z) : z ≠ 0 := by
  cases k with
  | scipy => exact h
  | recurrence => obtain ⟨h, -⟩ := h; rintro rfl; norm_num at h
  | ratios => obtain ⟨h, -⟩ := h; rintro rfl; norm_num at h

theorem shell_known (h : p.Holds v0 F) (hcall : ShellCallAt k sp F v0 n ri o)
    (hz : ∀ z ∈ csArgs (F.at v0).layers, k.Stable z ∧ k.Clear n z) (hd : k.Solvable n (F.at v0).layers) :
    ∃ out, ShellKnown k p F v0 n ri o out := by
  obtain ⟨K, backend, w, nMax, hname, hc⟩ := hcall.call
  obtain ⟨hb, hsel⟩ := hname.select sp
  have run0 := shellRun_of hb hc.self_of_nhds.1
  have hlr : F.r.length = (F.at v0).rLayers.length := by simp [ParticleFam.at]
  have hle : F.eps.length = (F.at v0).epsLayers.length := by simp [ParticleFam.at]
  have hr : F.r ≠ [] := by
    intro h0
    have := run0.one
    rw [← hlr, h0] at this
    simp at this
  have he : F.eps ≠ [] := by
    intro h0
    have := run0.one
    rw [← run0.len, ← hle, h0] at this
    simp at this
  obtain ⟨m1, x, m2, y, A⟩ := Node.argsOf h he hr
  obtain ⟨l1, l2, -, a1, a2, a3, a4⟩ := layers_ends run0.len run0.one run0.two (A.em1 v0) (A.ex v0) (A.em2 v0) (A.ey v0)
  obtain ⟨s1, c1⟩ := hz _ a1
  obtain ⟨s2, c2⟩ := hz _ a2
  obtain ⟨s3, c3⟩ := hz _ a3
  obtain ⟨s4, c4⟩ := hz _ a4
  have hy0 := c1.ne
  have hkr : F.k0 v0 * csqrt (F.env v0) ≠ 0 ∧ (F.at v0).rLayers.getLastD 0 ≠ 0 := by
    rw [A.ey v0] at hy0
    refine ⟨left_ne_zero_of_mul hy0, fun h0 => hy0 ?_⟩
    rw [h0]
    simp
  have henv : csqrt (F.env v0) ≠ 0 := right_ne_zero_of_mul hkr.1
  have gm1 := A.gm1 henv
  have gm2 := A.gm2 henv
  have t1 := A.tm1.mul A.tx
  have t2 := A.tm2.mul A.tx
  have t3 := A.tm2.mul A.ty
  have g1 := gm1.mul A.gx
  have g2 := gm2.mul A.gx
  have g3 := gm2.mul A.gy
  have q0 := ShellKind.runs hcall.pos hcall.exact (A.ty.adj A.gy.ok).cont s1
  have q1 := ShellKind.runs hcall.pos hcall.exact (t1.adj g1.ok).cont s2
  have q2 := ShellKind.runs hcall.pos hcall.exact (t2.adj g2.ok).cont s3
  have q3 := ShellKind.runs hcall.pos hcall.exact (t3.adj g3.ok).cont s4
  refine ⟨fun i v => miecoefOrder (fnIn (k.fn n (y v0)) (k.fn n (m1 v0 * x v0)) (k.fn n (m2 v0 * x v0)) (k.fn n (m2 v0 * y v0))
    (x v) (y v) (m1 v) (m2 v) i), ?_, ?_, ?_, hkr.1, hkr.2⟩
  · intro i
    exact Node.shellOrder_tracks (Node.shellIn_tracks A.tm1 A.tm2 (Node.ShellKind.tracks A.ty n) (Node.ShellKind.tracks t1 n)
      (Node.ShellKind.tracks t2 n) (Node.ShellKind.tracks t3 n) i)
  · intro i h1 hi
    obtain ⟨d1, d2⟩ := hd i h1 hi
    simp only [ShellKind.inputs, l1, l2] at d1 d2
    exact Node.shellOrder_good (Node.shellIn_good gm1 gm2 (Node.ShellKind.good A.gy c1) (Node.ShellKind.good g1 c2)
      (Node.ShellKind.good g2 c3) (Node.ShellKind.good g3 c4) i) d1 d2
  · filter_upwards [hc, q0, q1, q2, q3] with v hv r0 r1 r2 r3
    have run := shellRun_of hb hv.1
    obtain ⟨S, out, hS, hm, ea, eb, ei⟩ := run.run
    rw [hsel] at hS
    cases hS
    rw [hv.2] at hm
    have em : miecoef (k.select sp) (x v) (y v) n (m1 v) (m2 v) = .ok out := by
      rw [A.em1 v, A.ex v, A.em2 v, A.ey v]
      exact hm
    obtain ⟨j0, j1, j2, j3⟩ := miecoef_ok_jn em
    obtain ⟨n, rfl⟩ : ∃ n', n = n' + 1 := ⟨n - 1, by have := hcall.pos; omega⟩
    rw [miecoef_run (r0 j0) (r1 j1) (r2 j2) (r3 j3)] at em
    cases em
    refine ⟨?_, ?_, ?_, run.k, run.rS⟩
    · rw [ea, map_tab]; rfl
    · rw [eb, map_tab]; rfl
    · rw [ei]; rfl

/-- What the recorded run has to deliver for the eight coefficients of one order. -/
structure ShellBackward (v0 : V) (out : V → CoreShellOut) (c : Node.ShellOut V) : Prop where
  value : (⟨c.a.val, c.b.val, c.c.val, c.d.val, c.f.val, c.g.val, c.v.val, c.w.val⟩ : CoreShellOut) = out v0
  a_grad : Vjp v0 c.a.back fun v => (out v).a
  b_grad : Vjp v0 c.b.back fun v => (out v).b
  c_grad : Vjp v0 c.c.back fun v => (out v).c
  d_grad : Vjp v0 c.d.back fun v => (out v).d
  f_grad : Vjp v0 c.f.back fun v => (out v).f
  g_grad : Vjp v0 c.g.back fun v => (out v).g
  v_grad : Vjp v0 c.v.back fun v => (out v).v
  w_grad : Vjp v0 c.w.back fun v => (out v).w

/-- C81: `backward` through `mie_coefficients` with a core-shell backend returns the gradient of each coefficient, if near the parameters the
depths of the recurrences do not change (`Stable`), no guard fires (`Clear`) and the computed interface equations are solvable. -/
theorem C81_coefficients (h : p.Holds v0 F) (hcall : ShellCallAt k sp F v0 n ri o)
    (hz : ∀ z ∈ csArgs (F.at v0).layers, k.Stable z ∧ k.Clear n z) (hd : k.Solvable n (F.at v0).layers) {i : ℕ} (h1 : 1 ≤ i) (hi : i ≤ n) :
    CoefBackward v0 o i ((Node.shell (k.bess V n) p i).a, (Node.shell (k.bess V n) p i).b) := by
  obtain ⟨out, kn⟩ := shell_known h hcall hz hd
  have t := kn.tracks i
  have g := kn.ok i h1 hi
  have ea : ∀ᶠ v in 𝓝 v0, (o v).a.getD (i - 1) 0 = (out i v).a := kn.near.mono fun v hv => by
    rw [hv.1]; exact getD_range (f := fun j => (out j v).a) h1 hi
  have eb : ∀ᶠ v in 𝓝 v0, (o v).b.getD (i - 1) 0 = (out i v).b := kn.near.mono fun v hv => by
    rw [hv.2.1]; exact getD_range (f := fun j => (out j v).b) h1 hi
  refine ⟨?_, ?_, ?_, ?_⟩
  · rw [ea.self_of_nhds]; exact t.a.val
  · rw [eb.self_of_nhds]; exact t.b.val
  · exact Vjp.congr (adj_iff.1 (t.a.adj g.a.ok)) ea
  · exact Vjp.congr (adj_iff.1 (t.b.adj g.b.ok)) eb

/-- C81 with `return_internal=True`: the same for all eight coefficients. -/
theorem C81_internal (h : p.Holds v0 F) (hcall : ShellCallAt k sp F v0 n true o)
    (hz : ∀ z ∈ csArgs (F.at v0).layers, k.Stable z ∧ k.Clear n z) (hd : k.Solvable n (F.at v0).layers) {i : ℕ} (h1 : 1 ≤ i) (hi : i ≤ n) :
    ShellBackward v0 (fun v => ((o v).internal.getD []).getD (i - 1) noOrder) (Node.shell (k.bess V n) p i) := by
  obtain ⟨out, kn⟩ := shell_known h hcall hz hd
  have t := kn.tracks i
  have g := kn.ok i h1 hi
  have e : ∀ᶠ v in 𝓝 v0, ((o v).internal.getD []).getD (i - 1) noOrder = out i v := kn.near.mono fun v hv => by
    rw [hv.2.2.1]
    simp only [if_true, Option.getD_some]
    rw [List.getD_eq_getElem?_getD, List.getElem?_map, List.getElem?_range (by omega)]
    simp [Nat.sub_add_cancel h1]
  have grad : ∀ {x : Node V} {f : CoreShellOut → ℂ}, Node.Tracks v0 x (fun v => f (out i v)) → x.ok →
      Vjp v0 x.back fun v => f (((o v).internal.getD []).getD (i - 1) noOrder) := fun hx ok =>
    Vjp.congr (adj_iff.1 (hx.adj ok)) (e.mono fun v hv => by rw [hv])
  refine ⟨?_, grad (f := (·.a)) t.a g.a.ok, grad (f := (·.b)) t.b g.b.ok, grad (f := (·.c)) t.c g.c.ok, grad (f := (·.d)) t.d g.d.ok,
    grad (f := (·.f)) t.f g.f.ok, grad (f := (·.g)) t.g g.g.ok, grad (f := (·.v)) t.v g.v.ok, grad (f := (·.w)) t.w g.w.ok⟩
  rw [e.self_of_nhds, t.a.val, t.b.val, t.c.val, t.d.val, t.f.val, t.g.val, t.v.val, t.w.val]

/-- C81: `backward` through `cross_sections` with a core-shell backend returns the gradient of each cross section and efficiency. -/
theorem C81_cross_sections (h : p.Holds v0 F) (hcall : ShellCallAt k sp F v0 n ri o)
    (hz : ∀ z ∈ csArgs (F.at v0).layers, k.Stable z ∧ k.Clear n z) (hd : k.Solvable n (F.at v0).layers) :
    CrossBackward v0 (fun v => crossSections (o v).k (o v).rS (o v).a (o v).b) (Node.shellCross n (k.bess V n) p) := by
  obtain ⟨out, kn⟩ := shell_known h hcall hz hd
  have t := Node.crossOf_tracks (n := n) h (c := fun i => ((Node.shell (k.bess V n) p i).a, (Node.shell (k.bess V n) p i).b))
    (fun i => (kn.tracks i).a) (fun i => (kn.tracks i).b)
  obtain ⟨k1, k2, k3, k4, k5, k6⟩ := Node.crossOf_regular (n := n) h
    (c := fun i => ((Node.shell (k.bess V n) p i).a, (Node.shell (k.bess V n) p i).b))
    (fun i h1 hi => ⟨(kn.ok i h1 hi).a.ok, (kn.ok i h1 hi).b.ok⟩) kn.k_ne kn.r_ne
  have e : ∀ᶠ v in 𝓝 v0, crossSections (o v).k (o v).rS (o v).a (o v).b = crossSections (F.k0 v * csqrt (F.env v))
      ((F.at v).rLayers.getLastD 0) ((List.range n).map fun i => (out (i + 1) v).a) ((List.range n).map fun i => (out (i + 1) v).b) :=
    kn.near.mono fun v hv => by rw [hv.1, hv.2.1, hv.2.2.2.1, hv.2.2.2.2]
  have e0 := e.self_of_nhds
  have grad : ∀ {x : Node V} {f : CrossSections → ℝ}, Node.Tracks v0 x (fun v => (f (crossSections (F.k0 v * csqrt (F.env v))
      ((F.at v).rLayers.getLastD 0) ((List.range n).map fun i => (out (i + 1) v).a) ((List.range n).map fun i => (out (i + 1) v).b)) : ℂ)) →
      x.ok → HasGradientAt (fun v => f (crossSections (o v).k (o v).rS (o v).a (o v).b)) (x.back 1) v0 := by
    intro x f hx ok
    refine (hx.gradient ok).congr_of_eventuallyEq ?_
    filter_upwards [e] with v hv
    rw [hv]
  refine ⟨?_, ?_, ?_, ?_, ?_, ?_, grad (f := (·.csExt)) t.ext k1, grad (f := (·.csSca)) t.sca k2, grad (f := (·.csAbs)) t.abs k3,
    grad (f := (·.qExt)) t.qExt k4, grad (f := (·.qSca)) t.qSca k5, grad (f := (·.qAbs)) t.qAbs k6⟩ <;> simp only [e0]
  · exact t.ext.val
  · exact t.sca.val
  · exact t.abs.val
  · exact t.qExt.val
  · exact t.qSca.val
  · exact t.qAbs.val

/-! ## When the conditions hold -/

/-- Everything that C81 promises of one run. -/
structure ShellGradients (v0 : V) (k : ShellKind) (p : Node.Inputs V) (n : ℕ) (ri : Bool) (o : V → MieOut) : Prop where
  orders : ∀ᶠ v in 𝓝 v0, (o v).a.length = n ∧ (o v).b.length = n
  coefficients : ∀ i, 1 ≤ i → i ≤ n → CoefBackward v0 o i ((Node.shell (k.bess V n) p i).a, (Node.shell (k.bess V n) p i).b)
  cross : CrossBackward v0 (fun v => crossSections (o v).k (o v).rS (o v).a (o v).b) (Node.shellCross n (k.bess V n) p)
  internal : ri = true → ∀ i, 1 ≤ i → i ≤ n →
    ShellBackward v0 (fun v => ((o v).internal.getD []).getD (i - 1) noOrder) (Node.shell (k.bess V n) p i)

theorem shellGradients (h : p.Holds v0 F) (hcall : ShellCallAt k sp F v0 n ri o)
    (hz : ∀ z ∈ csArgs (F.at v0).layers, k.Stable z ∧ k.Clear n z) (hd : k.Solvable n (F.at v0).layers) :
    ShellGradients v0 k p n ri o :=
  ⟨by
    obtain ⟨out, kn⟩ := shell_known h hcall hz hd
    exact kn.near.mono fun v hv => ⟨by rw [hv.1]; simp, by rw [hv.2.1]; simp⟩,
    fun _ h1 hi => C81_coefficients h hcall hz hd h1 hi, C81_cross_sections h hcall hz hd, fun e _ h1 hi => by
    subst e
    exact C81_internal h hcall hz hd h1 hi⟩

omit [CompleteSpace V] [InnerProductSpace ℝ V] in
/-- First and last layer at the given parameters. -/
theorem ShellCallAt.ends (hcall : ShellCallAt k sp F v0 n ri o) : ∃ m1 x m2 y, (F.at v0).layers.headD 0 = (m1, x) ∧
    (F.at v0).layers.getLastD 0 = (m2, y) ∧
    ((F.at v0).layers = [(m1, x), (m2, y)] ∨ (F.at v0).layers = [(m1, x)] ∧ m1 = m2 ∧ x = y) ∧
    y ∈ csArgs (F.at v0).layers ∧ m1 * x ∈ csArgs (F.at v0).layers ∧ m2 * x ∈ csArgs (F.at v0).layers ∧
    m2 * y ∈ csArgs (F.at v0).layers := by
  obtain ⟨K, backend, w, nMax, hname, hc⟩ := hcall.call
  have run0 := shellRun_of (hname.select sp).1 hc.self_of_nhds.1
  exact ⟨_, _, _, _, layers_ends run0.len run0.one run0.two rfl rfl rfl rfl⟩

theorem fnIn_exact {x y m1 m2 : ℂ} (hy : y ≠ 0) (h1 : m1 * x ≠ 0) (h2 : m2 * x ≠ 0) (h3 : m2 * y ≠ 0) (i : ℕ) :
    fnIn Node.exactFn Node.exactFn Node.exactFn Node.exactFn x y m1 m2 i = exactIn i m1 m2 x y := by
  have d : ∀ {f : ℕ → ℂ → ℂ} (_ : BesselSeq f) {z : ℂ} (_ : z ≠ 0), derFn z (fun k => f k z) i = deriv (f i) z := by
    intro f hf z hz
    cases i with
    | zero =>
      rw [(hf.raise 0 z hz).deriv]
      simp [derFn]
    | succ i =>
      rw [(hf.lower i z hz).deriv, derFn]
      push_cast
      ring
  have c2 := (hasDerivAt_chi i h2).deriv
  have c3 := (hasDerivAt_chi i h3).deriv
  have z1 := deriv_zeta_of i hy
  simp only [sphH] at z1
  simp only [exactIn, ← c2, ← c3, ← z1, ← deriv_psi_of i hy, ← deriv_psi_of i h1, ← deriv_psi_of i h2, ← deriv_psi_of i h3, fnIn,
    Node.exactFn, d sphJ_seq hy, d sphJ_seq h1, d sphJ_seq h2, d sphJ_seq h3, d sphY_seq hy, d sphY_seq h2, d sphY_seq h3]
  rfl

/-- C81 for `backend='scipy'`: for every passive particle in a real host, `backward` returns the gradients of all coefficients (also the
internal ones), cross sections and efficiencies, without further conditions. -/
theorem C81_scipy {k0 e0 : ℝ} (h : p.Holds v0 F) (hcall : ShellCallAt .scipy sp F v0 n ri o) (hp : PassiveAt (F.at v0) k0 e0) :
    ShellGradients v0 .scipy p n ri o := by
  have hne := layers_ne hp.host hp.nonzero
  obtain ⟨m1, x, m2, y, e1, e2, hl, a1, a2, a3, a4⟩ := hcall.ends
  obtain ⟨n1, n2, n3, n4, hiff⟩ : m1 ≠ 0 ∧ m2 ≠ 0 ∧ x ≠ 0 ∧ y ≠ 0 ∧
      ∀ q i a, Solves q i [(m1, x), (m2, y)] a ↔ Solves q i (F.at v0).layers a := by
    rcases hl with hl | ⟨hl, rfl, rfl⟩
    · rw [hl] at hne ⊢
      have e1 := hne (m1, x) (by simp)
      have e2 := hne (m2, y) (by simp)
      exact ⟨e1.1, e2.1, e1.2, e2.2, fun _ _ _ => Iff.rfl⟩
    · rw [hl] at hne ⊢
      have e1 := hne (m1, x) (by simp)
      exact ⟨e1.1, e1.1, e1.2, e1.2, fun q i a => solves_twice e1.1 e1.2⟩
  have hz : ∀ z ∈ csArgs (F.at v0).layers, z ≠ 0 := csArgs_ne hne
  refine shellGradients h hcall (fun z hz' => ⟨hz z hz', hz z hz'⟩) fun i h1 hi => ?_
  simp only [ShellKind.inputs, e1, e2, ShellKind.fn]
  rw [fnIn_exact (hz _ a1) (hz _ a2) (hz _ a3) (hz _ a4)]
  obtain ⟨d1, d2⟩ := det_ne_of_solves (n := i) n1 n2 n3 n4
  obtain ⟨a, sa, -⟩ := C68_solvable hp.host hp.inc hp.len hp.ne hp.passive hp.nonzero .tm i
  obtain ⟨b, sb, -⟩ := C68_solvable hp.host hp.inc hp.len hp.ne hp.passive hp.nonzero .te i
  exact ⟨d1 a ((hiff .tm i a).2 sa), d2 b ((hiff .te i b).2 sb)⟩

/-- A lossless dielectric particle in a lossless host. -/
structure LosslessAt (p : Particle1) (k0 e0 : ℝ) : Prop where
  host : RealHost p k0 e0
  eps : ∀ e ∈ p.epsLayers, ∃ t : ℝ, 0 < t ∧ e = t

/-- The layers of a lossless particle are real. -/
theorem lossless_layers {q : Particle1} {k0 e0 : ℝ} (h : LosslessAt q k0 e0) : ∀ l ∈ q.layers, ∃ s t : ℝ, 0 < s ∧ 0 < t ∧ l = (↑s, ↑t) := by
  intro l hl
  obtain ⟨g1, g2⟩ := List.of_mem_zip (by exact hl : (l.1, l.2) ∈ _)
  obtain ⟨e, he, g1⟩ := List.mem_map.1 g1
  obtain ⟨r, hr, g2⟩ := List.mem_map.1 g2
  obtain ⟨t, ht, rfl⟩ := h.eps e he
  have hr := h.host.radii r hr
  have h0 := Real.sqrt_pos.2 h.host.env_pos
  refine ⟨Real.sqrt t / Real.sqrt e0, k0 * Real.sqrt e0 * r, div_pos (Real.sqrt_pos.2 ht) h0,
    mul_pos (mul_pos h.host.k0_pos h0) hr, Prod.ext ?_ ?_⟩
  · rw [← g1, csqrt_ofReal ht.le, h.host.env_eq, csqrt_ofReal h.host.env_pos.le]
    push_cast
    rfl
  · rw [← g2, h.host.k0_eq, h.host.env_eq, csqrt_ofReal h.host.env_pos.le]
    push_cast
    rfl

/-- The arguments of the special functions of a lossless particle are positive. -/
theorem lossless_args {l : List (ℂ × ℂ)} (h : ∀ a ∈ l, ∃ s t : ℝ, 0 < s ∧ 0 < t ∧ a = (↑s, ↑t)) : ∀ z ∈ csArgs l, ∃ t : ℝ, 0 < t ∧ z = t := by
  intro z hz
  rcases l with _ | ⟨a, _ | ⟨b, _ | ⟨c, l⟩⟩⟩
  · simp [csArgs] at hz
  · obtain ⟨s, t, hs, ht, rfl⟩ := h a (by simp)
    simp only [csArgs, List.mem_cons, List.not_mem_nil, or_false] at hz
    rcases hz with rfl | rfl
    · exact ⟨t, ht, rfl⟩
    · exact ⟨s * t, mul_pos hs ht, by push_cast; rfl⟩
  · obtain ⟨s, t, hs, ht, rfl⟩ := h a (by simp)
    obtain ⟨s', t', hs', ht', rfl⟩ := h b (by simp)
    simp only [csArgs, List.mem_cons, List.not_mem_nil, or_false] at hz
    rcases hz with rfl | rfl | rfl | rfl
    · exact ⟨t', ht', rfl⟩
    · exact ⟨s * t, mul_pos hs ht, by push_cast; rfl⟩
    · exact ⟨s' * t, mul_pos hs' ht, by push_cast; rfl⟩
    · exact ⟨s' * t', mul_pos hs' ht', by push_cast; rfl⟩
  · simp [csArgs] at hz

/-- C81 for lossless particles and every core-shell backend: `backward` returns the gradients, if near the arguments the depths do not
change, no guard fires, and the computed functions of first and second kind are independent (for `backend='torch'`: `sin z ≠ 0`, compare C80,
and the function of the second kind does not vanish at the order where the recurrence starts). -/
theorem C81_lossless {k0 e0 : ℝ} (h : p.Holds v0 F) (hcall : ShellCallAt k sp F v0 n ri o) (hp : LosslessAt (F.at v0) k0 e0)
    (hz : ∀ z ∈ csArgs (F.at v0).layers, k.Stable z ∧ k.Clear n z ∧ k.Independent n z) : ShellGradients v0 k p n ri o := by
  have hlay := lossless_layers hp
  have harg := lossless_args hlay
  obtain ⟨m1, x, m2, y, e1, e2, hl, a1, a2, a3, a4⟩ := hcall.ends
  have mem : (m1, x) ∈ (F.at v0).layers ∧ (m2, y) ∈ (F.at v0).layers := by
    rcases hl with hl | ⟨hl, rfl, rfl⟩ <;> rw [hl] <;> simp
  obtain ⟨s1, _, hs1, _, q1⟩ := hlay _ mem.1
  obtain ⟨s2, _, hs2, _, q2⟩ := hlay _ mem.2
  have q1 : m1 = s1 := congrArg Prod.fst q1
  have q2 : m2 = s2 := congrArg Prod.fst q2
  have seq : ∀ z ∈ csArgs (F.at v0).layers, RealSeq (k.fn n z) n z := by
    intro z hz'
    obtain ⟨t, -, rfl⟩ := harg z hz'
    exact ShellKind.realSeq hcall.pos (ofReal_im t) (hz _ hz').2.1 (hz _ hz').2.2
  refine shellGradients h hcall (fun z hz' => ⟨(hz z hz').1, (hz z hz').2.1⟩) fun i h1 hi => ?_
  simp only [ShellKind.inputs, e1, e2]
  refine real_solvable ?_ ?_ ?_ ?_ (seq _ a1) (seq _ a2) (seq _ a3) (seq _ a4) h1 hi
  · rw [q1]; exact ofReal_im _
  · rw [q2]; exact ofReal_im _
  · rw [q1]; exact_mod_cast hs1.ne'
  · rw [q2]; exact_mod_cast hs2.ne'

/-- C81 for small lossless particles and every core-shell backend: if no argument of the special functions exceeds 3/2 (nor is in the range
of the guards), `backward` returns the gradients of all coefficients, cross sections and efficiencies, without further conditions. -/
theorem C81_small {k0 e0 : ℝ} (h : p.Holds v0 F) (hcall : ShellCallAt k sp F v0 n ri o) (hp : LosslessAt (F.at v0) k0 e0)
    (hz : ∀ z ∈ csArgs (F.at v0).layers, 1e-10 < ‖z‖ ∧ ‖z‖ ≤ 3 / 2) : ShellGradients v0 k p n ri o := by
  have harg := lossless_args (lossless_layers hp)
  refine C81_lossless h hcall hp fun z hz' => ?_
  obtain ⟨h1, h2⟩ := hz z hz'
  obtain ⟨t, ht, rfl⟩ := harg z hz'
  refine ⟨small_stable (by exact_mod_cast ht.ne') h2, small_clear hcall.pos h1 h2, small_independent hcall.pos ht ?_⟩
  rwa [Complex.norm_real, Real.norm_eq_abs, abs_of_pos ht] at h2

/-! ## The calls succeed -/

theorem shellCall_ok {K : D1Kernel} {B : Backends} {q : Particle1} {backend w : String} {S : BesselBackend} {out : List CoreShellOut}
    (hb : backend.toLower = "torch" ∨ backend.toLower = "scipy") (hn : 1 ≤ n) (hi : strictlyIncreasing q.rLayers)
    (hlen : q.epsLayers.length = q.rLayers.length) (h1 : 1 ≤ q.rLayers.length) (h2 : q.rLayers.length ≤ 2)
    (hS : selectBessel B backend w = .ok S)
    (hm : miecoef S (q.k0 * csqrt q.epsEnv * (q.rLayers.headD 0 : ℝ)) (q.k0 * csqrt q.epsEnv * (q.rLayers.getLastD 0 : ℝ)) n
      (csqrt (q.epsLayers.headD 0) / csqrt q.epsEnv) (csqrt (q.epsLayers.getLastD 0) / csqrt q.epsEnv) = .ok out) (ri : Bool) :
    ∃ r, mieCoefficients K B q backend w (some (n : ℤ)) ri = .ok r ∧ r.nMax = n := by
  obtain ⟨k0, rs, es, ee⟩ := q
  have hb' : backend.toLower ≠ "pena" := by rcases hb with h | h <;> rw [h] <;> decide
  have hor : backend.toLower = "torch" ∨ backend.toLower = "scipy" ∨ backend.toLower = "pena" := by tauto
  rcases rs with _ | ⟨r1, _ | ⟨r2, _ | ⟨r3, rs⟩⟩⟩
  · simp at h1
  · rcases es with _ | ⟨a1, _ | ⟨a2, es⟩⟩
    · simp at hlen
    · simp only [List.headD_cons, List.getLastD_cons, List.getLastD_nil] at hm
      unfold mieCoefficients
      simp only [hS]
      rw [if_neg (not_not.2 hor), if_neg (not_not.2 hi), if_neg (by simp)]
      simp only [Bind.bind, Except.bind, pyIdx, List.getElem?_cons_zero, orderChoice, orderRange, List.length_cons, List.length_nil]
      rw [if_neg (by omega)]
      simp only [hb', if_false]
      norm_num [hm]
    · simp at hlen
  · rcases es with _ | ⟨a1, _ | ⟨a2, _ | ⟨a3, es⟩⟩⟩
    · simp at hlen
    · simp at hlen
    · simp only [List.headD_cons, List.getLastD_cons, List.getLastD_nil] at hm
      unfold mieCoefficients
      simp only [hS]
      rw [if_neg (not_not.2 hor), if_neg (not_not.2 hi), if_neg (by simp)]
      simp only [Bind.bind, Except.bind, pyIdx, List.getElem?_cons_zero, orderChoice, orderRange, List.length_cons, List.length_nil]
      rw [if_neg (by omega)]
      simp only [hb', if_false]
      norm_num [hm]
    · simp at hlen
  · simp at h2

omit [CompleteSpace V] [InnerProductSpace ℝ V] in
theorem ShellKind.jn_near {f : V → ℂ} (hsp : k = .scipy → ∀ z ≠ 0, ExactAt sp n z) (h : ContinuousAt f v0) (hz : 1e-8 < ‖f v0‖) :
    ∀ᶠ v in 𝓝 v0, ∃ l, (k.select sp).jn n (f v) = .ok l := by
  filter_upwards [h.norm.eventually_const_lt hz] with v hv
  cases k with
  | scipy => exact ⟨_, (hsp rfl (f v) (by intro h0; rw [h0] at hv; norm_num at hv)).j⟩
  | recurrence => exact ⟨_, (rec_runs sp n (f v)).j⟩
  | ratios => exact ⟨_, (ratio_runs sp n hv.le).j⟩

/-- C81: for an accepted particle of one or two layers and an explicit order the calls succeed for all parameters near the given ones. -/
theorem C81_calls_succeed {backend w : String} (h : p.Holds v0 F) (hname : k.Named backend w) (hn : 1 ≤ n)
    (hsp : k = .scipy → ∀ z ≠ 0, ExactAt sp n z) (hinc : strictlyIncreasing (F.at v0).rLayers) (hlen : F.eps.length = F.r.length)
    (h1 : 1 ≤ F.r.length) (h2 : F.r.length ≤ 2) (hz : ∀ z ∈ csArgs (F.at v0).layers, k.Stable z ∧ 1e-8 < ‖z‖) (K : D1Kernel) (ri : Bool) :
    ∃ o, ShellCallAt k sp F v0 n ri o ∧ ∀ᶠ v in 𝓝 v0,
      mieCoefficients K (codeBackends sp) (F.at v) backend w (some (n : ℤ)) ri = .ok (o v) := by
  have hr : F.r ≠ [] := by rintro h0; rw [h0] at h1; simp at h1
  have he : F.eps ≠ [] := by rintro h0; rw [← hlen, h0] at h1; simp at h1
  obtain ⟨hb, hsel⟩ := hname.select sp
  have hb' : backend.toLower = "torch" ∨ backend.toLower = "scipy" := by
    cases k with
    | scipy => exact .inr hname
    | recurrence => exact .inl hname.1
    | ratios => exact .inl hname.1
  have lr : ∀ v, (F.at v).rLayers.length = F.r.length := fun v => by simp [ParticleFam.at]
  have le : ∀ v, (F.at v).epsLayers.length = F.eps.length := fun v => by simp [ParticleFam.at]
  obtain ⟨m1, x, m2, y, A⟩ := Node.argsOf h he hr
  obtain ⟨-, -, -, a1, a2, a3, a4⟩ := layers_ends (by rw [lr, le, hlen]) (by rw [lr]; exact h1) (by rw [lr]; exact h2)
    (A.em1 v0) (A.ex v0) (A.em2 v0) (A.ey v0)
  have ny : y v0 ≠ 0 := by
    have := (hz _ a1).2
    rintro h0
    rw [h0] at this
    norm_num at this
  have henv : csqrt (F.env v0) ≠ 0 := by
    rw [A.ey v0] at ny
    exact right_ne_zero_of_mul (left_ne_zero_of_mul ny)
  have gm1 := A.gm1 henv
  have gm2 := A.gm2 henv
  have c1 := (A.ty.adj A.gy.ok).cont
  have c2 := ((A.tm1.mul A.tx).adj (gm1.mul A.gx).ok).cont
  have c3 := ((A.tm2.mul A.tx).adj (gm2.mul A.gx).ok).cont
  have c4 := ((A.tm2.mul A.ty).adj (gm2.mul A.gy).ok).cont
  have hs : SmoothFam F v0 := h.smooth
  have good : ∀ᶠ v in 𝓝 v0, ∃ r, mieCoefficients K (codeBackends sp) (F.at v) backend w (some (n : ℤ)) ri = .ok r ∧ r.nMax = n := by
    filter_upwards [inc_near (fun r hr => (hs.r r hr).continuousAt) hinc,
      ShellKind.runs hn hsp c1 (hz _ a1).1, ShellKind.runs hn hsp c2 (hz _ a2).1, ShellKind.runs hn hsp c3 (hz _ a3).1,
      ShellKind.runs hn hsp c4 (hz _ a4).1, ShellKind.jn_near hsp c1 (hz _ a1).2, ShellKind.jn_near hsp c2 (hz _ a2).2,
      ShellKind.jn_near hsp c3 (hz _ a3).2, ShellKind.jn_near hsp c4 (hz _ a4).2] with v hv r1 r2 r3 r4 j1 j2 j3 j4
    obtain ⟨n, rfl⟩ : ∃ n', n = n' + 1 := ⟨n - 1, by omega⟩
    have hm := miecoef_run (r1 j1) (r2 j2) (r3 j3) (r4 j4)
    rw [A.em1 v, A.ex v, A.em2 v, A.ey v] at hm
    exact shellCall_ok hb' hn hv (by rw [lr, le, hlen]) (by rw [lr]; exact h1) (by rw [lr]; exact h2) hsel hm ri
  classical
  have ex : ∀ v, ∃ r : MieOut, (∃ r, mieCoefficients K (codeBackends sp) (F.at v) backend w (some (n : ℤ)) ri = .ok r ∧ r.nMax = n) →
      mieCoefficients K (codeBackends sp) (F.at v) backend w (some (n : ℤ)) ri = .ok r ∧ r.nMax = n := by
    intro v
    by_cases hc : ∃ r, mieCoefficients K (codeBackends sp) (F.at v) backend w (some (n : ℤ)) ri = .ok r ∧ r.nMax = n
    · exact ⟨hc.choose, fun _ => hc.choose_spec⟩
    · exact ⟨⟨0, 0, 0, 0, 0, 0, 0, [], [], [], none⟩, fun h => absurd h hc⟩
  choose o ho using ex
  refine ⟨o, ⟨hn, hsp, K, backend, w, some (n : ℤ), hname, ?_⟩, ?_⟩
  · filter_upwards [good] with v hv using ho v hv
  · filter_upwards [good] with v hv using (ho v hv).1

end Property

/-! ## A coated sphere with all parameters free -/

section Coated

/-- Wavenumber, core and shell radius, core permittivity (real and imaginary part), shell permittivity, host permittivity. -/
abbrev CoatParams := EuclideanSpace ℝ (Fin 7)

noncomputable def coatE : ParticleFam CoatParams where
  k0 t := t 0
  r := [fun t => t 1, fun t => t 2]
  eps := [fun t => t 3 + I * t 4, fun t => t 5]
  env t := t 6

noncomputable def coatPt : CoatParams := WithLp.toLp 2 ![1, 1 / 4, 1 / 2, 4, 0, 9 / 4, 1]

/-- A real leaf: `torch.tensor(t_i, requires_grad=True)`. -/
noncomputable def coatLeaf (i : Fin 7) : Node CoatParams := Node.ofReal (coatPt i) fun g => g • EuclideanSpace.single i 1

/-- The call `cross_sections(k0, r_layers=[r1, r2], eps_layers=[er + 1j*ei, e2], eps_env=ee)` with seven leaves. -/
noncomputable def coatIn : Node.Inputs CoatParams where
  k0 := coatLeaf 0
  r := [coatLeaf 1, coatLeaf 2]
  eps := [Node.add (coatLeaf 3) (Node.mul (Node.const I) (coatLeaf 4)), coatLeaf 5]
  env := coatLeaf 6

theorem coat_tracks (i : Fin 7) : Node.Tracks coatPt (coatLeaf i) fun t => ((t i : ℝ) : ℂ) := by
  refine ⟨rfl, fun h => by simp [coatLeaf, Node.ofReal] at h, fun _ => ?_⟩
  refine ⟨ofRealCLM.comp (EuclideanSpace.proj i), (ofRealCLM.comp (EuclideanSpace.proj (𝕜 := ℝ) i)).hasFDerivAt, fun g dv => ?_⟩
  simp [coatLeaf, Node.ofReal, inner_smul_left, EuclideanSpace.inner_single_left]

theorem coat_holds : coatIn.Holds coatPt coatE := by
  have c : ∀ i, (coatLeaf i).ok := fun _ => trivial
  refine ⟨(coat_tracks 0).recorded (c 0), .cons ((coat_tracks 1).recorded (c 1)) (.cons ((coat_tracks 2).recorded (c 2)) .nil),
    .cons ⟨?_, fun _ => ?_⟩ (.cons ⟨(coat_tracks 5).recorded (c 5), fun _ => ?_⟩ .nil), (coat_tracks 6).recorded (c 6), fun _ => ?_⟩
  · exact ((coat_tracks 3).add ((Node.Tracks.const I).mul (coat_tracks 4))).recorded ⟨c 3, trivial, c 4⟩
  · left
    have e : (((coatPt 3 : ℝ) : ℂ) + I * ((coatPt 4 : ℝ) : ℂ)).re = 4 := by
      simp only [coatPt, add_re, ofReal_re, mul_re, I_re, I_im, ofReal_im]
      simp
    rw [e]
    norm_num
  · exact ofReal_mem_slitPlane.2 (by simp [coatPt])
  · exact ofReal_mem_slitPlane.2 (by simp [coatPt])

theorem coat_at : coatE.at coatPt = ⟨1, [1 / 4, 1 / 2], [4, ((9 / 4 : ℝ) : ℂ)], 1⟩ := by
  simp [coatE, coatPt, ParticleFam.at]

theorem coat_lossless : LosslessAt (coatE.at coatPt) 1 1 := by
  rw [coat_at]
  refine ⟨⟨by simp, one_pos, by simp, one_pos, fun r hr => ?_⟩, fun e he => ?_⟩
  · simp only [List.mem_cons, List.not_mem_nil, or_false] at hr
    rcases hr with rfl | rfl <;> norm_num
  · simp only [List.mem_cons, List.not_mem_nil, or_false] at he
    rcases he with rfl | rfl
    · exact ⟨4, by norm_num, by norm_num⟩
    · exact ⟨9 / 4, by norm_num, rfl⟩

theorem coat_args : ∀ z ∈ csArgs (coatE.at coatPt).layers, 1e-8 < ‖z‖ ∧ ‖z‖ ≤ 3 / 2 := by
  have h4 : csqrt 4 = 2 := by
    have := csqrt_ofReal (show (0 : ℝ) ≤ 4 by norm_num)
    rw [show Real.sqrt 4 = 2 by rw [show (4 : ℝ) = 2 ^ 2 by norm_num]; exact Real.sqrt_sq (by norm_num)] at this
    exact_mod_cast this
  have h9 : csqrt ((9 / 4 : ℝ) : ℂ) = ((3 / 2 : ℝ) : ℂ) := by
    rw [csqrt_ofReal (by norm_num), show (9 / 4 : ℝ) = (3 / 2) ^ 2 by norm_num, Real.sqrt_sq (by norm_num)]
  have h1 : csqrt 1 = 1 := by
    have := csqrt_ofReal (show (0 : ℝ) ≤ 1 by norm_num)
    simpa using this
  rw [coat_at]
  simp only [Particle1.layers, layersOf, List.map_cons, List.map_nil, List.zip_cons_cons, List.zip_nil_right, csArgs, h4, h9, h1]
  intro z hz
  simp only [List.mem_cons, List.not_mem_nil, or_false] at hz
  rcases hz with rfl | rfl | rfl | rfl <;> norm_num

/-- All core-shell backends on this particle, two orders: the calls succeed for all nearby parameters and `backward` returns the gradients. -/
example (k : ShellKind) {backend w : String} (hname : k.Named backend w) (K : D1Kernel) :
    ∃ o, (∀ᶠ v in 𝓝 coatPt, mieCoefficients K (codeBackends exactBessel) (coatE.at v) backend w (some 2) true = .ok (o v)) ∧
      ShellGradients coatPt k coatIn 2 true o := by
  have hinc : strictlyIncreasing (coatE.at coatPt).rLayers := by rw [coat_at]; norm_num [strictlyIncreasing]
  have hz : ∀ z ∈ csArgs (coatE.at coatPt).layers, k.Stable z ∧ 1e-8 < ‖z‖ := fun z hz =>
    ⟨small_stable (by have := (coat_args z hz).1; rintro rfl; norm_num at this) (coat_args z hz).2, (coat_args z hz).1⟩
  obtain ⟨o, h1, h2⟩ := C81_calls_succeed (sp := exactBessel) coat_holds hname (n := 2) (by norm_num) (fun _ z hz => exactBessel_at hz) hinc rfl
    (by simp [coatE]) (by simp [coatE]) hz K true
  refine ⟨o, h2, C81_small coat_holds h1 coat_lossless fun z hz => ⟨?_, (coat_args z hz).2⟩⟩
  have := (coat_args z hz).1
  norm_num at this ⊢
  linarith

/-- The names exist, in any case. -/
example : ShellKind.scipy.Named "SciPy" "recurrence" ∧ ShellKind.recurrence.Named "Torch" "Recurrence" ∧ ShellKind.ratios.Named "torch" "ratios" := by
  unfold ShellKind.Named
  refine ⟨?_, ⟨?_, ?_⟩, ?_, ?_⟩ <;> decide +kernel

end Coated

end MieDiff
