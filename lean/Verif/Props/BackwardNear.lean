import Verif.Proofs.BackwardNear

/-!
# C83: reverse-mode gradients of `nearfields` with the core-shell backends

`loss.backward()` through the fields at a probe point, with respect to the parameters of the particle and the position of the point.
-/

namespace MieDiff

open Complex Spec Filter Topology
open scoped RealInnerProductSpace

variable {V : Type*} [NormedAddCommGroup V] [InnerProductSpace ℝ V] {v0 : V}

/-- Distance of a point from the centre of the particle. -/
noncomputable def V3.dist0 (p : V3 ℝ) : ℝ := Real.sqrt (p.c0 ^ 2 + p.c1 ^ 2 + p.c2 ^ 2)

/-- Argument of the radial functions at the point `p` in a medium of refractive index `m`. -/
noncomputable def probeArg (k0 m : ℂ) (p : V3 ℝ) : ℂ := k0 * m * (p.dist0 : ℂ) + ((1e-8 : ℝ) : ℂ)

/-- The three arguments: in the media of core, shell and host. -/
noncomputable def argCore (F : ParticleFam V) (pt : V → V3 ℝ) (v : V) : ℂ := probeArg (F.k0 v) (csqrt ((F.at v).epsLayers.headD 0)) (pt v)
noncomputable def argShell (F : ParticleFam V) (pt : V → V3 ℝ) (v : V) : ℂ := probeArg (F.k0 v) (csqrt ((F.at v).epsLayers.getLastD 0)) (pt v)
noncomputable def argHost (F : ParticleFam V) (pt : V → V3 ℝ) (v : V) : ℂ := probeArg (F.k0 v) (csqrt (F.env v)) (pt v)

/-- Where the code is smooth at a probe point `p` of a particle with core radius `rC` and shell radius `rS`: not in the plane `x = 0` (where `x`
is shifted before the azimuth is computed), not on the cone where the clamping of `z/r` sets in, and not on an interface. -/
structure SmoothPoint (p : V3 ℝ) (rC rS : ℝ) : Prop where
  plane : p.c0 ≠ 0
  cone : |p.c2| ≠ (1 - eps10Double) * p.dist0
  core : p.dist0 ≠ rC
  shell : p.dist0 ≠ rS

/-- What the recorded run has to deliver for a vector. -/
structure VecBackward [CompleteSpace V] (v0 : V) (f : V → V3 ℂ) (w : V3 (Node V)) : Prop where
  value : (⟨w.c0.val, w.c1.val, w.c2.val⟩ : V3 ℂ) = f v0
  c0_grad : Vjp v0 w.c0.back fun v => (f v).c0
  c1_grad : Vjp v0 w.c1.back fun v => (f v).c1
  c2_grad : Vjp v0 w.c2.back fun v => (f v).c2

/-- What the recorded run of `nearfields` has to deliver: incident, scattered (or internal) and total fields. -/
structure NearBackward [CompleteSpace V] (v0 : V) (A : V → Fields) (w : Node.NearFields V) : Prop where
  Ei : VecBackward v0 (fun v => (A v).Ei) w.Ei
  Hi : VecBackward v0 (fun v => (A v).Hi) w.Hi
  Es : VecBackward v0 (fun v => (A v).Es) w.Es
  Hs : VecBackward v0 (fun v => (A v).Hs) w.Hs
  Et : VecBackward v0 (fun v => (A v).Et) w.Et
  Ht : VecBackward v0 (fun v => (A v).Ht) w.Ht

/-- `nearfields` of the torch and scipy backends at the point `pt` from the output `o` of `mie_coefficients`; `zm` are the largest arguments in
the batch, from which the depths of the recurrences are chosen. -/
noncomputable def nearOut (k0 : ℂ) (o : MieOut) (zm : ℝ × ℝ × ℝ) (E0 : ℂ) (pt : V3 ℝ) : Py Fields :=
  nearfieldsTorch (torchFns zm.1) (torchFns zm.2.1) (torchFns zm.2.1) (torchFns zm.2.2) k0 o.k (csqrt o.epsC) (csqrt o.epsS) o.nEnv o.rC o.rS
    E0 (o.internal.getD []) pt

section Property

variable [CompleteSpace V] {p : Node.Inputs V} {F : ParticleFam V} {n : ℕ} {o : V → MieOut} {k : ShellKind} {sp : BesselBackend}
  {x y z : Node V} {pt : V → V3 ℝ} {A : V → Fields} {E0 : ℂ}

/-- The functions followed by the recorded medium. -/
noncomputable def medFn (F : ParticleFam V) : Node.MedFn V where
  k v := F.k0 v * csqrt (F.env v)
  k0 := F.k0
  nC v := csqrt ((F.at v).epsLayers.headD 0)
  nS v := csqrt ((F.at v).epsLayers.getLastD 0)
  nE v := csqrt (F.env v)
  rC v := (F.at v).rLayers.headD 0
  rS v := (F.at v).rLayers.getLastD 0

theorem medium_exact (h : p.Holds v0 F) (he : F.eps ≠ []) (hr : F.r ≠ []) : Node.MedExact v0 (Node.medium p) (medFn F) := by
  obtain ⟨e1, -, he1, de1⟩ := Node.headD_rel h.eps he (Node.const 0)
  obtain ⟨e2, -, he2, de2⟩ := Node.getLastD_rel h.eps he (Node.const 0)
  obtain ⟨r1, -, hr1, dr1⟩ := Node.headD_rel h.r hr (Node.const 0)
  obtain ⟨r2, -, hr2, dr2⟩ := Node.getLastD_rel h.r hr (Node.const 0)
  have tn := h.env.tracks.powHalf
  have gn := h.env.good.powHalf h.cut
  have tk := h.k0.tracks.mul tn
  have gk := h.k0.good.mul gn
  have hd : ∀ {β : Type} (l : List (V → β)) (hl : l ≠ []) (g : V → β) (d : β) (hg : ∀ c, l.headD c = g) (v : V),
      (l.map (· v)).headD d = g v := by
    intro β l hl g d hg v
    cases l with
    | nil => exact absurd rfl hl
    | cons a l => simpa using congrFun (hg a) v
  have hl : ∀ {β : Type} (l : List (V → β)) (hl : l ≠ []) (g : V → β) (d : β) (hg : ∀ c, l.getLastD c = g) (v : V),
      (l.map (· v)).getLastD d = g v := by
    intro β l hl g d hg v
    rw [List.getLastD_eq_getLast?, List.getLast?_map]
    have := hg g
    rw [List.getLastD_eq_getLast?] at this
    obtain ⟨b, hb⟩ := Option.isSome_iff_exists.1 (List.getLast?_isSome.2 hl)
    rw [hb] at this ⊢
    simpa using congrFun this v
  have c1 : ∀ v, (F.at v).epsLayers.headD 0 = e1 v := hd F.eps he e1 0 de1
  have c2 : ∀ v, (F.at v).epsLayers.getLastD 0 = e2 v := hl F.eps he e2 0 de2
  have c3 : ∀ v, (F.at v).rLayers.headD 0 = r1 v := hd F.r hr r1 0 dr1
  have c4 : ∀ v, (F.at v).rLayers.getLastD 0 = r2 v := hl F.r hr r2 0 dr2
  refine ⟨tk.exact gk.ok, h.k0.tracks, he1.1.tracks.powHalf.congr fun v => ?_, he2.1.tracks.powHalf.congr fun v => ?_, tn, h.k0.regular,
    (he1.1.good.powHalf he1.2).ok, (he2.1.good.powHalf he2.2).ok, gn.ok, hr1.exact.congr (Eventually.of_forall fun v => ?_),
    hr2.exact.congr (Eventually.of_forall fun v => ?_)⟩
  · simp only [medFn, c1]
  · simp only [medFn, c2]
  · simp only [medFn, c3]
  · simp only [medFn, c4]

theorem Node.Exact3.backward {w : V3 (Node V)} {f : V → V3 ℂ} (h : Node.Exact3 v0 w f) : VecBackward v0 f w :=
  ⟨by rw [h.c0.val, h.c1.val, h.c2.val], h.c0.vjp, h.c1.vjp, h.c2.vjp⟩

theorem ShellBackward.exact {out : V → CoreShellOut} {c : Node.ShellOut V} (h : ShellBackward v0 out c) : Node.OutExact v0 c out := by
  have e := h.value
  exact ⟨⟨by rw [← e], adj_iff.2 h.a_grad⟩, ⟨by rw [← e], adj_iff.2 h.b_grad⟩, ⟨by rw [← e], adj_iff.2 h.c_grad⟩, ⟨by rw [← e], adj_iff.2 h.d_grad⟩,
    ⟨by rw [← e], adj_iff.2 h.f_grad⟩, ⟨by rw [← e], adj_iff.2 h.g_grad⟩, ⟨by rw [← e], adj_iff.2 h.v_grad⟩, ⟨by rw [← e], adj_iff.2 h.w_grad⟩⟩

omit [CompleteSpace V] [InnerProductSpace ℝ V] in
theorem xyzToSph_c0 (q : V3 ℝ) : (xyzToSph eps10Double q.c0 q.c1 q.c2).c0 = q.dist0 := rfl

omit [InnerProductSpace ℝ V] [CompleteSpace V] in
/-- What the near field takes from a call of `mie_coefficients`. -/
theorem ShellCallAt.out (hcall : ShellCallAt k sp F v0 n true o) : F.eps ≠ [] ∧ F.r ≠ [] ∧
    ∀ᶠ v in 𝓝 v0, ((o v).internal.getD []).length = (o v).a.length ∧ (o v).k = (medFn F).k v ∧ (o v).rC = (medFn F).rC v ∧
      (o v).rS = (medFn F).rS v ∧ csqrt (o v).epsC = (medFn F).nC v ∧ csqrt (o v).epsS = (medFn F).nS v ∧ (o v).nEnv = (medFn F).nE v := by
  obtain ⟨K, backend, w, nMax, hname, hc⟩ := hcall.call
  obtain ⟨hb, -⟩ := hname.select sp
  have run0 := shellRun_of hb hc.self_of_nhds.1
  refine ⟨?_, ?_, ?_⟩
  · intro h0
    have := run0.one
    rw [← run0.len] at this
    simp [ParticleFam.at, h0] at this
  · intro h0
    have := run0.one
    simp [ParticleFam.at, h0] at this
  · filter_upwards [hc] with v hv
    have run := shellRun_of hb hv.1
    obtain ⟨S, out, -, -, ea, -, ei⟩ := run.run
    refine ⟨?_, run.k, run.rC, run.rS, by rw [run.epsC]; rfl, by rw [run.epsS]; rfl, run.nEnv⟩
    rw [ei, ea]
    simp

/-- C83: `backward` through `nearfields` returns the gradient of every component of the six fields, with respect to all parameters of the
particle and the position of the probe point: if it does so through the coefficients (C81), the point is smooth, and near the parameters
no guard fires and the depths `d` of the recurrences do not change. -/
theorem C83_fields (h : p.Holds v0 F) (hcall : ShellCallAt k sp F v0 n true o) (hg : ShellGradients v0 k p n true o)
    (hx : Node.Recorded v0 x fun v => ((pt v).c0 : ℂ)) (hy : Node.Recorded v0 y fun v => ((pt v).c1 : ℂ))
    (hz : Node.Recorded v0 z fun v => ((pt v).c2 : ℂ))
    (hpt : SmoothPoint (pt v0) ((F.at v0).rLayers.headD 0) ((F.at v0).rLayers.getLastD 0)) {d : ℕ × ℕ × ℕ} {zm : V → ℝ × ℝ × ℝ}
    (hd : ∀ᶠ v in 𝓝 v0, Node.batchDepth (zm v).1 = d.1 ∧ Node.batchDepth (zm v).2.1 = d.2.1 ∧ Node.batchDepth (zm v).2.2 = d.2.2)
    (hc : 1e-8 < ‖argCore F pt v0‖ ∧ Node.CfClear (argCore F pt v0) (n + d.1))
    (hs : 1e-8 < ‖argShell F pt v0‖ ∧ Node.CfClear (argShell F pt v0) (n + d.2.1))
    (he : 1e-8 < ‖argHost F pt v0‖ ∧ Node.CfClear (argHost F pt v0) (n + d.2.2))
    (hA : ∀ᶠ v in 𝓝 v0, nearOut (F.k0 v) (o v) (zm v) E0 (pt v) = .ok (A v)) :
    NearBackward v0 A (Node.nearOf n (Node.Bess.ratioAt n d.1) (Node.Bess.ratioAt n d.2.1) (Node.Bess.ratioAt n d.2.2) (Node.medium p) E0
      (Node.shell (k.bess V n) p) x y z) := by
  obtain ⟨hE, hR, ho⟩ := hcall.out
  have hM := medium_exact h hE hR
  have hsph := Node.sph_exact hx hy hz hpt.plane hpt.cone
  have cont : ∀ {M : Node V} {f : V → ℂ}, Node.Tracks v0 M f → M.ok → ContinuousAt
      (fun v => probeArg (F.k0 v) (f v) (pt v)) v0 := fun t ok =>
    ((((hM.k0.mul t).mul hsph.tracks).add (Node.Tracks.const ((1e-8 : ℝ) : ℂ))).adj ⟨⟨⟨hM.ok0, ok⟩, hsph.ok⟩, trivial⟩).cont
  have gc := (cont hM.nC hM.okC).norm.eventually_const_lt hc.1
  have gs := (cont hM.nS hM.okS).norm.eventually_const_lt hs.1
  have ge := (cont hM.nE hM.okE).norm.eventually_const_lt he.1
  have key := Node.nearOf_exact (n := n) (dc := d.1) (ds := d.2.1) (de := d.2.2) hM E0
    (out := fun i v => ((o v).internal.getD []).getD i noOrder) (fun i hi => (hg.internal rfl (i + 1) (by omega) (by omega)).exact) hsph
    hpt.core hpt.shell hc hs he
  have eq : ∀ᶠ v in 𝓝 v0, A v = Node.nearFn n (Node.ricFn (Node.ratFn n d.1) 1) (Node.ricFn (Node.ratFn n d.2.1) 1)
      (Node.ricFn (Node.ratFn n d.2.1) 2) (Node.ricFn (Node.ratFn n d.2.2) 3) ((medFn F).k0 v) ((medFn F).k v) ((medFn F).nC v) ((medFn F).nS v)
      ((medFn F).nE v) ((medFn F).rC v) ((medFn F).rS v) E0 (fun i => ((o v).internal.getD []).getD i noOrder)
      (xyzToSph eps10Double (pt v).c0 (pt v).c1 (pt v).c2) := by
    filter_upwards [hA, ho, hg.orders, hd, gc, gs, ge] with v hv ⟨q1, q2, q3, q4, q5, q6, q7⟩ hl hdv b1 b2 b3
    have hlen : ((o v).internal.getD []).length = n := q1.trans hl.1
    have hn := hcall.pos
    unfold nearOut at hv
    rw [q2, q3, q4, q5, q6, q7, Node.near_run (by omega) _ _ _ _ _ _ _ _ _ (by
      intro m hm
      simp only [List.mem_cons, List.not_mem_nil, or_false] at hm
      rcases hm with rfl | rfl | rfl
      · exact b1.le
      · exact b2.le
      · exact b3.le), hlen, hdv.1, hdv.2.1, hdv.2.2] at hv
    exact (Except.ok.inj hv).symm
  have tr : ∀ {w : V3 (Node V)} {f : Fields → V3 ℂ}, Node.Exact3 v0 w (fun v => f (Node.nearFn n (Node.ricFn (Node.ratFn n d.1) 1)
      (Node.ricFn (Node.ratFn n d.2.1) 1) (Node.ricFn (Node.ratFn n d.2.1) 2) (Node.ricFn (Node.ratFn n d.2.2) 3) ((medFn F).k0 v) ((medFn F).k v)
      ((medFn F).nC v) ((medFn F).nS v) ((medFn F).nE v) ((medFn F).rC v) ((medFn F).rS v) E0 (fun i => ((o v).internal.getD []).getD i noOrder)
      (xyzToSph eps10Double (pt v).c0 (pt v).c1 (pt v).c2))) → VecBackward v0 (fun v => f (A v)) w := fun hw =>
    (hw.congr (eq.mono fun v hv => by rw [hv])).backward
  exact ⟨tr (f := (·.Ei)) key.Ei, tr (f := (·.Hi)) key.Hi, tr (f := (·.Es)) key.Es, tr (f := (·.Hs)) key.Hs, tr (f := (·.Et)) key.Et,
    tr (f := (·.Ht)) key.Ht⟩

/-- The largest arguments when `nearfields` is called with a single probe point. -/
noncomputable def soloArgs (F : ParticleFam V) (pt : V → V3 ℝ) (v : V) : ℝ × ℝ × ℝ := (‖argCore F pt v‖, ‖argShell F pt v‖, ‖argHost F pt v‖)

omit [CompleteSpace V] [InnerProductSpace ℝ V] in
theorem batchDepth_norm (z : ℂ) : Node.batchDepth ‖z‖ = Node.ratioDepth z := rfl

/-- Regular arguments of the radial functions at a single probe point. -/
structure SoloClear (F : ParticleFam V) (pt : V → V3 ℝ) (n : ℕ) (v0 : V) : Prop where
  large : ∀ a ∈ [argCore F pt v0, argShell F pt v0, argHost F pt v0], 1e-8 < ‖a‖
  stable : ∀ a ∈ [argCore F pt v0, argShell F pt v0, argHost F pt v0], ShellKind.ratios.Stable a
  clear : ∀ a ∈ [argCore F pt v0, argShell F pt v0, argHost F pt v0], ShellKind.ratios.Clear n a

/-- The three arguments are continuous. -/
theorem args_cont (h : p.Holds v0 F) (hcall : ShellCallAt k sp F v0 n true o) (hx : Node.Recorded v0 x fun v => ((pt v).c0 : ℂ))
    (hy : Node.Recorded v0 y fun v => ((pt v).c1 : ℂ)) (hz : Node.Recorded v0 z fun v => ((pt v).c2 : ℂ)) :
    ContinuousAt (argCore F pt) v0 ∧ ContinuousAt (argShell F pt) v0 ∧ ContinuousAt (argHost F pt) v0 := by
  obtain ⟨hE, hR, -⟩ := hcall.out
  have hM := medium_exact h hE hR
  have hc : ContinuousAt (fun v => (pt v).dist0) v0 := by
    have c0 := hx.exact.real_cont
    have c1 := hy.exact.real_cont
    have c2 := hz.exact.real_cont
    exact (((c0.pow 2).add (c1.pow 2)).add (c2.pow 2)).sqrt
  have hr : ContinuousAt (fun v => ((pt v).dist0 : ℂ)) v0 := continuous_ofReal.continuousAt.comp hc
  have k0 := (hM.k0.adj hM.ok0).cont
  exact ⟨((k0.mul (hM.nC.adj hM.okC).cont).mul hr).add continuousAt_const, ((k0.mul (hM.nS.adj hM.okS).cont).mul hr).add continuousAt_const,
    ((k0.mul (hM.nE.adj hM.okE).cont).mul hr).add continuousAt_const⟩

/-- C83 for a call with a single probe point: the call succeeds for all parameters near the given ones, and `backward` returns the gradients. -/
theorem C83_solo (h : p.Holds v0 F) (hcall : ShellCallAt k sp F v0 n true o) (hg : ShellGradients v0 k p n true o)
    (hx : Node.Recorded v0 x fun v => ((pt v).c0 : ℂ)) (hy : Node.Recorded v0 y fun v => ((pt v).c1 : ℂ))
    (hz : Node.Recorded v0 z fun v => ((pt v).c2 : ℂ))
    (hpt : SmoothPoint (pt v0) ((F.at v0).rLayers.headD 0) ((F.at v0).rLayers.getLastD 0)) (hcl : SoloClear F pt n v0) (E0 : ℂ) :
    ∃ A : V → Fields, (∀ᶠ v in 𝓝 v0, nearOut (F.k0 v) (o v) (soloArgs F pt v) E0 (pt v) = .ok (A v)) ∧
      NearBackward v0 A (Node.nearOf n (Node.Bess.ratioAt n (Node.ratioDepth (argCore F pt v0)))
        (Node.Bess.ratioAt n (Node.ratioDepth (argShell F pt v0))) (Node.Bess.ratioAt n (Node.ratioDepth (argHost F pt v0))) (Node.medium p) E0
        (Node.shell (k.bess V n) p) x y z) := by
  obtain ⟨cc, cs, ce⟩ := args_cont h hcall hx hy hz
  obtain ⟨-, -, ho⟩ := hcall.out
  have run : ∀ᶠ v in 𝓝 v0, ∃ B, nearOut (F.k0 v) (o v) (soloArgs F pt v) E0 (pt v) = .ok B := by
    filter_upwards [ho, hg.orders, cc.norm.eventually_const_lt (hcl.large _ (by simp)), cs.norm.eventually_const_lt (hcl.large _ (by simp)),
      ce.norm.eventually_const_lt (hcl.large _ (by simp))] with v ⟨q1, q2, q3, q4, q5, q6, q7⟩ hl b1 b2 b3
    have hlen : ((o v).internal.getD []).length = n := q1.trans hl.1
    have hn := hcall.pos
    unfold nearOut
    rw [q2, q3, q4, q5, q6, q7, Node.near_run (by omega) _ _ _ _ _ _ _ _ _ (by
      intro m hm
      simp only [List.mem_cons, List.not_mem_nil, or_false] at hm
      rcases hm with rfl | rfl | rfl
      · exact b1.le
      · exact b2.le
      · exact b3.le)]
    exact ⟨_, rfl⟩
  classical
  have ex : ∀ v, ∃ B : Fields, (∃ B, nearOut (F.k0 v) (o v) (soloArgs F pt v) E0 (pt v) = .ok B) →
      nearOut (F.k0 v) (o v) (soloArgs F pt v) E0 (pt v) = .ok B := by
    intro v
    by_cases hc : ∃ B, nearOut (F.k0 v) (o v) (soloArgs F pt v) E0 (pt v) = .ok B
    · exact ⟨hc.choose, fun _ => hc.choose_spec⟩
    · exact ⟨⟨V3.zero, V3.zero, V3.zero, V3.zero, V3.zero, V3.zero⟩, fun h => absurd h hc⟩
  choose A hA using ex
  have hA' := run.mono fun v hv => hA v hv
  refine ⟨A, hA', C83_fields (d := (Node.ratioDepth (argCore F pt v0), Node.ratioDepth (argShell F pt v0), Node.ratioDepth (argHost F pt v0))) h hcall hg
    hx hy hz hpt ?_ ⟨hcl.large _ (by simp), (hcl.clear _ (by simp)).2⟩ ⟨hcl.large _ (by simp), (hcl.clear _ (by simp)).2⟩
    ⟨hcl.large _ (by simp), (hcl.clear _ (by simp)).2⟩ hA'⟩
  filter_upwards [ratioDepth_stable cc (hcl.stable _ (by simp)), ratioDepth_stable cs (hcl.stable _ (by simp)),
    ratioDepth_stable ce (hcl.stable _ (by simp))] with v h1 h2 h3
  exact ⟨h1, h2, h3⟩

/-- C83 for small lossless particles and probe points near them: if no argument of the special functions exceeds 3/2 (nor is in the range of
the guards), then at every smooth point `backward` returns the gradients, for every core-shell backend. -/
theorem C83_small {k0 e0 : ℝ} (h : p.Holds v0 F) (hcall : ShellCallAt k sp F v0 n true o) (hp : LosslessAt (F.at v0) k0 e0)
    (hz' : ∀ z ∈ csArgs (F.at v0).layers, 1e-10 < ‖z‖ ∧ ‖z‖ ≤ 3 / 2) (hx : Node.Recorded v0 x fun v => ((pt v).c0 : ℂ))
    (hy : Node.Recorded v0 y fun v => ((pt v).c1 : ℂ)) (hz : Node.Recorded v0 z fun v => ((pt v).c2 : ℂ))
    (hpt : SmoothPoint (pt v0) ((F.at v0).rLayers.headD 0) ((F.at v0).rLayers.getLastD 0))
    (hsmall : ∀ a ∈ [argCore F pt v0, argShell F pt v0, argHost F pt v0], 1e-8 < ‖a‖ ∧ ‖a‖ ≤ 3 / 2) (E0 : ℂ) :
    ∃ A : V → Fields, (∀ᶠ v in 𝓝 v0, nearOut (F.k0 v) (o v) (soloArgs F pt v) E0 (pt v) = .ok (A v)) ∧
      NearBackward v0 A (Node.nearOf n (Node.Bess.ratioAt n (Node.ratioDepth (argCore F pt v0)))
        (Node.Bess.ratioAt n (Node.ratioDepth (argShell F pt v0))) (Node.Bess.ratioAt n (Node.ratioDepth (argHost F pt v0))) (Node.medium p) E0
        (Node.shell (k.bess V n) p) x y z) := by
  refine C83_solo h hcall (C81_small h hcall hp hz') hx hy hz hpt ⟨fun a ha => (hsmall a ha).1, fun a ha => ?_, fun a ha => ?_⟩ E0
  · obtain ⟨h1, h2⟩ := hsmall a ha
    exact small_stable (by rintro rfl; norm_num at h1) h2
  · obtain ⟨h1, h2⟩ := hsmall a ha
    exact small_clear hcall.pos (by norm_num at h1 ⊢; linarith) h2

end Property

/-! ## The coated sphere of C81 with a movable probe point -/

section Probe

/-- Parameters: the seven of the particle, and the three coordinates of the probe point. -/
abbrev ProbeParams : Type := EuclideanSpace ℝ (Fin 10)

noncomputable def probeE : ParticleFam ProbeParams where
  k0 t := t 0
  r := [fun t => t 1, fun t => t 2]
  eps := [fun t => t 3 + I * t 4, fun t => t 5]
  env t := t 6

/-- The point `(2s/5, 2s/5, s/5)`, at the distance `3s/5` from the centre. -/
noncomputable def probePt (s : ℝ) : ProbeParams := WithLp.toLp 2 ![1, 1 / 4, 1 / 2, 4, 0, 9 / 4, 1, 2 * s / 5, 2 * s / 5, s / 5]

noncomputable def probeLeaf (s : ℝ) (i : Fin 10) : Node ProbeParams := Node.ofReal (probePt s i) fun g => g • EuclideanSpace.single i 1

noncomputable def probeIn (s : ℝ) : Node.Inputs ProbeParams where
  k0 := probeLeaf s 0
  r := [probeLeaf s 1, probeLeaf s 2]
  eps := [Node.add (probeLeaf s 3) (Node.mul (Node.const I) (probeLeaf s 4)), probeLeaf s 5]
  env := probeLeaf s 6

theorem probe_tracks (s : ℝ) (i : Fin 10) : Node.Tracks (probePt s) (probeLeaf s i) fun t => ((t i : ℝ) : ℂ) := by
  refine ⟨rfl, fun h => by simp [probeLeaf, Node.ofReal] at h, fun _ => ?_⟩
  refine ⟨ofRealCLM.comp (EuclideanSpace.proj i), (ofRealCLM.comp (EuclideanSpace.proj (𝕜 := ℝ) i)).hasFDerivAt, fun g dv => ?_⟩
  simp [probeLeaf, Node.ofReal, inner_smul_left, EuclideanSpace.inner_single_left]

theorem probe_holds (s : ℝ) : (probeIn s).Holds (probePt s) probeE := by
  have c : ∀ i, (probeLeaf s i).ok := fun _ => trivial
  have t := fun i => (probe_tracks s i).recorded (c i)
  refine ⟨t 0, .cons (t 1) (.cons (t 2) .nil), .cons ⟨?_, fun _ => ?_⟩ (.cons ⟨t 5, fun _ => ?_⟩ .nil), t 6, fun _ => ?_⟩
  · exact ((probe_tracks s 3).add ((Node.Tracks.const I).mul (probe_tracks s 4))).recorded ⟨c 3, trivial, c 4⟩
  · left
    have e : (((probePt s 3 : ℝ) : ℂ) + I * ((probePt s 4 : ℝ) : ℂ)).re = 4 := by
      simp only [probePt, add_re, ofReal_re, mul_re, I_re, I_im, ofReal_im]
      simp
    rw [e]
    norm_num
  · exact ofReal_mem_slitPlane.2 (by simp [probePt])
  · exact ofReal_mem_slitPlane.2 (by simp [probePt])

theorem probe_at (s : ℝ) : probeE.at (probePt s) = coatE.at coatPt := by
  rw [coat_at]
  simp [probeE, probePt, ParticleFam.at]

/-- The point as a function of the parameters. -/
def probeXyz (t : ProbeParams) : V3 ℝ := ⟨t 7, t 8, t 9⟩

theorem probe_dist {s : ℝ} (hs : 0 < s) : (probeXyz (probePt s)).dist0 = 3 * s / 5 := by
  have : (probeXyz (probePt s)).dist0 = Real.sqrt ((2 * s / 5) ^ 2 + (2 * s / 5) ^ 2 + (s / 5) ^ 2) := rfl
  rw [this, show (2 * s / 5) ^ 2 + (2 * s / 5) ^ 2 + (s / 5) ^ 2 = (3 * s / 5) ^ 2 by ring, Real.sqrt_sq (by positivity)]

/-- All core-shell backends, two orders, and a probe point in the core, in the shell or outside: all calls succeed, and `backward` returns the
gradients of the fields with respect to all ten parameters. -/
theorem probe_near {s : ℝ} (h0 : 1 / 100 < s) (h1 : s ≤ 1) (hc : 3 * s / 5 ≠ 1 / 4) (hs : 3 * s / 5 ≠ 1 / 2) (k : ShellKind) {backend w : String}
    (hname : k.Named backend w) (K : D1Kernel) (E0 : ℂ) : ∃ (o : ProbeParams → MieOut) (A : ProbeParams → Fields),
      (∀ᶠ v in 𝓝 (probePt s), mieCoefficients K (codeBackends exactBessel) (probeE.at v) backend w (some 2) true = .ok (o v)) ∧
      (∀ᶠ v in 𝓝 (probePt s), nearOut (probeE.k0 v) (o v) (soloArgs probeE probeXyz v) E0 (probeXyz v) = .ok (A v)) ∧
      ∃ d : ℕ × ℕ × ℕ, NearBackward (probePt s) A (Node.nearOf 2 (Node.Bess.ratioAt 2 d.1) (Node.Bess.ratioAt 2 d.2.1) (Node.Bess.ratioAt 2 d.2.2)
        (Node.medium (probeIn s)) E0 (Node.shell (k.bess ProbeParams 2) (probeIn s)) (probeLeaf s 7) (probeLeaf s 8) (probeLeaf s 9)) := by
  have hargs : ∀ z ∈ csArgs (probeE.at (probePt s)).layers, 1e-8 < ‖z‖ ∧ ‖z‖ ≤ 3 / 2 := by rw [probe_at]; exact coat_args
  have hinc : strictlyIncreasing (probeE.at (probePt s)).rLayers := by rw [probe_at, coat_at]; norm_num [strictlyIncreasing]
  have hz : ∀ z ∈ csArgs (probeE.at (probePt s)).layers, k.Stable z ∧ 1e-8 < ‖z‖ := fun z hz =>
    ⟨small_stable (by have := (hargs z hz).1; rintro rfl; norm_num at this) (hargs z hz).2, (hargs z hz).1⟩
  obtain ⟨o, hcall, h2⟩ := C81_calls_succeed (sp := exactBessel) (probe_holds s) hname (n := 2) (by norm_num) (fun _ z hz => exactBessel_at hz)
    hinc rfl (by simp [probeE]) (by simp [probeE]) hz K true
  have sp : 0 < s := by linarith
  have hd := probe_dist sp
  have h4 : csqrt 4 = ((2 : ℝ) : ℂ) := by
    have := csqrt_ofReal (show (0 : ℝ) ≤ 4 by norm_num)
    rw [show Real.sqrt 4 = 2 by rw [show (4 : ℝ) = 2 ^ 2 by norm_num]; exact Real.sqrt_sq (by norm_num)] at this
    exact_mod_cast this
  have h9 : csqrt ((9 / 4 : ℝ) : ℂ) = ((3 / 2 : ℝ) : ℂ) := by
    rw [csqrt_ofReal (by norm_num), show (9 / 4 : ℝ) = (3 / 2) ^ 2 by norm_num, Real.sqrt_sq (by norm_num)]
  have h1' : csqrt 1 = ((1 : ℝ) : ℂ) := by
    have := csqrt_ofReal (show (0 : ℝ) ≤ 1 by norm_num)
    simpa using this
  have hk : probeE.k0 (probePt s) = 1 := by simp [probeE, probePt]
  have he : probeE.env (probePt s) = 1 := by simp [probeE, probePt]
  have nrm : ∀ m : ℝ, 1 ≤ m → m ≤ 2 → 1e-8 < ‖probeArg 1 (m : ℂ) (probeXyz (probePt s))‖ ∧ ‖probeArg 1 (m : ℂ) (probeXyz (probePt s))‖ ≤ 3 / 2 := by
    intro m hm1 hm2
    have : probeArg 1 (m : ℂ) (probeXyz (probePt s)) = ((m * (3 * s / 5) + 1e-8 : ℝ) : ℂ) := by
      unfold probeArg
      rw [hd]
      push_cast
      ring
    rw [this, norm_real, Real.norm_of_nonneg (by positivity)]
    constructor <;> norm_num <;> nlinarith
  have c0 : (probeXyz (probePt s)).c0 = 2 * s / 5 := rfl
  have c2 : (probeXyz (probePt s)).c2 = s / 5 := rfl
  obtain ⟨A, hA, hB⟩ := C83_small (x := probeLeaf s 7) (y := probeLeaf s 8) (z := probeLeaf s 9) (pt := probeXyz) (probe_holds s) hcall
    (k0 := 1) (e0 := 1) (by rw [probe_at]; exact coat_lossless)
    (fun z hz => ⟨by have := (hargs z hz).1; norm_num at this ⊢; linarith, (hargs z hz).2⟩) ((probe_tracks s 7).recorded trivial)
    ((probe_tracks s 8).recorded trivial) ((probe_tracks s 9).recorded trivial)
    ⟨by rw [c0]; positivity, by
      rw [c2, hd, abs_of_pos (by positivity)]
      unfold eps10Double
      intro e
      norm_num at e
      nlinarith, by rw [hd, probe_at, coat_at]; exact hc, by rw [hd, probe_at, coat_at]; exact hs⟩
    (fun a ha => by
      simp only [List.mem_cons, List.not_mem_nil, or_false, argCore, argShell, argHost, probe_at, coat_at, List.headD_cons, hk, he] at ha
      rcases ha with rfl | rfl | rfl
      · rw [h4]; exact nrm 2 (by norm_num) le_rfl
      · rw [show ([4, ((9 / 4 : ℝ) : ℂ)] : List ℂ).getLastD 0 = ((9 / 4 : ℝ) : ℂ) from rfl, h9]; exact nrm _ (by norm_num) (by norm_num)
      · rw [h1']; exact nrm 1 le_rfl (by norm_num)) E0
  exact ⟨o, A, h2, hA, (_, _, _), hB⟩

/-- In the core, in the shell, and outside. -/
example (E0 : ℂ) (K : D1Kernel) : ∀ s ∈ [(1 / 4 : ℝ), 2 / 3, 1], ∃ (o : ProbeParams → MieOut) (A : ProbeParams → Fields),
      (∀ᶠ v in 𝓝 (probePt s), mieCoefficients K (codeBackends exactBessel) (probeE.at v) "torch" "recurrence" (some 2) true = .ok (o v)) ∧
      (∀ᶠ v in 𝓝 (probePt s), nearOut (probeE.k0 v) (o v) (soloArgs probeE probeXyz v) E0 (probeXyz v) = .ok (A v)) ∧
      ∃ d : ℕ × ℕ × ℕ, NearBackward (probePt s) A (Node.nearOf 2 (Node.Bess.ratioAt 2 d.1) (Node.Bess.ratioAt 2 d.2.1) (Node.Bess.ratioAt 2 d.2.2)
        (Node.medium (probeIn s)) E0 (Node.shell (ShellKind.recurrence.bess ProbeParams 2) (probeIn s)) (probeLeaf s 7) (probeLeaf s 8)
        (probeLeaf s 9)) := by
  intro s hs
  have hname : ShellKind.recurrence.Named "torch" "recurrence" := by unfold ShellKind.Named; refine ⟨?_, ?_⟩ <;> decide +kernel
  simp only [List.mem_cons, List.not_mem_nil, or_false] at hs
  rcases hs with rfl | rfl | rfl <;> exact probe_near (by norm_num) (by norm_num) (by norm_num) (by norm_num) _ hname K E0

end Probe

end MieDiff
