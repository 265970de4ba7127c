import Verif.Proofs.BackwardPenaNear

/-!
# C84: reverse-mode gradients of `nearfields` with the pena backend

`loss.backward()` through the fields at a probe point of a particle with any number of layers, with respect to the parameters of the particle and
the position of the point.
-/

namespace MieDiff

open Complex Spec Filter Topology
open scoped RealInnerProductSpace

variable {V : Type*} [NormedAddCommGroup V] [InnerProductSpace ℝ V] {v0 : V}

/-- Where the code is smooth at a probe point of a particle with layers of the radii `rs`: not in the plane `x = 0` (where `x` is shifted before the
azimuth is computed), not on the cone where the clamping of `z/r` sets in, and not on an interface. -/
structure SmoothAmong (p : V3 ℝ) (rs : List ℝ) : Prop where
  plane : p.c0 ≠ 0
  cone : |p.c2| ≠ (1 - eps10Double) * p.dist0
  off : ∀ r ∈ rs, p.dist0 ≠ r

/-- The arguments of the radial functions at a probe point: one for every medium. -/
noncomputable def probeArgs (q : Particle1) (p : V3 ℝ) : List ℂ := (q.epsLayers ++ [q.epsEnv]).map fun e => probeArg q.k0 (csqrt e) p

/-- The near fields of the pena backend in closed form. -/
noncomputable def penaFn (D : ℂ → ℕ → ℂ) (n : ℕ) (q : Particle1) (E0 : ℂ) (a b : ℕ → ℂ) (s : V3 ℝ) : Fields :=
  let f := fieldP D n (extFn a b) q E0 s 1e-8
  let ms := regionMasks q.rLayers s.c0
  let Es := sumCart s.c1 s.c2 ((List.range n).map fun i =>
    maskedAssign V3.zero ms ((List.range (q.rLayers.length + 1)).map fun j => (f j i).1))
  let Hs := sumCart s.c1 s.c2 ((List.range n).map fun i =>
    maskedAssign V3.zero ms ((List.range (q.rLayers.length + 1)).map fun j => (f j i).2))
  let Ei := incidentE E0 (q.k0 * csqrt q.epsEnv) s.c0 s.c1
  let Hi := incidentH E0 (q.k0 * csqrt q.epsEnv) (csqrt q.epsEnv) s.c0 s.c1
  { Ei := Ei, Hi := Hi, Es := Es, Hs := Hs
    Et := if ms.getLastD false then Es.add Ei else Es
    Ht := if ms.getLastD false then Hs.add Hi else Hs }

namespace Node

variable [CompleteSpace V] {p : Node.Inputs V} {F : ParticleFam V} {n N : ℕ} {x y z : Node V} {E0 : ℂ}

theorem layers_exact (h : p.Holds v0 F) (h0 : csqrt (F.env v0) ≠ 0) : LExact v0 (Node.layers p) F.layerFam := by
  have he := h.env.tracks.powHalf
  have ge := h.env.good.powHalf h.cut
  have hk := h.k0.tracks.mul he
  have gk := h.k0.good.mul ge
  have h1 := map_forall (S := fun (x : Node V) (f : V → ℂ) => Tracks v0 x f ∧ x.ok)
    (fun x e hx => ⟨hx.1.tracks.sqrt.div he, ((hx.1.good.sqrt hx.2).div ge h0).ok⟩) h.eps
  have h2 := map_forall (S := fun (x : Node V) (f : V → ℂ) => Tracks v0 x f ∧ x.ok)
    (fun x r hx => ⟨hk.mul hx.tracks, (gk.mul hx.good).ok⟩) h.r
  exact zip_forall h1 h2

theorem getD_rel {α β : Type*} {R : α → β → Prop} {l1 : List α} {l2 : List β} (h : List.Forall₂ R l1 l2) {a : α} {b : β} (hd : R a b) :
    ∀ j, R (l1.getD j a) (l2.getD j b) := by
  induction h with
  | nil => intro j; simpa using hd
  | cons h1 _ ih =>
    intro j
    cases j with
    | zero => simpa using h1
    | succ j => simpa using ih j

/-- The refractive index of region `j` as a function of the parameters. -/
theorem media_exact (h : p.Holds v0 F) (j : ℕ) :
    Tracks v0 ((p.eps.map sqrt ++ [(host p).1]).getD j (Node.const 0)) (fun v => mediumOf (F.at v) j) ∧
      ((p.eps.map sqrt ++ [(host p).1]).getD j (Node.const 0)).ok := by
  have key : List.Forall₂ (fun (x : Node V) (f : V → ℂ) => Tracks v0 x f ∧ x.ok) (p.eps.map sqrt ++ [(host p).1])
      ((F.eps.map fun e v => csqrt (e v)) ++ [fun v => csqrt (F.env v)]) :=
    List.rel_append (map_forall (fun x e hx => ⟨hx.1.tracks.sqrt, (hx.1.good.sqrt hx.2).ok⟩) h.eps)
      (.cons ⟨h.env.tracks.powHalf, (h.env.good.powHalf h.cut).ok⟩ .nil)
  obtain ⟨t, ok⟩ := getD_rel key (a := Node.const 0) (b := fun _ => 0) ⟨Tracks.const 0, trivial⟩ j
  refine ⟨t.congr fun v => ?_, ok⟩
  have e : (F.at v).epsLayers.map csqrt ++ [csqrt (F.at v).epsEnv] =
      ((F.eps.map fun e v => csqrt (e v)) ++ [fun v => csqrt (F.env v)]).map (· v) := by
    simp [ParticleFam.at, Function.comp_def]
  unfold mediumOf
  rw [e]
  simp only [List.getD_eq_getElem?_getD, List.getElem?_map]
  cases ((F.eps.map fun e v => csqrt (e v)) ++ [fun v => csqrt (F.env v)])[j]? <;> rfl

theorem radii_val {l : List (Node V)} {fs : List (V → ℝ)} (h : List.Forall₂ (fun x f => Recorded v0 x fun v => (f v : ℂ)) l fs) :
    l.map (·.val.re) = fs.map (· v0) := by
  induction h with
  | nil => rfl
  | cons h1 _ ih => simp [ih, h1.value]

theorem radii_cont {l : List (Node V)} {fs : List (V → ℝ)} (h : List.Forall₂ (fun x f => Recorded v0 x fun v => (f v : ℂ)) l fs) :
    ∀ r ∈ fs, ContinuousAt r v0 := by
  induction h with
  | nil => simp
  | cons h1 _ ih =>
    intro r hr
    rcases List.mem_cons.1 hr with rfl | hr
    · exact h1.exact.real_cont
    · exact ih r hr

theorem penaNear_exact (h : p.Holds v0 F) (h0 : csqrt (F.env v0) ≠ 0) (hr0 : F.r ≠ []) {co : ℕ → Node V × Node V} {a b : V → ℕ → ℂ}
    (ha : ∀ i, 1 ≤ i → i ≤ n → Exact v0 (co i).1 fun v => a v i) (hb : ∀ i, 1 ≤ i → i ≤ n → Exact v0 (co i).2 fun v => b v i)
    {P : V → V3 ℝ} (hs : SphExact v0 (Node.sph eps10Double x y z) P) (hreg : RegClear n N true (F.at v0).layers)
    (hlen : F.eps.length = F.r.length)
    (hmed : ∀ j ≤ F.r.length, KerClear n N (rhoFn F.k0 (fun v => mediumOf (F.at v) j) P v0)) (hoff : ∀ r ∈ F.r, (P v0).c0 ≠ r v0) :
    NearExact v0 (Node.penaNear n N p E0 co x y z) fun v => penaFn (depthFn n N) n (F.at v) E0 (a v) (b v) (P v) := by
  have hL := layers_exact h h0
  have rl : p.r.length = F.r.length := h.r.length_eq
  have reg : ∀ j, RegExact v0 n (region n N (extReg co) (j == 0) ((Node.layers p).drop j)) fun v =>
      regOf (depthFn n N) (extFn (a v) (b v)) (F.at v) j := by
    intro j
    have e : ∀ v, LayerFam.at' (F.layerFam.drop j) v = (F.at v).layers.drop j := fun v => by
      rw [← layerFam_at F v]
      unfold LayerFam.at'
      rw [List.map_drop]
    have := region_exact (N := N) (extReg_exact (n := n) ha hb) (List.forall₂_drop j hL) (j == 0) (by
      rw [e]
      simpa using hreg.drop j)
    simp only [e] at this
    exact this
  have f : ∀ j ≤ F.r.length, ∀ i < n, _ := fun j hj i hi =>
    regionFields_exact hs h.k0.tracks h.k0.regular (media_exact h j).1 (media_exact h j).2 (hmed j hj) E0 (j == p.r.length) (reg j) hi
  have vr := radii_val h.r
  have vs : (Node.sph eps10Double x y z).c0.val.re = (P v0).c0 := by rw [hs.r.val]; exact ofReal_re _
  have hm := regionMasks_near (rs := F.r) hr0 hs.r.real_cont (radii_cont h.r) hoff
  have Es := sumOrders_exact (E := fun i => maskedFold (regionMasks (p.r.map (·.val.re)) (Node.sph eps10Double x y z).c0.val.re)
    ((List.range (p.r.length + 1)).map fun li => (regionFields n N p.k0 ((p.eps.map sqrt ++ [(host p).1]).getD li (Node.const 0))
      (Node.sph eps10Double x y z).c0 (Node.sph eps10Double x y z).c1 (Node.sph eps10Double x y z).c2 E0 (li == p.r.length)
      (region n N (extReg co) (li == 0) ((Node.layers p).drop li)) i).1)) hs fun i hi =>
        maskedFold_exact _ _ fun j hj => (f j (by have := List.mem_range.1 hj; omega) i hi).1
  have Hs := sumOrders_exact (E := fun i => maskedFold (regionMasks (p.r.map (·.val.re)) (Node.sph eps10Double x y z).c0.val.re)
    ((List.range (p.r.length + 1)).map fun li => (regionFields n N p.k0 ((p.eps.map sqrt ++ [(host p).1]).getD li (Node.const 0))
      (Node.sph eps10Double x y z).c0 (Node.sph eps10Double x y z).c1 (Node.sph eps10Double x y z).c2 E0 (li == p.r.length)
      (region n N (extReg co) (li == 0) ((Node.layers p).drop li)) i).2)) hs fun i hi =>
        maskedFold_exact _ _ fun j hj => (f j (by have := List.mem_range.1 hj; omega) i hi).2
  have tn := h.env.tracks.powHalf
  have gn := h.env.good.powHalf h.cut
  have k : Exact v0 (host p).2 fun v => F.k0 v * csqrt (F.env v) := (h.k0.tracks.mul tn).exact (h.k0.good.mul gn).ok
  have ct : Exact v0 (Node.cos (Node.sph eps10Double x y z).c1) fun v => ((Real.cos (P v).c1 : ℝ) : ℂ) :=
    hs.theta.cos.congr (Eventually.of_forall fun v => by push_cast; rfl)
  have wave := (((Exact.const I).mul k |>.mul hs.r).mul ct).exp
  have Ei : Exact3 v0 ⟨Node.mul (Node.const E0) _, Node.const 0, Node.const 0⟩ fun v =>
      incidentE E0 (F.k0 v * csqrt (F.env v)) (P v).c0 (P v).c1 := ⟨(Exact.const E0).mul wave, Exact.const 0, Exact.const 0⟩
  have Hi : Exact3 v0 ⟨Node.const 0, Node.mul (Node.mul (Node.const E0) (host p).1) _, Node.const 0⟩ fun v =>
      incidentH E0 (F.k0 v * csqrt (F.env v)) (csqrt (F.env v)) (P v).c0 (P v).c1 :=
    ⟨Exact.const 0, ((Exact.const E0).mul (tn.exact gn.ok)).mul wave, Exact.const 0⟩
  have rl' : ∀ v, (F.at v).rLayers.length = p.r.length := fun v => by rw [rl]; simp [ParticleFam.at]
  have hm' : ∀ᶠ v in 𝓝 v0, regionMasks (F.at v).rLayers (P v).c0 =
      regionMasks (p.r.map (·.val.re)) (Node.sph eps10Double x y z).c0.val.re := by
    rw [vr, vs]
    exact hm
  refine ⟨Ei, Hi, Es.congr ?_, Hs.congr ?_, ((Es.add Ei).where3 Es _).congr ?_, ((Hs.add Hi).where3 Hs _).congr ?_⟩
  all_goals
    filter_upwards [hm'] with v hv
    simp only [penaFn, hv, rl', fieldP]
    rfl

end Node

section Property

variable [CompleteSpace V] {p : Node.Inputs V} {F : ParticleFam V} {n N : ℕ} {o : V → MieOut} {x y z : Node V} {pt : V → V3 ℝ}
  {A : V → Fields} {E0 : ℂ}

/-- `nearfields` of the pena backend with `n_add = N` at the point `pt`, from the output `o` of `mie_coefficients`. -/
noncomputable def penaOut (N : ℕ) (q : Particle1) (o : MieOut) (E0 : ℂ) (pt : V3 ℝ) : Py Fields :=
  nearfieldsPena (depthD1 N) q.k0 q.rLayers q.epsLayers q.epsEnv E0 o.a o.b pt

/-- No guard fires on the way to the field at the point `pt`, neither in the solver, nor in the expansion coefficients of the regions, nor in the
radial functions. -/
structure FieldClear (n N : ℕ) (q : Particle1) (pt : V3 ℝ) : Prop where
  solver : SolverClear (depthFn n N) n q.layers
  depth : ∀ z ∈ kernelArgs q.layers, DepthClear (n + N) z
  regions : RegClear n N true q.layers
  point : ∀ z ∈ probeArgs q pt, KerClear n N z

omit [CompleteSpace V] [InnerProductSpace ℝ V] in
theorem PenaCallAt.out (h : PenaCallAt F v0 n N o) (hN : 1 ≤ N) : 1 ≤ n ∧ F.r ≠ [] ∧ F.eps.length = F.r.length ∧ ∀ᶠ v in 𝓝 v0,
    ∀ (E0 : ℂ) (q : V3 ℝ), penaOut N (F.at v) (o v) E0 q = .ok (penaFn (depthFn n N) n (F.at v) E0 (fun i => (o v).a.getD (i - 1) 0)
      (fun i => (o v).b.getD (i - 1) 0) (xyzToSph eps10Double q.c0 q.c1 q.c2)) := by
  obtain ⟨B, backend, w, nMax, ri, hb, hcall⟩ := h.call
  have run0 := mieCoefficients_pena_inv hb hcall.self_of_nhds.1
  have hn : 1 ≤ n := by have := run0.pos; rw [hcall.self_of_nhds.2] at this; omega
  have hlen : F.eps.length = F.r.length := by simpa [ParticleFam.at] using run0.len
  refine ⟨hn, fun h0 => run0.ne (by simp [ParticleFam.at, h0]), hlen, ?_⟩
  filter_upwards [hcall] with v hv E0 q
  obtain ⟨-, ea, eb, -⟩ := C78_exact_arithmetic hN hb hv.1 hv.2
  have e : ∀ (l : List ℂ) (f : ℕ → ℂ), l = (List.range n).map (fun i => f (i + 1)) → l = (List.range n).map fun i => l.getD (i + 1 - 1) 0 := by
    intro l f hl
    conv_lhs => rw [hl]
    refine List.map_congr_left fun i hi => ?_
    rw [hl]
    have hi := List.mem_range.1 hi
    simp [List.getD_eq_getElem?_getD, hi]
  have h1 := e _ (fun i => (exactArith.mie n N (F.at v) i).1) ea
  have h2 := e _ (fun i => (exactArith.mie n N (F.at v) i).2) eb
  unfold penaOut
  have key := nearfieldsPena_eq (depthD1_fun n N hN) hn (F.at v) (by simpa [ParticleFam.at] using hlen) E0 (fun i => (o v).a.getD (i - 1) 0)
    (fun i => (o v).b.getD (i - 1) 0) q 1e-8
  simp only at key
  rw [← h1, ← h2] at key
  exact key

/-- C84: `backward` through `nearfields` of the pena backend returns the gradient of every component of the six fields, with respect to all
parameters of the particle and the position of the probe point, wherever the code is smooth and no guard fires. -/
theorem C84_fields (h : p.Holds v0 F) (hN : 1 ≤ N) (hcall : PenaCallAt F v0 n N o) (hc : FieldClear n N (F.at v0) (pt v0))
    (hx : Node.Recorded v0 x fun v => ((pt v).c0 : ℂ)) (hy : Node.Recorded v0 y fun v => ((pt v).c1 : ℂ))
    (hz : Node.Recorded v0 z fun v => ((pt v).c2 : ℂ)) (hpt : SmoothAmong (pt v0) (F.at v0).rLayers)
    (hA : ∀ᶠ v in 𝓝 v0, penaOut N (F.at v) (o v) E0 (pt v) = .ok (A v)) :
    NearBackward v0 A (Node.penaNear n N p E0 (Node.mie n N p) x y z) := by
  obtain ⟨hn, hr0, hlen, hout⟩ := hcall.out hN
  have hsph := Node.sph_exact hx hy hz hpt.plane hpt.cone
  have hco := fun i h1 hi => C79_coefficients (i := i) h hN hcall hc.solver hc.depth h1 hi
  obtain ⟨h0, -, -, -⟩ := particle_ne hc.solver (by simpa [ParticleFam.at] using hlen)
  have key := Node.penaNear_exact (n := n) (N := N) (E0 := E0) h h0 hr0 (co := Node.mie n N p) (a := fun v i => (o v).a.getD (i - 1) 0)
    (b := fun v i => (o v).b.getD (i - 1) 0) (fun i h1 hi => ⟨(hco i h1 hi).a_value, adj_iff.2 (hco i h1 hi).a_grad⟩)
    (fun i h1 hi => ⟨(hco i h1 hi).b_value, adj_iff.2 (hco i h1 hi).b_grad⟩) hsph hc.regions hlen (fun j hj => by
      have hj' : j < ((F.at v0).epsLayers ++ [F.env v0]).length := by simp [ParticleFam.at]; omega
      have := hc.point (probeArg (F.k0 v0) (csqrt ((F.at v0).epsLayers ++ [F.env v0])[j]) (pt v0))
        (List.mem_map.2 ⟨_, List.getElem_mem hj', rfl⟩)
      have e : mediumOf (F.at v0) j = csqrt ((F.at v0).epsLayers ++ [F.env v0])[j] := by
        unfold mediumOf
        rw [show (F.at v0).epsLayers.map csqrt ++ [csqrt (F.at v0).epsEnv] = ((F.at v0).epsLayers ++ [F.env v0]).map csqrt by
          simp [ParticleFam.at], List.getD_eq_getElem?_getD, List.getElem?_map, List.getElem?_eq_getElem hj']
        rfl
      rw [← e] at this
      exact this) (fun r hr => hpt.off (r v0) (List.mem_map.2 ⟨r, hr, rfl⟩))
  have eq : ∀ᶠ v in 𝓝 v0, A v = penaFn (depthFn n N) n (F.at v) E0 (fun i => (o v).a.getD (i - 1) 0)
      (fun i => (o v).b.getD (i - 1) 0) (xyzToSph eps10Double (pt v).c0 (pt v).c1 (pt v).c2) := by
    filter_upwards [hA, hout] with v hv ho
    rw [ho E0 (pt v)] at hv
    exact (Except.ok.inj hv).symm
  have tr : ∀ {w : V3 (Node V)} {f : Fields → V3 ℂ}, Node.Exact3 v0 w (fun v => f (penaFn (depthFn n N) n (F.at v) E0
      (fun i => (o v).a.getD (i - 1) 0) (fun i => (o v).b.getD (i - 1) 0) (xyzToSph eps10Double (pt v).c0 (pt v).c1 (pt v).c2))) →
      VecBackward v0 (fun v => f (A v)) w := fun hw => (hw.congr (eq.mono fun v hv => by rw [hv])).backward
  exact ⟨tr (f := (·.Ei)) key.Ei, tr (f := (·.Hi)) key.Hi, tr (f := (·.Es)) key.Es, tr (f := (·.Hs)) key.Hs, tr (f := (·.Et)) key.Et,
    tr (f := (·.Ht)) key.Ht⟩

omit [CompleteSpace V] [InnerProductSpace ℝ V] in
/-- The call of `nearfields` succeeds wherever `mie_coefficients` does. -/
theorem C84_call_succeeds (hN : 1 ≤ N) (hcall : PenaCallAt F v0 n N o) (E0 : ℂ) (pt : V → V3 ℝ) :
    ∃ A : V → Fields, ∀ᶠ v in 𝓝 v0, penaOut N (F.at v) (o v) E0 (pt v) = .ok (A v) :=
  ⟨_, (hcall.out hN).2.2.2.mono fun v hv => hv E0 (pt v)⟩

end Property

/-! ## Deep recurrences -/

section Deep

variable {n : ℕ}

theorem kerClear_eventually {z : ℂ} (hd : D1Clear z) (hk : KernelClear idealFn n z) : ∀ᶠ N in atTop, KerClear n N z := by
  filter_upwards [depthClear_eventually n hd, kernelClear_eventually (depthFn_conv n hd) hk] with N h1 h2
  exact ⟨h1, h2⟩

theorem ifaceClear_eventually (hn : 1 ≤ n) {m m' x : ℂ} (isCore : Bool) (h1 : D1Clear (m * x)) (k1 : KernelClear idealFn n (m * x))
    (h2 : D1Clear (m' * x)) (k2 : KernelClear idealFn n (m' * x))
    (hb : ∀ i, 1 ≤ i → i ≤ n → ‖ricPsi i (m * x)‖ < 1e30 ∧ ‖ricZeta i (m * x)‖ < 1e30) : ∀ᶠ N in atTop, IfaceClear n N m m' x isCore := by
  have ok := kernelClear_ideal k1 hn
  have hz : m * x ≠ 0 := ne_of_clear h1.arg
  have inv : ∀ {w : ℂ}, w ≠ 0 → ‖w‖ < 1e30 → solverEps < ‖-I / w‖ := by
    intro w hw h
    have hp : 0 < ‖w‖ := norm_pos_iff.2 hw
    rw [norm_div, norm_neg, norm_I, lt_div_iff₀ hp]
    unfold solverEps
    calc (1e-30 : ℝ) * ‖w‖ < 1e-30 * 1e30 := by gcongr
      _ = 1 := by norm_num
  have cD := depthFn_conv n h1
  have c3 := fun i (hi : i ≤ n) => d3Fn_conv cD k1 hi
  have lim : ∀ i ∈ Set.Icc 1 n, ∀ᶠ N in atTop,
      solverEps < ‖zetaFn (depthFn n N) (m * x) i * (depthFn n N (m * x) i - d3Fn (depthFn n N) (m * x) i)‖ ∧
      solverEps < ‖psiFn (depthFn n N) (m * x) i * (depthFn n N (m * x) i - d3Fn (depthFn n N) (m * x) i)‖ := by
    intro i hi
    have cp : Tendsto (fun N => psiFn (depthFn n N) (m * x) i) atTop (𝓝 (psiFn idealFn (m * x) i)) := prodSeq_conv cD i hi.2
    have cz : Tendsto (fun N => zetaFn (depthFn n N) (m * x) i) atTop (𝓝 (zetaFn idealFn (m * x) i)) := prodSeq_conv c3 i hi.2
    have cu := (cD i hi.2).sub (c3 i hi.2)
    have hp := h1.psi i
    have hq : ricZeta i (m * x) ≠ 0 := ok.zeta i hi.2
    obtain ⟨e1, e2⟩ := zeta_U hz hp hq
    rw [psiFn_ideal ok i hi.2] at cp
    rw [zetaFn_ideal ok i hi.2] at cz
    rw [d3Fn_ideal ok hi.2] at cu
    have l1 := cz.mul cu
    have l2 := cp.mul cu
    change Tendsto _ _ (𝓝 (ricZeta i (m * x) * (logD1 i (m * x) - logD3 i (m * x)))) at l1
    change Tendsto _ _ (𝓝 (ricPsi i (m * x) * (logD1 i (m * x) - logD3 i (m * x)))) at l2
    rw [e1] at l1
    rw [e2] at l2
    exact (eventually_lt_norm l1 (inv hp (hb i hi.1 hi.2).1)).and (eventually_lt_norm l2 (inv hq (hb i hi.1 hi.2).2))
  filter_upwards [kerClear_eventually h1 k1, kerClear_eventually h2 k2, (eventually_all_finite (Set.finite_Icc 1 n)).2 lim] with N g1 g2 g3
  exact ⟨g1, g2, fun _ i h1 hi => (g3 i ⟨h1, hi⟩).1, fun i h1 hi => (g3 i ⟨h1, hi⟩).2⟩

theorem regClear_eventually (hn : 1 ≤ n) : ∀ (rest : List (ℂ × ℂ)) (l : ℂ × ℂ) (st : HState) (isCore : Bool), st.x = l.2 →
    KernelClear idealFn n (l.1 * l.2) → RunClear idealFn n st rest → D1Clear (l.1 * l.2) → (∀ z ∈ runArgs l.2 rest, D1Clear z) →
    (∀ l' ∈ l :: rest, ∀ i, 1 ≤ i → i ≤ n → ‖ricPsi i (l'.1 * l'.2)‖ < 1e30 ∧ ‖ricZeta i (l'.1 * l'.2)‖ < 1e30) →
    ∀ᶠ N in atTop, RegClear n N isCore (l :: rest) := by
  intro rest
  induction rest with
  | nil =>
    intro l st isCore hx hk h hd ha hb
    have k2 := h.host
    rw [hx] at k2
    have := ifaceClear_eventually (m' := 1) hn isCore hd hk (by rw [one_mul]; exact ha l.2 (by simp [runArgs])) (by rw [one_mul]; exact k2)
      (hb l (by simp))
    filter_upwards [this] with N hN
    exact ⟨hN, trivial⟩
  | cons l' rest ih =>
    intro l st isCore hx hk h hd ha hb
    have k2 := h.1.prev
    rw [hx] at k2
    have := ifaceClear_eventually hn isCore hd hk (ha (l'.1 * l.2) (by simp [runArgs])) k2 (hb l (by simp))
    filter_upwards [this, ih l' (hStep idealFn st l') false rfl h.1.curr h.2 (ha _ (by simp [runArgs])) (fun z hz => ha z (by simp [runArgs, hz]))
      fun l'' hl => hb l'' (List.mem_cons_of_mem _ hl)] with N h1 h2
    exact ⟨h1, h2⟩

/-- C84: the conditions hold for all sufficiently deep recurrences if the exact functions stay clear of the guards. -/
theorem C84_depth_clear (hn : 1 ≤ n) {q : Particle1} {pt : V3 ℝ} (hc : SolverClear idealFn n q.layers) (hd : ∀ z ∈ kernelArgs q.layers, D1Clear z)
    (hb : ∀ l ∈ q.layers, ∀ i, 1 ≤ i → i ≤ n → ‖ricPsi i (l.1 * l.2)‖ < 1e30 ∧ ‖ricZeta i (l.1 * l.2)‖ < 1e30)
    (hp : ∀ z ∈ probeArgs q pt, D1Clear z ∧ KernelClear idealFn n z) : ∃ N0, ∀ N, N0 ≤ N → FieldClear n N q pt := by
  obtain ⟨N0, h0⟩ := C78_depth_clear hc hd
  have h1 : ∀ᶠ N in atTop, RegClear n N true q.layers := by
    rcases hl : q.layers with _ | ⟨l, rest⟩
    · exact Eventually.of_forall fun _ => trivial
    · rw [hl] at hc hd hb
      exact regClear_eventually hn rest l (hInit idealFn l) true rfl hc.1 hc.2 (hd _ (by simp [kernelArgs])) (fun z hz => hd z (by simp [kernelArgs, hz])) hb
  have h2 : ∀ᶠ N in atTop, ∀ z ∈ {z | z ∈ probeArgs q pt}, KerClear n N z :=
    (eventually_all_finite (I := {z | z ∈ probeArgs q pt}) (List.finite_toSet _)).2 fun z hz => kerClear_eventually (hp z hz).1 (hp z hz).2
  obtain ⟨N1, hN1⟩ := eventually_atTop.1 (h1.and h2)
  refine ⟨max N0 N1, fun N hN => ?_⟩
  obtain ⟨a, b⟩ := h0 N (le_trans (le_max_left _ _) hN)
  obtain ⟨c, d⟩ := hN1 N (le_trans (le_max_right _ _) hN)
  exact ⟨a, b, c, d⟩

end Deep

/-! ## A sphere with a movable probe point -/

section Sphere

/-- Small arguments: the power series of the Bessel functions is dominated by its first term at every order. -/
theorem sphJ_first_term (n : ℕ) {z : ℂ} (hz : z ≠ 0) (h : ‖z‖ ^ 2 ≤ 294 / 100) :
    ‖jTerm n 0 z‖ * (2 / 51) ≤ ‖sphJ n z‖ ∧ ‖sphJ n z‖ ≤ ‖jTerm n 0 z‖ * 2 := by
  have h1 := norm_sphJ_sub_le_q n hz (q := 49 / 100) (by norm_num) (by norm_num) (by nlinarith [(Nat.cast_nonneg n : (0 : ℝ) ≤ n)])
  have h2 := norm_sub_norm_le (jTerm n 0 z) (sphJ n z)
  have h3 := norm_sub_norm_le (sphJ n z) (jTerm n 0 z)
  rw [norm_sub_rev] at h2
  have h4 := norm_nonneg (jTerm n 0 z)
  norm_num at h1
  constructor <;> linarith

theorem d1Clear_of_le {z : ℂ} (h0 : solverEps < ‖z‖) (h : ‖z‖ ^ 2 ≤ 294 / 100) : D1Clear z := by
  have hz : z ≠ 0 := ne_of_clear h0
  have hp : 0 < ‖z‖ := norm_pos_iff.2 hz
  have pos : ∀ k, 0 < ‖jTerm k 0 z‖ := by
    intro k
    refine norm_pos_iff.2 ?_
    unfold jTerm
    exact div_ne_zero (mul_ne_zero (pow_ne_zero _ (by norm_num)) (pow_ne_zero _ hz))
      (mul_ne_zero (mul_ne_zero (pow_ne_zero _ two_ne_zero) (by exact_mod_cast Nat.factorial_ne_zero _)) (dfac_ne _))
  have jp : ∀ k, 0 < ‖sphJ k z‖ := fun k => lt_of_lt_of_le (by have := pos k; positivity) (sphJ_first_term k hz h).1
  refine ⟨h0, fun k => mul_ne_zero hz (norm_pos_iff.1 (jp k)), fun k => ?_⟩
  unfold ricPsi
  rw [mul_div_mul_left _ _ hz, norm_div, lt_div_iff₀ (jp (k + 1))]
  have h1 := (sphJ_first_term k hz h).1
  have h2 := (sphJ_first_term (k + 1) hz h).2
  have h3 : ‖jTerm (k + 1) 0 z‖ * (2 * k + 3) = ‖jTerm k 0 z‖ * ‖z‖ := by
    have e := jTerm_rec_zero k hz
    have h4 : 2 * (k : ℂ) + 3 ≠ 0 := by exact_mod_cast Nat.succ_ne_zero (2 * k + 2)
    have e' : jTerm (k + 1) 0 z * (2 * (k : ℂ) + 3) = jTerm k 0 z * z := by
      field_simp at e
      linear_combination e
    have := congrArg (‖·‖) e'
    simp only [norm_mul] at this
    rw [← this]
    congr 1
    have : (2 * (k : ℂ) + 3) = ((2 * (k : ℝ) + 3 : ℝ) : ℂ) := by push_cast; ring
    rw [this, norm_real, Real.norm_of_nonneg (by positivity)]
  have h5 : ‖z‖ ≤ 2 := by nlinarith
  have h6 := pos k
  have h7 := pos (k + 1)
  have h8 : ‖jTerm (k + 1) 0 z‖ ≤ ‖jTerm k 0 z‖ := by
    have : (0 : ℝ) ≤ k := Nat.cast_nonneg k
    nlinarith
  unfold solverEps
  norm_num
  nlinarith

theorem kernelClear_of_le {t : ℝ} (h1 : 1 / 2 ≤ t) (h : t ^ 2 ≤ 294 / 100) : KernelClear idealFn 1 (t : ℂ) := by
  have ht : ‖(t : ℂ)‖ = t := by rw [norm_real, Real.norm_of_nonneg (by linarith)]
  have h0 : solverEps < ‖(t : ℂ)‖ := by rw [ht]; unfold solverEps; norm_num; linarith
  have hz : (t : ℂ) ≠ 0 := ne_of_clear h0
  have hd := d1Clear_of_le h0 (by rw [ht]; exact h)
  have hq := norm_ricZeta_one_real (x := t) (by linarith)
  have hp : 1 / 1000 ≤ ‖ricPsi 1 (t : ℂ)‖ := by
    have := (sphJ_first_term 1 hz (by rw [ht]; exact h)).1
    have e : ‖jTerm 1 0 (t : ℂ)‖ = t / 3 := by
      unfold jTerm
      norm_num [Nat.doubleFactorial]
      linarith
    rw [e] at this
    unfold ricPsi
    rw [norm_mul, ht]
    nlinarith
  have prod : 1 / 1000 ≤ ‖ricPsi 1 (t : ℂ) * ricZeta 1 (t : ℂ)‖ := by
    rw [norm_mul]
    nlinarith
  have ok : KernelOK 1 (t : ℂ) solverEps := by
    refine ⟨by unfold solverEps; norm_num, h0.le, fun k _ => hd.psi k, fun k hk => ?_, fun k k1 k2 => ?_⟩
    · have : k = 0 ∨ k = 1 := by omega
      rcases this with rfl | rfl
      · intro e
        have := norm_ricZeta_zero_real (x := t) (by linarith)
        rw [e] at this
        simp at this
      · intro e
        rw [e] at hq
        simp at hq
        linarith
    · obtain rfl : k = 1 := le_antisymm k2 k1
      refine le_trans ?_ prod
      unfold solverEps; norm_num
  refine ⟨h0, fun k k1 k2 => ?_⟩
  obtain rfl : k = 1 := le_antisymm k2 k1
  rw [show idealFn (t : ℂ) = fun i => logD1 i (t : ℂ) from rfl, pzD3_exact ok 1 le_rfl]
  refine lt_of_lt_of_le ?_ prod
  unfold solverEps; norm_num

/-- Wavenumber, radius, real and imaginary part of the permittivity, host permittivity and position of the probe point. -/
abbrev BallParams : Type := EuclideanSpace ℝ (Fin 8)

noncomputable def ballE : ParticleFam BallParams where
  k0 t := t 0
  r := [fun t => t 1]
  eps := [fun t => t 2 + I * t 3]
  env t := t 4

/-- The sphere of index `π/2` and size parameter 1, and the point `(2s/5, 2s/5, s/5)` at the distance `3s/5` from its centre. -/
noncomputable def ballPt (s : ℝ) : BallParams := WithLp.toLp 2 ![1, 1, qp ^ 2, 0, 1, 2 * s / 5, 2 * s / 5, s / 5]

noncomputable def ballLeaf (s : ℝ) (i : Fin 8) : Node BallParams := Node.ofReal (ballPt s i) fun g => g • EuclideanSpace.single i 1

noncomputable def ballIn (s : ℝ) : Node.Inputs BallParams where
  k0 := ballLeaf s 0
  r := [ballLeaf s 1]
  eps := [Node.add (ballLeaf s 2) (Node.mul (Node.const I) (ballLeaf s 3))]
  env := ballLeaf s 4

def ballXyz (t : BallParams) : V3 ℝ := ⟨t 5, t 6, t 7⟩

theorem ball_tracks (s : ℝ) (i : Fin 8) : Node.Tracks (ballPt s) (ballLeaf s i) fun t => ((t i : ℝ) : ℂ) := by
  refine ⟨rfl, fun h => by simp [ballLeaf, Node.ofReal] at h, fun _ => ?_⟩
  refine ⟨ofRealCLM.comp (EuclideanSpace.proj i), (ofRealCLM.comp (EuclideanSpace.proj (𝕜 := ℝ) i)).hasFDerivAt, fun g dv => ?_⟩
  simp [ballLeaf, Node.ofReal, inner_smul_left, EuclideanSpace.inner_single_left]

theorem ball_holds (s : ℝ) : (ballIn s).Holds (ballPt s) ballE := by
  have c : ∀ i, (ballLeaf s i).ok := fun _ => trivial
  have t := fun i => (ball_tracks s i).recorded (c i)
  refine ⟨t 0, .cons (t 1) .nil, .cons ⟨?_, fun _ => ?_⟩ .nil, t 4, fun _ => ?_⟩
  · exact ((ball_tracks s 2).add ((Node.Tracks.const I).mul (ball_tracks s 3))).recorded ⟨c 2, trivial, c 3⟩
  · left
    have hq : 0 < qp := by linarith [qp_odd.big]
    have e : (((ballPt s 2 : ℝ) : ℂ) + I * ((ballPt s 3 : ℝ) : ℂ)).re = qp ^ 2 := by
      simp only [ballPt, add_re, ofReal_re, mul_re, I_re, I_im, ofReal_im]
      simp
    rw [e]
    positivity
  · exact ofReal_mem_slitPlane.2 (by simp [ballPt])

theorem ball_at (s : ℝ) : ballE.at (ballPt s) = monoParticle := by
  simp [ballE, ballPt, ParticleFam.at, monoParticle]

theorem ball_dist {s : ℝ} (hs : 0 < s) : (ballXyz (ballPt s)).dist0 = 3 * s / 5 := by
  have : (ballXyz (ballPt s)).dist0 = Real.sqrt ((2 * s / 5) ^ 2 + (2 * s / 5) ^ 2 + (s / 5) ^ 2) := rfl
  rw [this, show (2 * s / 5) ^ 2 + (2 * s / 5) ^ 2 + (s / 5) ^ 2 = (3 * s / 5) ^ 2 by ring, Real.sqrt_sq (by positivity)]

theorem mono_bounds : ∀ l ∈ monoParticle.layers, ∀ i, 1 ≤ i → i ≤ 1 → ‖ricPsi i (l.1 * l.2)‖ < 1e30 ∧ ‖ricZeta i (l.1 * l.2)‖ < 1e30 := by
  rw [mono_layers]
  intro l hl i hi1 hi2
  obtain rfl : i = 1 := by omega
  obtain rfl : l = ((qp : ℂ), 1) := by simpa using hl
  have hinv : ‖(1 / ((qp : ℝ) : ℂ))‖ ≤ 1 := by
    rw [norm_div, qp_odd.norm_t, norm_one, div_le_one (by linarith [qp_odd.big])]; exact qp_odd.big
  rw [mul_one, qp_odd.psi1, qp_odd.zeta1]
  constructor
  · rw [div_eq_mul_one_div, norm_mul, qp_odd.norm_sin, one_mul]
    exact hinv.trans_lt (by norm_num)
  · rw [norm_mul, qp_odd.norm_sin, mul_one]
    calc ‖1 / ((qp : ℝ) : ℂ) - I‖ ≤ ‖1 / ((qp : ℝ) : ℂ)‖ + ‖I‖ := norm_sub_le _ _
      _ ≤ 1 + 1 := by rw [norm_I]; linarith
      _ < 1e30 := by norm_num

/-- A probe point inside or outside the sphere: at every sufficient depth all calls succeed, and `backward` returns the gradients of the fields
with respect to all eight parameters. -/
theorem ball_near {s : ℝ} (h0 : 9 / 10 ≤ s) (h1 : s ≤ 7 / 4) (hs : 3 * s / 5 ≠ 1) (B : Backends) (E0 : ℂ) : ∃ N0, ∀ N, N0 ≤ N →
    ∃ (o : BallParams → MieOut) (A : BallParams → Fields),
      (∀ᶠ v in 𝓝 (ballPt s), mieCoefficients (depthD1 N) B (ballE.at v) "pena" "recurrence" (some 1) = .ok (o v)) ∧
      (∀ᶠ v in 𝓝 (ballPt s), penaOut N (ballE.at v) (o v) E0 (ballXyz v) = .ok (A v)) ∧
      NearBackward (ballPt s) A (Node.penaNear 1 N (ballIn s) E0 (Node.mie 1 N (ballIn s)) (ballLeaf s 5) (ballLeaf s 6) (ballLeaf s 7)) := by
  have sp : 0 < s := by linarith
  have hd := ball_dist sp
  obtain ⟨o, hcalls, hok⟩ := C77_calls_succeed (n := 1) (ball_holds s).smooth (by rw [ball_at]; simp [monoParticle, strictlyIncreasing])
    (by simp [ballE]) (by simp [ballE]) B le_rfl
  have c1 : csqrt 1 = ((1 : ℝ) : ℂ) := by have := csqrt_nat_sq (r := 1) (by norm_num); simpa using this
  have c2 : csqrt ((qp ^ 2 : ℝ) : ℂ) = (qp : ℂ) := csqrt_nat_sq (r := qp) (by linarith [qp_odd.big])
  obtain ⟨hq1, hq2⟩ := qp_bounds
  have arg : ∀ m : ℝ, 1 ≤ m → m ≤ qp → D1Clear (probeArg 1 (m : ℂ) (ballXyz (ballPt s))) ∧
      KernelClear idealFn 1 (probeArg 1 (m : ℂ) (ballXyz (ballPt s))) := by
    intro m hm1 hm2
    have e : probeArg 1 (m : ℂ) (ballXyz (ballPt s)) = ((m * (3 * s / 5) + 1e-8 : ℝ) : ℂ) := by
      unfold probeArg
      rw [hd]
      push_cast
      ring
    have b1 : 1 / 2 ≤ m * (3 * s / 5) + 1e-8 := by norm_num; nlinarith
    have b2 : m * (3 * s / 5) + 1e-8 ≤ 17 / 10 := by
      have : m * (3 * s / 5) ≤ qp * (21 / 20) := by
        have : 3 * s / 5 ≤ 21 / 20 := by linarith
        nlinarith
      norm_num
      have : qp < 1.5708 := by
        have := Real.pi_lt_d4
        unfold qp
        linarith
      norm_num at this
      linarith
    have b3 : (m * (3 * s / 5) + 1e-8) ^ 2 ≤ 294 / 100 := by nlinarith
    rw [e]
    refine ⟨d1Clear_of_le ?_ ?_, kernelClear_of_le b1 b3⟩
    · rw [norm_real, Real.norm_of_nonneg (by linarith)]
      unfold solverEps
      norm_num at b1 ⊢
      linarith
    · rw [norm_real, Real.norm_of_nonneg (by linarith)]
      exact b3
  obtain ⟨N0, hN0⟩ := C84_depth_clear (n := 1) (q := monoParticle) (pt := ballXyz (ballPt s)) le_rfl mono_clear mono_args mono_bounds (by
    intro z hz
    simp only [probeArgs, monoParticle, List.cons_append, List.nil_append, List.map_cons, List.map_nil, List.mem_cons, List.not_mem_nil,
      or_false, c1, c2] at hz
    rcases hz with rfl | rfl
    · exact arg qp (by linarith [qp_odd.big]) le_rfl
    · exact arg 1 le_rfl (by linarith [qp_odd.big]))
  refine ⟨max N0 1, fun N hN => ?_⟩
  have hN1 : 1 ≤ N := le_trans (le_max_right _ _) hN
  obtain ⟨B', backend, w, nMax, ri, hb, hcall⟩ := hcalls.call
  have hc : PenaCallAt ballE (ballPt s) 1 N (o N) := ⟨B', backend, w, nMax, ri, hb, hcall N hN1⟩
  obtain ⟨A, hA⟩ := C84_call_succeeds hN1 hc E0 ballXyz
  have c0 : (ballXyz (ballPt s)).c0 = 2 * s / 5 := rfl
  have c2' : (ballXyz (ballPt s)).c2 = s / 5 := rfl
  refine ⟨o N, A, hok N hN1, hA, C84_fields (ball_holds s) hN1 hc (by rw [ball_at]; exact hN0 N (le_trans (le_max_left _ _) hN))
    ((ball_tracks s 5).recorded trivial) ((ball_tracks s 6).recorded trivial) ((ball_tracks s 7).recorded trivial)
    ⟨by rw [c0]; positivity, ?_, ?_⟩ hA⟩
  · rw [c2', hd, abs_of_pos (by positivity)]
    unfold eps10Double
    intro e
    norm_num at e
    nlinarith
  · rw [ball_at, hd]
    intro r hr
    simp only [monoParticle, List.mem_cons, List.not_mem_nil, or_false] at hr
    rw [hr]
    exact hs

/-- Inside and outside. -/
example (B : Backends) (E0 : ℂ) : ∀ s ∈ [(1 : ℝ), 7 / 4], ∃ N0, ∀ N, N0 ≤ N → ∃ (o : BallParams → MieOut) (A : BallParams → Fields),
      (∀ᶠ v in 𝓝 (ballPt s), mieCoefficients (depthD1 N) B (ballE.at v) "pena" "recurrence" (some 1) = .ok (o v)) ∧
      (∀ᶠ v in 𝓝 (ballPt s), penaOut N (ballE.at v) (o v) E0 (ballXyz v) = .ok (A v)) ∧
      NearBackward (ballPt s) A (Node.penaNear 1 N (ballIn s) E0 (Node.mie 1 N (ballIn s)) (ballLeaf s 5) (ballLeaf s 6) (ballLeaf s 7)) := by
  intro s hs
  simp only [List.mem_cons, List.not_mem_nil, or_false] at hs
  rcases hs with rfl | rfl <;> exact ball_near (by norm_num) (by norm_num) (by norm_num) B E0

end Sphere

end MieDiff
