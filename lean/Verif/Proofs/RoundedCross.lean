import Verif.Proofs.RoundedLimit
import Verif.Props.GradLimit

/-!
# Rounded cross sections, exact arithmetic and guards at finite depth
-/

namespace MieDiff

open Complex Spec Filter Topology

/-! ## Exact arithmetic -/

theorem exact_guard (v : ℂ) : exactArith.guard v = guardAdd solverEps v := rfl

theorem exact_d1Down (z : ℂ) (N j : ℕ) : exactArith.d1Down z N j = d1Down z solverEps N j := by
  induction j with
  | zero => rfl
  | succ j ih =>
    simp only [Arith.d1Down, d1Down, ih, exact_guard]
    rfl

theorem exact_d1 (n N : ℕ) (z : ℂ) : exactArith.d1 n N z = depthFn n N z := by
  funext k
  simp only [Arith.d1, exact_d1Down, exact_guard]
  rfl

theorem exact_pzD3 (z : ℂ) (D : ℕ → ℂ) (j : ℕ) : exactArith.pzD3 z D j = pzD3 z (guardAdd solverEps z) solverEps D j := by
  induction j with
  | zero => rfl
  | succ j ih =>
    simp only [Arith.pzD3, pzD3, ih, exact_guard]
    rfl

theorem exact_d3 (n N : ℕ) (z : ℂ) : exactArith.d3 z (depthFn n N z) = d3Fn (depthFn n N) z := by
  funext k
  simp only [Arith.d3, exact_pzD3]
  rfl

theorem exact_q (z1 z2 x1 x2 : ℂ) (D11 D12 D31 D32 : ℕ → ℂ) (j : ℕ) :
    exactArith.q z1 z2 x1 x2 D11 D12 D31 D32 j = qVal z1 z2 x1 x2 solverEps D11 D12 D31 D32 j := by
  induction j with
  | zero =>
    simp only [Arith.q, qVal, exact_guard]
    push_cast
    rfl
  | succ j ih =>
    simp only [Arith.q, qVal, ih, exact_guard, sq]
    rfl

theorem exact_prodSeq (f0 z : ℂ) (D : ℕ → ℂ) (j : ℕ) :
    exactArith.prodSeq f0 z D j = prodSeq f0 (guardAdd solverEps z) D j := by
  induction j with
  | zero => rfl
  | succ j ih =>
    simp only [Arith.prodSeq, prodSeq, ih, exact_guard]
    rfl

/-- The exact state with the two polarizations as separate fields. -/
def HState.toRounded (st : HState) : Arith.State := ⟨st.m, st.x, st.H .tm, st.H .te⟩

theorem exact_init (n N : ℕ) (l : ℂ × ℂ) : exactArith.init n N l = (hInit (depthFn n N) l).toRounded := by
  simp only [Arith.init, exact_d1]
  rfl

theorem exact_step (n N : ℕ) (st : HState) (l : ℂ × ℂ) :
    exactArith.step n N st.toRounded l = (hStep (depthFn n N) st l).toRounded := by
  simp only [Arith.step, exact_d1, exact_d3, exact_q]
  rfl

theorem exact_fold (n N : ℕ) : ∀ (rest : List (ℂ × ℂ)) (st : HState),
    rest.foldl (exactArith.step n N) st.toRounded = (rest.foldl (hStep (depthFn n N)) st).toRounded
  | [], _ => rfl
  | l :: rest, st => by
    simp only [List.foldl_cons]
    rw [exact_step, exact_fold n N rest]

theorem exact_coefs (n N : ℕ) (st : HState) (i : ℕ) :
    exactArith.coefs n N st.toRounded i = (coefFn (depthFn n N) .tm st i, coefFn (depthFn n N) .te st i) := by
  simp only [Arith.coefs, exact_d1, exact_d3, exact_prodSeq, exact_guard]
  rfl

theorem exact_mie (n N : ℕ) (p : Particle1) {l : ℂ × ℂ} {rest : List (ℂ × ℂ)} (hl : p.layers = l :: rest) (i : ℕ) :
    exactArith.mie n N p i =
      (coefFn (depthFn n N) .tm (hFinal (depthFn n N) l rest) i, coefFn (depthFn n N) .te (hFinal (depthFn n N) l rest) i) := by
  have h : exactArith.layers p = l :: rest := hl
  unfold Arith.mie
  rw [h]
  simp only [exact_init, exact_fold, exact_coefs]
  rfl

theorem mpTerms_map_range (k : ℂ) (n : ℕ) (f : ℕ → ℂ) :
    mpTerms k ((List.range n).map f) = (List.range n).map fun i : ℕ => 2 * (Real.pi : ℂ) / k ^ 2 * (2 * ((i : ℂ) + 1) + 1) * f i := by
  refine List.ext_getElem (by simp [mpTerms]) fun i h1 h2 => ?_
  simp [mpTerms]

theorem exact_mpTerm (k : ℂ) (i : ℕ) (v : ℂ) :
    exactArith.mpTerm k i v = 2 * (Real.pi : ℂ) / k ^ 2 * (2 * ((i : ℂ) + 1) + 1) * v := by
  change 2 * (Real.pi : ℂ) / (k * k) * ((2 * (i + 1) + 1 : ℕ) : ℂ) * v = _
  push_cast
  rw [sq]

/-! ## Limits of the cross sections -/

section

variable {A : ℕ → Arith} {N : ℕ → ℕ} {n : ℕ} {p : Particle1} {ca cb : ℕ → ℂ}

theorem mpTerm_refines (hA : Refining A) {kk : ℕ → ℂ} {k : ℂ} (hk : Tendsto kk atTop (𝓝 k)) (h0 : k ≠ 0) (i : ℕ) {v : ℕ → ℂ}
    {w : ℂ} (hv : Tendsto v atTop (𝓝 w)) :
    Tendsto (fun j => (A j).mpTerm (kk j) i (v j)) atTop
      (𝓝 (2 * (Real.pi : ℂ) / k ^ 2 * (2 * ((i : ℂ) + 1) + 1) * w)) := by
  have hpi : Tendsto (fun j => ((A j).pi : ℂ)) atTop (𝓝 (Real.pi : ℂ)) := (continuous_ofReal.tendsto _).comp hA.pi
  have h1 := hA.mul (hA.mul (hA.div (hA.mul (tendsto_const_nhds (x := (2 : ℂ))) hpi) (hA.mul hk hk) (mul_ne_zero h0 h0))
    (tendsto_const_nhds (x := ((2 * (i + 1) + 1 : ℕ) : ℂ)))) hv
  have e : ((2 * (i + 1) + 1 : ℕ) : ℂ) = 2 * ((i : ℂ) + 1) + 1 := by push_cast; ring
  rw [e, ← sq] at h1
  exact h1.congr fun j => by simp only [Arith.mpTerm]; rw [e]

/-- All cross sections and efficiencies converge when the coefficients do. -/
theorem crossWith_refines {c : ℕ → ℕ → ℂ × ℂ} (hA : Refining A) (hk : p.k0 * csqrt p.epsEnv ≠ 0) (hr : p.rLayers.getLastD 0 ≠ 0)
    (ha : ∀ i < n, Tendsto (fun k => (c k (i + 1)).1) atTop (𝓝 (ca i)))
    (hb : ∀ i < n, Tendsto (fun k => (c k (i + 1)).2) atTop (𝓝 (cb i))) :
    let cs := crossSections (p.k0 * csqrt p.epsEnv) (p.rLayers.getLastD 0) ((List.range n).map ca) ((List.range n).map cb)
    Tendsto (fun k => ((A k).crossWith n p (c k)).ext) atTop (𝓝 cs.csExt) ∧
    Tendsto (fun k => ((A k).crossWith n p (c k)).sca) atTop (𝓝 cs.csSca) ∧
    Tendsto (fun k => ((A k).crossWith n p (c k)).abs) atTop (𝓝 cs.csAbs) ∧
    Tendsto (fun k => ((A k).crossWith n p (c k)).qExt) atTop (𝓝 cs.qExt) ∧
    Tendsto (fun k => ((A k).crossWith n p (c k)).qSca) atTop (𝓝 cs.qSca) ∧
    Tendsto (fun k => ((A k).crossWith n p (c k)).qAbs) atTop (𝓝 cs.qAbs) := by
  intro cs
  have hkk := hA.mul (tendsto_const_nhds (x := p.k0)) (hA.sqrt p.epsEnv)
  have hsq : ∀ {f : ℕ → ℂ} {c : ℂ}, Tendsto f atTop (𝓝 c) →
      Tendsto (fun k => (A k).mul ((A k).abs (f k)) ((A k).abs (f k))) atTop (𝓝 ((‖c‖ ^ 2 : ℝ) : ℂ)) := by
    intro f c hf
    have h1 : Tendsto (fun k => ((A k).abs (f k) : ℂ)) atTop (𝓝 (‖c‖ : ℂ)) := (continuous_ofReal.tendsto _).comp (hA.abs hf)
    have h2 := hA.mul h1 h1
    rw [← sq] at h2
    simpa using h2
  have tot : ∀ {f1 f2 : ℕ → ℕ → ℂ} {g1 g2 : ℕ → ℂ}, (∀ i < n, Tendsto (fun k => f1 k i) atTop (𝓝 (g1 i))) →
      (∀ i < n, Tendsto (fun k => f2 k i) atTop (𝓝 (g2 i))) →
      Tendsto (fun k => ((A k).sum ((List.range n).map (f1 k) ++ (List.range n).map (f2 k))).re) atTop
        (𝓝 (((List.range n).map g1).sum + ((List.range n).map g2).sum).re) := by
    intro f1 f2 g1 g2 h1 h2
    have h := hA.sum (F := fun k (q : ℕ × Bool) => if q.2 then f2 k q.1 else f1 k q.1)
      (G := fun q => if q.2 then g2 q.1 else g1 q.1)
      ((List.range n).map (fun i => (i, false)) ++ (List.range n).map (fun i => (i, true))) (by
        intro q hq
        simp only [List.mem_append, List.mem_map, List.mem_range] at hq
        rcases hq with ⟨i, hi, rfl⟩ | ⟨i, hi, rfl⟩
        · simpa using h1 i hi
        · simpa using h2 i hi)
    simp only [List.map_append, List.map_map, Function.comp_def, if_true, Bool.false_eq_true, if_false, List.sum_append] at h
    exact (continuous_re.tendsto _).comp h
  have e1 : ∀ {c : ℕ → ℂ} {i : ℕ} {f : ℕ → ℂ}, Tendsto f atTop (𝓝 (c i)) →
      Tendsto (fun k => (A k).mpTerm ((A k).host p).2 i (f k).re) atTop
        (𝓝 (2 * (Real.pi : ℂ) / (p.k0 * csqrt p.epsEnv) ^ 2 * (2 * ((i : ℂ) + 1) + 1) * ((c i).re : ℂ))) :=
    fun {c i f} hf => mpTerm_refines hA hkk hk i (tendsto_re hf)
  have e2 : ∀ {c : ℕ → ℂ} {i : ℕ} {f : ℕ → ℂ}, Tendsto f atTop (𝓝 (c i)) →
      Tendsto (fun k => (A k).mpTerm ((A k).host p).2 i ((A k).mul ((A k).abs (f k)) ((A k).abs (f k)))) atTop
        (𝓝 (2 * (Real.pi : ℂ) / (p.k0 * csqrt p.epsEnv) ^ 2 * (2 * ((i : ℂ) + 1) + 1) * ((‖c i‖ ^ 2 : ℝ) : ℂ))) :=
    fun {c i f} hf => mpTerm_refines hA hkk hk i (hsq hf)
  have zipr : ∀ f g : ℕ → ℂ, List.zipWith (· - ·) ((List.range n).map f) ((List.range n).map g) =
      (List.range n).map fun i => f i - g i := fun f g => by rw [List.zipWith_map, List.zipWith_self]
  have hext : Tendsto (fun k => ((A k).crossWith n p (c k)).ext) atTop (𝓝 cs.csExt) := by
    have h := tot (fun i hi => e1 (c := ca) (ha i hi)) (fun i hi => e1 (c := cb) (hb i hi))
    simp only [cs, crossSections, List.map_map, Function.comp_def, mpTerms_map_range]
    exact h
  have hsca : Tendsto (fun k => ((A k).crossWith n p (c k)).sca) atTop (𝓝 cs.csSca) := by
    have h := tot (fun i hi => e2 (c := ca) (ha i hi)) (fun i hi => e2 (c := cb) (hb i hi))
    simp only [cs, crossSections, List.map_map, Function.comp_def, mpTerms_map_range]
    exact h
  have habs : Tendsto (fun k => ((A k).crossWith n p (c k)).abs) atTop (𝓝 cs.csAbs) := by
    have h := tot (fun i hi => hA.sub (e1 (c := ca) (ha i hi)) (e2 (c := ca) (ha i hi)))
      (fun i hi => hA.sub (e1 (c := cb) (hb i hi)) (e2 (c := cb) (hb i hi)))
    simp only [cs, crossSections, List.map_map, Function.comp_def, mpTerms_map_range, zipr]
    exact h
  have hpi : Tendsto (fun j => ((A j).pi : ℂ)) atTop (𝓝 (Real.pi : ℂ)) := (continuous_ofReal.tendsto _).comp hA.pi
  have hrc : ((p.rLayers.getLastD 0 : ℝ) : ℂ) ≠ 0 := by exact_mod_cast hr
  have hgeo := hA.mul hpi (hA.mul (tendsto_const_nhds (x := ((p.rLayers.getLastD 0 : ℝ) : ℂ)))
    (tendsto_const_nhds (x := ((p.rLayers.getLastD 0 : ℝ) : ℂ))))
  have hgne : (Real.pi : ℂ) * (((p.rLayers.getLastD 0 : ℝ) : ℂ) * ((p.rLayers.getLastD 0 : ℝ) : ℂ)) ≠ 0 :=
    mul_ne_zero (by exact_mod_cast Real.pi_ne_zero) (mul_ne_zero hrc hrc)
  have eff : ∀ {f : ℕ → ℝ} {c : ℝ}, Tendsto f atTop (𝓝 c) → Tendsto (fun k => ((A k).div (f k : ℂ)
      ((A k).mul (A k).pi ((A k).mul ((p.rLayers.getLastD 0 : ℝ) : ℂ) ((p.rLayers.getLastD 0 : ℝ) : ℂ)))).re) atTop
      (𝓝 (c / (Real.pi * p.rLayers.getLastD 0 ^ 2))) := by
    intro f c hf
    have h1 : Tendsto (fun k => (f k : ℂ)) atTop (𝓝 (c : ℂ)) := (continuous_ofReal.tendsto _).comp hf
    have h2 := (continuous_re.tendsto _).comp (hA.div h1 hgeo hgne)
    have e : ((c : ℂ) / ((Real.pi : ℂ) * (((p.rLayers.getLastD 0 : ℝ) : ℂ) * ((p.rLayers.getLastD 0 : ℝ) : ℂ)))).re =
        c / (Real.pi * p.rLayers.getLastD 0 ^ 2) := by
      rw [← ofReal_mul, ← ofReal_mul, ← ofReal_div, ofReal_re, sq]
    rw [e] at h2
    exact h2
  exact ⟨hext, hsca, habs, eff hext, eff hsca, eff habs⟩

/-- All cross sections and efficiencies of the pena backend converge when its coefficients do. -/
theorem cross_refines (hA : Refining A) (hk : p.k0 * csqrt p.epsEnv ≠ 0) (hr : p.rLayers.getLastD 0 ≠ 0)
    (ha : ∀ i < n, Tendsto (fun k => ((A k).mie n (N k) p (i + 1)).1) atTop (𝓝 (ca i)))
    (hb : ∀ i < n, Tendsto (fun k => ((A k).mie n (N k) p (i + 1)).2) atTop (𝓝 (cb i))) :
    let cs := crossSections (p.k0 * csqrt p.epsEnv) (p.rLayers.getLastD 0) ((List.range n).map ca) ((List.range n).map cb)
    Tendsto (fun k => ((A k).cross n (N k) p).ext) atTop (𝓝 cs.csExt) ∧
    Tendsto (fun k => ((A k).cross n (N k) p).sca) atTop (𝓝 cs.csSca) ∧
    Tendsto (fun k => ((A k).cross n (N k) p).abs) atTop (𝓝 cs.csAbs) ∧
    Tendsto (fun k => ((A k).cross n (N k) p).qExt) atTop (𝓝 cs.qExt) ∧
    Tendsto (fun k => ((A k).cross n (N k) p).qSca) atTop (𝓝 cs.qSca) ∧
    Tendsto (fun k => ((A k).cross n (N k) p).qAbs) atTop (𝓝 cs.qAbs) :=
  crossWith_refines hA hk hr ha hb

end

/-! ## Uniform statements -/

theorem Arith.Within.mono {A : Arith} {u v : ℝ} (h : A.Within u) (huv : u ≤ v) : A.Within v := by
  have key : ∀ {a b : ℝ}, 0 ≤ b → a ≤ u * b → a ≤ v * b := fun hb ha => ha.trans (mul_le_mul_of_nonneg_right huv hb)
  refine ⟨fun x y => key (norm_nonneg _) (h.add x y), fun x y => key (norm_nonneg _) (h.sub x y),
    fun x y => key (norm_nonneg _) (h.mul x y), fun x y hy => key (norm_nonneg _) (h.div x y hy),
    fun x => key (norm_nonneg _) (h.exp x), fun x => key (norm_nonneg _) (h.sin x), fun x => key (norm_nonneg _) (h.cos x),
    fun x => key (norm_nonneg _) (h.sqrt x), fun x => key (norm_nonneg _) (h.abs x), key Real.pi_pos.le h.pi, fun l => ?_⟩
  have h1 := h.sum l
  rw [mul_assoc] at h1 ⊢
  refine key (mul_nonneg (Nat.cast_nonneg _) (List.sum_nonneg ?_)) h1
  intro x hx
  obtain ⟨y, -, rfl⟩ := List.mem_map.1 hx
  exact norm_nonneg _

/-- What holds eventually for every sequence of arithmetics and depths holds uniformly. -/
theorem uniform_of_refining {P : Arith → ℕ → Prop}
    (h : ∀ (A : ℕ → Arith) (N : ℕ → ℕ), Refining A → Tendsto N atTop atTop → ∀ᶠ k in atTop, P (A k) (N k)) :
    ∃ u0 > 0, ∃ N0 : ℕ, ∀ A : Arith, A.Within u0 → ∀ N, N0 ≤ N → P A N := by
  by_contra hcon
  push Not at hcon
  have hk : ∀ k : ℕ, ∃ A : Arith, ∃ N, A.Within (1 / ((k : ℝ) + 1)) ∧ k ≤ N ∧ ¬ P A N := by
    intro k
    obtain ⟨A, h1, N, h2, h3⟩ := hcon (1 / ((k : ℝ) + 1)) (by positivity) k
    exact ⟨A, N, h1, h2, h3⟩
  choose A N h1 h2 h3 using hk
  have hN : Tendsto N atTop atTop := tendsto_atTop_mono h2 tendsto_id
  obtain ⟨k, hk⟩ := (h A N ⟨_, tendsto_one_div_add_atTop_nhds_zero_nat, h1⟩ hN).exists
  exact h3 k hk

/-! ## Guards at finite depth -/

theorem eventually_lt_norm {f : ℕ → ℂ} {w : ℂ} (hf : Tendsto f atTop (𝓝 w)) (h : solverEps < ‖w‖) :
    ∀ᶠ k in atTop, solverEps < ‖f k‖ := hf.norm.eventually (lt_mem_nhds h)

section

variable {D : ℕ → ℂ → ℕ → ℂ} {E : ℂ → ℕ → ℂ} {n : ℕ}

theorem kernelClear_eventually {z : ℂ} (hD : KConv D E n z) (h : KernelClear E n z) : ∀ᶠ N in atTop, KernelClear (D N) n z := by
  have h1 : ∀ᶠ N in atTop, ∀ k ∈ Set.Icc 1 n, solverEps < ‖(pzD3 z z solverEps (D N z) k).1‖ :=
    (eventually_all_finite (Set.finite_Icc 1 n)).2 fun k hk =>
      eventually_lt_norm (pzD3_conv hD h k hk.2).1 (h.prod k hk.1 hk.2)
  exact h1.mono fun N hN => ⟨h.arg, fun k k1 k2 => hN k ⟨k1, k2⟩⟩

theorem qClear_eventually {z1 z2 x2 : ℂ} (h1 : KConv D E n z1) (c1 : KernelClear E n z1) (h : QClear E n z1 z2 x2) :
    ∀ᶠ N in atTop, QClear (D N) n z1 z2 x2 := by
  have h2 : ∀ᶠ N in atTop, ∀ k ∈ Set.Iio n, solverEps <
      ‖(z1 * D N z1 (k + 1) + (k + 1 : ℕ)) * ((k + 1 : ℕ) - z1 * d3Fn (D N) z1 k)‖ :=
    (eventually_all_finite (Set.finite_Iio n)).2 fun k hk =>
      eventually_lt_norm (((tendsto_const_nhds.mul (h1 _ hk)).add tendsto_const_nhds).mul
        (tendsto_const_nhds.sub (tendsto_const_nhds.mul (d3Fn_conv h1 c1 (Nat.le_of_lt hk))))) (h.den k hk)
  exact h2.mono fun N hN => ⟨h.outer, h.den0, fun k hk => hN k hk⟩

theorem pol_eventually {P : ℕ → Pol → ℕ → Prop} (h : ∀ p i, 1 ≤ i → i ≤ n → ∀ᶠ N in atTop, P N p i) :
    ∀ᶠ N in atTop, ∀ p i, 1 ≤ i → i ≤ n → P N p i := by
  have h1 : ∀ p, ∀ᶠ N in atTop, ∀ i ∈ Set.Icc 1 n, P N p i := fun p =>
    (eventually_all_finite (Set.finite_Icc 1 n)).2 fun i hi => h p i hi.1 hi.2
  filter_upwards [h1 .tm, h1 .te] with N a b p i i1 i2
  cases p
  · exact a i ⟨i1, i2⟩
  · exact b i ⟨i1, i2⟩

theorem runClear_eventually : ∀ (rest : List (ℂ × ℂ)) (st : ℕ → HState) (st' : HState), StConv n st st' →
    (∀ z ∈ runArgs st'.x rest, KConv D E n z) → RunClear E n st' rest → ∀ᶠ N in atTop, RunClear (D N) n (st N) rest := by
  intro rest
  induction rest with
  | nil =>
    intro st st' hs ha hc
    have hx := ha st'.x (by simp [runArgs])
    have h1 := kernelClear_eventually hx hc.host
    have h2 : ∀ᶠ N in atTop, ∀ p i, 1 ≤ i → i ≤ n → solverEps <
        ‖(polOut p st'.m ((st N).H p i) + (i : ℂ) / st'.x) * zetaFn (D N) st'.x i - zetaFn (D N) st'.x (i - 1)‖ := by
      refine pol_eventually fun p i i1 i2 => eventually_lt_norm ?_ (hc.den p i i1 i2)
      have hz : ∀ k ≤ n, Tendsto (fun N => zetaFn (D N) st'.x k) atTop (𝓝 (zetaFn E st'.x k)) :=
        prodSeq_conv (fun k hk => d3Fn_conv hx hc.host hk)
      refine (Tendsto.mul (Tendsto.add ?_ tendsto_const_nhds) (hz i i2)).sub (hz (i - 1) (by omega))
      cases p
      · exact (hs.2 _ i i1 i2).div_const _
      · exact (hs.2 _ i i1 i2).const_mul _
    filter_upwards [h1, h2] with N a b
    refine ⟨by rw [(hs.1 N).2]; exact a, fun p i i1 i2 => ?_⟩
    rw [(hs.1 N).1, (hs.1 N).2]
    exact b p i i1 i2
  | cons l rest ih =>
    intro st st' hs ha hc
    obtain ⟨sc, hc⟩ := hc
    have k1 := ha (l.1 * st'.x) (by simp [runArgs])
    have k2 := ha (l.1 * l.2) (by simp [runArgs])
    have hrest := ih _ _ (hStep_conv hs k1 k2 sc)
      (fun z hz => ha z (by simp only [runArgs, List.mem_cons]; right; right; exact hz)) hc
    have hden : ∀ᶠ N in atTop, ∀ p i, 1 ≤ i → i ≤ n → solverEps < ‖hDen (D N) (st N) l p i‖ := by
      refine pol_eventually fun p i i1 i2 => eventually_lt_norm ?_ (sc.den p i i1 i2)
      have hH := hs.2 p i i1 i2
      have e1 := d3Fn_conv k1 sc.prev i2
      have e3 := qFn_conv (x1 := st'.x) k1 k2 sc.prev sc.curr sc.q i i2
      simp only [hDen, (hs.1 _).1, (hs.1 _).2]
      exact ((tendsto_const_nhds.mul hH).sub (tendsto_const_nhds.mul e1)).sub
        (e3.mul ((tendsto_const_nhds.mul hH).sub (tendsto_const_nhds.mul (k1 i i2))))
    filter_upwards [hrest, hden, kernelClear_eventually k1 sc.prev, kernelClear_eventually k2 sc.curr,
      qClear_eventually k1 sc.prev sc.q] with N a b c d e
    exact ⟨⟨by rw [(hs.1 N).2]; exact c, d, by rw [(hs.1 N).2]; exact e, b⟩, a⟩

theorem solverClear_eventually {l : ℂ × ℂ} {rest : List (ℂ × ℂ)} (ha : ∀ z ∈ kernelArgs (l :: rest), KConv D E n z)
    (hc : SolverClear E n (l :: rest)) : ∀ᶠ N in atTop, SolverClear (D N) n (l :: rest) := by
  have h0 := ha (l.1 * l.2) (by simp [kernelArgs])
  filter_upwards [kernelClear_eventually h0 hc.1, runClear_eventually rest (fun N => hInit (D N) l) (hInit E l)
    ⟨fun N => ⟨rfl, rfl⟩, fun p i _ hi => h0 i hi⟩
    (fun z hz => ha z (by simp only [kernelArgs, List.mem_cons]; right; exact hz)) hc.2] with N a b
  exact ⟨a, b⟩

end

theorem depthClear_eventually (n : ℕ) {z : ℂ} (h : D1Clear z) : ∀ᶠ N in atTop, DepthClear (n + N) z := by
  have hz : z ≠ 0 := ne_of_clear h.arg
  have heps : solverEps < 2 := by unfold solverEps; norm_num
  have hM : Tendsto (fun N => n + N) atTop atTop := tendsto_atTop_mono (fun k => Nat.le_add_left _ _) tendsto_id
  obtain ⟨p0, hp0⟩ : ∃ p0 : ℕ, 2 * ‖z‖ ≤ p0 := exists_nat_ge _
  have low : ∀ᶠ N in atTop, ∀ p ∈ Set.Iio p0, solverEps < ‖d1Val z solverEps (n + N) (p + 1) + ((p + 1 : ℕ) : ℂ) / z‖ := by
    refine (eventually_all_finite (Set.finite_Iio p0)).2 fun p _ => eventually_lt_norm (w := ricPsi p z / ricPsi (p + 1) z) ?_ (h.ratio p)
    have h1 := (d1Val_tendsto hz heps (p + 1) (fun j _ => h.psi j) (fun j _ => h.ratio j)).comp hM
    rw [← logD1_add p hz (h.psi (p + 1))]
    have := h1.add_const (((p + 1 : ℕ) : ℂ) / z)
    simpa using this
  filter_upwards [low] with N hN
  refine ⟨h.arg, fun p hp => ?_⟩
  by_cases hpp : p < p0
  · exact hN p hpp
  · have hb : 2 * ‖z‖ ≤ (p : ℝ) + 1 := by
      have : (p0 : ℝ) ≤ p := by exact_mod_cast not_lt.1 hpp
      linarith
    have := (d1Val_near hz heps.le (n + N) (n + N - p - 1) p (by omega) hb).2
    push_cast
    linarith

end MieDiff
