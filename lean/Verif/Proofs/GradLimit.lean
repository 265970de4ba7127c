import Mathlib.Analysis.Complex.LocallyUniformLimit
import Verif.Proofs.Smooth
import Verif.Proofs.SolverLimit

/-!
# Locally uniform limits of holomorphic functions of the parameters

`AC f g e0`: near `e0` the functions `f N` are eventually holomorphic and converge to `g` continuously.  The relation is closed
under the operations of the solver, and implies that derivatives converge.
-/

namespace MieDiff

open Complex Spec Filter Topology
open scoped ContDiff

variable {E : Type*} [NormedAddCommGroup E] [NormedSpace ℂ E]

/-- Holomorphic near `e0`. -/
def Sm (z : E → ℂ) (e0 : E) : Prop := ∀ᶠ t in 𝓝 e0, DifferentiableAt ℂ z t

structure AC (f : ℕ → E → ℂ) (g : E → ℂ) (e0 : E) : Prop where
  lim : ∀ᶠ t in 𝓝 e0, Tendsto (fun q : ℕ × E => f q.1 q.2) (atTop ×ˢ 𝓝 t) (𝓝 (g t))
  diff : ∀ᶠ q in (atTop : Filter ℕ) ×ˢ 𝓝 e0, DifferentiableAt ℂ (f q.1) q.2
  hol : Sm g e0

theorem AC.of_sm {z : E → ℂ} {e0 : E} (h : Sm z e0) : AC (fun _ => z) z e0 where
  lim := h.mono fun _ ht => ht.continuousAt.tendsto.comp tendsto_snd
  diff := tendsto_snd.eventually h
  hol := h

theorem AC.cont {f : ℕ → E → ℂ} {g : E → ℂ} {e0 : E} (h : AC f g e0) : ∀ᶠ t in 𝓝 e0, ContinuousAt g t :=
  h.hol.mono fun _ ht => ht.continuousAt

theorem AC.near {f : ℕ → E → ℂ} {g : E → ℂ} {e0 : E} {c : ℝ} (h : AC f g e0) (hc : c < ‖g e0‖) :
    ∀ᶠ t in 𝓝 e0, c < ‖g t‖ := h.cont.self_of_nhds.norm.eventually_const_lt hc

theorem sm_const (c : ℂ) (e0 : E) : Sm (fun _ : E => c) e0 := Eventually.of_forall fun _ => differentiableAt_const c

theorem AC.const (c : ℂ) (e0 : E) : AC (fun _ _ => c) (fun _ => c) e0 := AC.of_sm (sm_const c e0)

theorem AC.add {f f' : ℕ → E → ℂ} {g g' : E → ℂ} {e0 : E} (h : AC f g e0) (h' : AC f' g' e0) :
    AC (fun N t => f N t + f' N t) (fun t => g t + g' t) e0 where
  lim := by filter_upwards [h.lim, h'.lim] with t a b using a.add b
  diff := by filter_upwards [h.diff, h'.diff] with q a b using a.add b
  hol := by filter_upwards [h.hol, h'.hol] with t a b using a.add b

theorem AC.sub {f f' : ℕ → E → ℂ} {g g' : E → ℂ} {e0 : E} (h : AC f g e0) (h' : AC f' g' e0) :
    AC (fun N t => f N t - f' N t) (fun t => g t - g' t) e0 where
  lim := by filter_upwards [h.lim, h'.lim] with t a b using a.sub b
  diff := by filter_upwards [h.diff, h'.diff] with q a b using a.sub b
  hol := by filter_upwards [h.hol, h'.hol] with t a b using a.sub b

theorem AC.mul {f f' : ℕ → E → ℂ} {g g' : E → ℂ} {e0 : E} (h : AC f g e0) (h' : AC f' g' e0) :
    AC (fun N t => f N t * f' N t) (fun t => g t * g' t) e0 where
  lim := by filter_upwards [h.lim, h'.lim] with t a b using a.mul b
  diff := by filter_upwards [h.diff, h'.diff] with q a b using a.mul b
  hol := by filter_upwards [h.hol, h'.hol] with t a b using a.mul b

theorem AC.sq {f : ℕ → E → ℂ} {g : E → ℂ} {e0 : E} (h : AC f g e0) :
    AC (fun N t => f N t ^ 2) (fun t => g t ^ 2) e0 := by
  simpa only [pow_two] using h.mul h

theorem AC.div {f f' : ℕ → E → ℂ} {g g' : E → ℂ} {e0 : E} (h : AC f g e0) (h' : AC f' g' e0) (h0 : g' e0 ≠ 0) :
    AC (fun N t => f N t / f' N t) (fun t => g t / g' t) e0 := by
  have c0 := h'.cont.self_of_nhds
  have l0 := h'.lim.self_of_nhds
  have n0 : ∀ᶠ t in 𝓝 e0, g' t ≠ 0 := c0.eventually_ne h0
  have n1 : ∀ᶠ q in (atTop : Filter ℕ) ×ˢ 𝓝 e0, f' q.1 q.2 ≠ 0 := l0.eventually_ne h0
  refine ⟨?_, ?_, ?_⟩
  · filter_upwards [h.lim, h'.lim, n0] with t a b n using a.div b n
  · filter_upwards [h.diff, h'.diff, n1] with q a b n
    simp only [div_eq_mul_inv]
    exact a.mul (b.inv n)
  · filter_upwards [h.hol, h'.hol, n0] with t a b n
    simp only [div_eq_mul_inv]
    exact a.mul (b.inv n)

theorem AC.congr {f f' : ℕ → E → ℂ} {g g' : E → ℂ} {e0 : E} (h : AC f g e0)
    (hf' : ∀ᶠ q in (atTop : Filter ℕ) ×ˢ 𝓝 e0, f q.1 q.2 = f' q.1 q.2)
    (hg : g =ᶠ[𝓝 e0] g') : AC f' g' e0 := by
  obtain ⟨A, hA, B, hB, hAB⟩ := eventually_prod_iff.1 hf'
  have hev : ∀ᶠ t in 𝓝 e0, ∀ᶠ q in (atTop : Filter ℕ) ×ˢ 𝓝 t, f q.1 q.2 = f' q.1 q.2 := by
    filter_upwards [hB.eventually_nhds] with t ht
    exact eventually_prod_iff.2 ⟨A, hA, B, ht, hAB⟩
  refine ⟨?_, ?_, ?_⟩
  · filter_upwards [h.lim, hev, hg] with t a b c
    rw [← c]
    exact a.congr' b
  · have hB' := hB.eventually_nhds
    filter_upwards [h.diff, hA.prod_mk hB'] with q a b
    refine a.congr_of_eventuallyEq ?_
    filter_upwards [b.2] with t ht
    exact (hAB b.1 ht).symm
  · filter_upwards [h.hol, hg.eventuallyEq_nhds] with t a b using a.congr_of_eventuallyEq b.symm

theorem AC.guard {f : ℕ → E → ℂ} {g : E → ℂ} {e0 : E} {eps : ℝ} (h : AC f g e0) (h0 : eps < ‖g e0‖) :
    AC (fun N t => guardAdd eps (f N t)) (fun t => guardAdd eps (g t)) e0 := by
  have c0 := h.cont.self_of_nhds
  have l0 := h.lim.self_of_nhds
  have n0 : ∀ᶠ t in 𝓝 e0, eps < ‖g t‖ := c0.norm.eventually_const_lt h0
  have n1 : ∀ᶠ q in (atTop : Filter ℕ) ×ˢ 𝓝 e0, eps < ‖f q.1 q.2‖ := l0.norm.eventually_const_lt h0
  refine h.congr ?_ ?_
  · filter_upwards [n1] with q hq using (guardAdd_of_le hq.le).symm
  · filter_upwards [n0] with t ht using (guardAdd_of_le ht.le).symm

/-- Composition with a holomorphic change of parameters. -/
theorem AC.comp {f : ℕ → ℂ → ℂ} {g : ℂ → ℂ} {z : E → ℂ} {e0 : E} (h : AC f g (z e0)) (hz : Sm z e0) :
    AC (fun N t => f N (z t)) (fun t => g (z t)) e0 := by
  have hc : Tendsto z (𝓝 e0) (𝓝 (z e0)) := hz.self_of_nhds.continuousAt.tendsto
  refine ⟨?_, ?_, ?_⟩
  · filter_upwards [hc.eventually h.lim, hz] with t a b
    exact a.comp (tendsto_fst.prodMk (b.continuousAt.tendsto.comp tendsto_snd))
  · have h1 : Tendsto (fun q : ℕ × E => (q.1, z q.2)) (atTop ×ˢ 𝓝 e0) (atTop ×ˢ 𝓝 (z e0)) :=
      tendsto_fst.prodMk (hc.comp tendsto_snd)
    filter_upwards [h1.eventually h.diff, tendsto_snd.eventually hz] with q a b
    exact DifferentiableAt.comp (g := f q.1) (f := z) q.2 a b
  · filter_upwards [hc.eventually h.hol, hz] with t a b
    exact DifferentiableAt.comp (g := g) (f := z) t a b

/-- Restriction to a complex line. -/
theorem AC.line {f : ℕ → E → ℂ} {g : E → ℂ} {e0 : E} (h : AC f g e0) (v : E) :
    AC (fun N (s : ℂ) => f N (e0 + s • v)) (fun s => g (e0 + s • v)) 0 := by
  have hl : Continuous fun s : ℂ => e0 + s • v := by fun_prop
  have hc : ∀ s : ℂ, Tendsto (fun s : ℂ => e0 + s • v) (𝓝 s) (𝓝 (e0 + s • v)) := fun s => hl.tendsto s
  have hc0 : Tendsto (fun s : ℂ => e0 + s • v) (𝓝 0) (𝓝 e0) := by simpa using hc 0
  refine ⟨?_, ?_, ?_⟩
  · filter_upwards [hc0.eventually h.lim] with t a
    exact a.comp (tendsto_fst.prodMk ((hc t).comp tendsto_snd))
  · have h1 : Tendsto (fun q : ℕ × ℂ => (q.1, e0 + q.2 • v)) (atTop ×ˢ 𝓝 0) (atTop ×ˢ 𝓝 e0) :=
      tendsto_fst.prodMk (hc0.comp tendsto_snd)
    filter_upwards [h1.eventually h.diff] with q a
    exact DifferentiableAt.comp (g := f q.1) (f := fun s : ℂ => e0 + s • v) q.2 a (by fun_prop)
  · filter_upwards [hc0.eventually h.hol] with t a
    exact DifferentiableAt.comp (g := g) (f := fun s : ℂ => e0 + s • v) t a (by fun_prop)

/-- Derivatives converge. -/
theorem AC.deriv {f : ℕ → ℂ → ℂ} {g : ℂ → ℂ} {s0 : ℂ} (h : AC f g s0) :
    Tendsto (fun N => deriv (f N) s0) atTop (𝓝 (deriv g s0)) := by
  obtain ⟨A, hA, B, hB, hAB⟩ := eventually_prod_iff.1 h.diff
  obtain ⟨U, hU, hUo, hs⟩ := eventually_nhds_iff.1 (hB.and (h.lim.and h.cont))
  have hloc : TendstoLocallyUniformlyOn f g atTop U := by
    rw [hUo.tendstoLocallyUniformlyOn_iff_forall_tendsto]
    intro x hx
    obtain ⟨-, hl, hc⟩ := hU x hx
    have h1 : Tendsto (fun y : ℕ × ℂ => (g y.2, f y.1 y.2)) (atTop ×ˢ 𝓝 x) (𝓝 (g x, g x)) :=
      (hc.tendsto.comp tendsto_snd).prodMk_nhds hl
    exact h1.mono_right (nhds_le_uniformity (g x))
  have hd : ∀ᶠ N in atTop, DifferentiableOn ℂ (f N) U := by
    filter_upwards [hA] with N hN x hx
    exact (hAB hN (hU x hx).1).differentiableWithinAt
  exact (hloc.deriv hd hUo).tendsto_at hs

/-! ## The downward recurrence -/

theorem guardAdd_diff {eps : ℝ} {f : ℂ → ℂ} {z : ℂ} (hf : DifferentiableAt ℂ f z) (h : eps < ‖f z‖) :
    DifferentiableAt ℂ (fun w => guardAdd eps (f w)) z := by
  refine hf.congr_of_eventuallyEq ?_
  filter_upwards [hf.continuousAt.norm.eventually_const_lt h] with w hw using guardAdd_of_le hw.le

/-- At large orders the truncated recurrence is holomorphic in the argument. -/
theorem d1Val_diff {z : ℂ} {eps : ℝ} (hz : z ≠ 0) (heps : eps < 2) (N : ℕ) :
    ∀ j n : ℕ, n + j = N → 2 * ‖z‖ ≤ n + 1 → DifferentiableAt ℂ (fun w => d1Val w eps N n) z := by
  intro j
  induction j with
  | zero =>
    intro n hn _
    obtain rfl : n = N := by omega
    simp only [d1Val_top]
    exact differentiableAt_const _
  | succ j ih =>
    intro n hn h
    have hi := ih (n + 1) (by omega) (by push_cast; linarith)
    have h1 := (d1Val_near hz heps.le N j n hn h).2
    have hq : DifferentiableAt ℂ (fun w : ℂ => ((n + 1 : ℕ) : ℂ) / w) z := by
      simp only [div_eq_mul_inv]
      exact (differentiableAt_const _).mul (differentiableAt_id.inv hz)
    have hd := hi.add hq
    have hg := guardAdd_diff (eps := eps) hd (by
      simp only [Pi.add_apply]
      push_cast
      linarith)
    simp only [d1Val_step _ eps (by omega : n < N), one_div]
    refine hq.sub (hg.inv ?_)
    simp only [Pi.add_apply]
    push_cast
    rw [guardAdd_of_le (by linarith)]
    exact norm_pos_iff.1 (by linarith)

theorem sm_of_ne {f : ℂ → ℂ} (hf : ∀ z, z ≠ 0 → DifferentiableAt ℂ f z) {z : ℂ} (hz : z ≠ 0) : Sm f z := by
  filter_upwards [eventually_ne_nhds hz] with w hw using hf w hw

theorem logD1_sm (k : ℕ) {z : ℂ} (hz : z ≠ 0) (h : ricPsi k z ≠ 0) : Sm (logD1 k) z := by
  have h1 := sm_of_ne (ricPsi_diff k) hz
  have h2 := sm_of_ne (deriv_diff (ricPsi_diff k)) hz
  filter_upwards [h1, h2, (ricPsi_diff k z hz).continuousAt.eventually_ne h] with w a b c
  unfold logD1
  simp only [div_eq_mul_inv]
  exact b.mul (a.inv c)

theorem inv_sm (c : ℂ) {z : ℂ} (hz : z ≠ 0) : Sm (fun w => c / w) z :=
  sm_of_ne (fun w hw => by
    simp only [div_eq_mul_inv]
    exact (differentiableAt_const _).mul (differentiableAt_id.inv hw)) hz

/-- The truncated downward recurrence converges, with all derivatives. -/
theorem d1Val_ac {z : ℂ} {eps : ℝ} (hz : z ≠ 0) (heps : eps < 2) (n : ℕ) (hpsi : ∀ k, n ≤ k → ricPsi k z ≠ 0)
    (hq : ∀ k, n ≤ k → eps < ‖ricPsi k z / ricPsi (k + 1) z‖) :
    AC (fun N w => d1Val w eps N n) (logD1 n) z := by
  obtain ⟨m, hm⟩ := exists_nat_gt (2 * ‖z‖)
  have hnear : ∀ᶠ w : ℂ in 𝓝 z, w ≠ 0 ∧ 2 * ‖w‖ < m :=
    (eventually_ne_nhds hz).and ((continuous_const.mul continuous_norm).continuousAt.eventually_lt_const hm)
  have base : ∀ p, n ≤ p → m ≤ p → AC (fun N w => d1Val w eps N p) (logD1 p) z := by
    intro p hnp hp
    have hmp : (m : ℝ) ≤ p := by exact_mod_cast hp
    have hsm := logD1_sm p hz (hpsi p hnp)
    refine ⟨?_, ?_, hsm⟩
    · filter_upwards [hnear.eventually_nhds, hsm] with w hw hs
      have hb : Tendsto (fun N : ℕ => (1 / 4 : ℝ) ^ (N - (p + 1))) atTop (𝓝 0) :=
        (tendsto_pow_atTop_nhds_zero_of_lt_one (by norm_num) (by norm_num)).comp (tendsto_sub_atTop_nat (p + 1))
      have h0 : Tendsto (fun q : ℕ × ℂ => d1Val q.2 eps q.1 p - logD1 p q.2) (atTop ×ˢ 𝓝 w) (𝓝 0) := by
        rw [tendsto_zero_iff_norm_tendsto_zero]
        refine squeeze_zero' (g := fun q : ℕ × ℂ => (1 / 4 : ℝ) ^ (q.1 - (p + 1))) ?_ ?_ (hb.comp tendsto_fst)
        · exact Eventually.of_forall fun _ => norm_nonneg _
        · filter_upwards [(eventually_ge_atTop (p + 1)).prod_mk hw] with q hq
          exact d1Val_error hq.2.1 heps.le q.1 (q.1 - (p + 1)) p (by omega) (by linarith [hq.2.2])
      have := h0.add (hs.continuousAt.tendsto.comp (tendsto_snd (f := (atTop : Filter ℕ))))
      simpa using this
    · filter_upwards [(eventually_ge_atTop p).prod_mk hnear] with q hq
      exact d1Val_diff hq.2.1 heps q.1 (q.1 - p) p (by omega) (by linarith [hq.2.2])
  have down : ∀ j p : ℕ, n ≤ p → m ≤ p + j → AC (fun N w => d1Val w eps N p) (logD1 p) z := by
    intro j
    induction j with
    | zero => intro p hp h; exact base p hp h
    | succ j ih =>
      intro p hp h
      have hi := ih (p + 1) (by omega) (by omega)
      have p1 := hpsi (p + 1) (by omega)
      have hB := logD1_add p hz p1
      have hBn : eps < ‖logD1 (p + 1) z + ((p : ℂ) + 1) / z‖ := by rw [hB]; exact hq p hp
      have hB0 : logD1 (p + 1) z + ((p : ℂ) + 1) / z ≠ 0 := by
        rw [hB]; exact div_ne_zero (hpsi p hp) p1
      have hd := hi.add (AC.of_sm (inv_sm ((p : ℂ) + 1) hz))
      have h1 := (AC.of_sm (inv_sm ((p : ℂ) + 1) hz)).sub ((AC.const 1 z).div (hd.guard hBn) (by
        rw [guardAdd_of_le hBn.le]; exact hB0))
      refine h1.congr ?_ ?_
      · filter_upwards [(eventually_gt_atTop p).prod_mk (Eventually.of_forall fun _ : ℂ => trivial)] with q hq
        rw [d1Val_step _ eps hq.1]
        push_cast
        rfl
      · have c1 : ∀ᶠ w in 𝓝 z, ricPsi p w ≠ 0 := (ricPsi_diff p z hz).continuousAt.eventually_ne (hpsi p hp)
        have c2 : ∀ᶠ w in 𝓝 z, ricPsi (p + 1) w ≠ 0 := (ricPsi_diff (p + 1) z hz).continuousAt.eventually_ne p1
        have c3 := hd.cont.self_of_nhds.norm.eventually_const_lt hBn
        filter_upwards [c1, c2, c3, eventually_ne_nhds hz] with w a1 a2 a3 a4
        rw [logD1_step p a4 a1 a2, guardAdd_of_le a3.le]
  exact down m n le_rfl (by omega)

theorem depthFn_ac (n : ℕ) {z : ℂ} (h : D1Clear z) (k : ℕ) :
    AC (fun N w => depthFn n N w k) (fun w => idealFn w k) z := by
  have h0 := d1Val_ac (z := z) (eps := solverEps) (ne_of_clear h.arg) (by unfold solverEps; norm_num) k
    (fun j _ => h.psi j) (fun j _ => h.ratio j)
  have hN : Tendsto (fun N : ℕ => n + N) atTop atTop := by
    simpa [add_comm] using tendsto_add_atTop_nat n
  have h1 : AC (fun N w => d1Val w solverEps (n + N) k) (logD1 k) z := by
    refine ⟨?_, ?_, h0.hol⟩
    · filter_upwards [h0.lim] with w hw
      exact hw.comp ((hN.comp tendsto_fst).prodMk tendsto_snd)
    · have h2 : Tendsto (fun q : ℕ × ℂ => (n + q.1, q.2)) (atTop ×ˢ 𝓝 z) (atTop ×ˢ 𝓝 z) :=
        (hN.comp tendsto_fst).prodMk tendsto_snd
      exact h2.eventually h0.diff
  refine h1.congr ?_ (Eventually.of_forall fun w => rfl)
  have hg : ∀ᶠ w : ℂ in 𝓝 z, solverEps < ‖w‖ := continuous_norm.continuousAt.eventually_const_lt h.arg
  filter_upwards [tendsto_snd.eventually hg] with q hq
  simp only [depthFn, guardAdd_of_le hq.le]

/-! ## The solver -/

variable {D : ℕ → ℂ → ℕ → ℂ} {L : ℂ → ℕ → ℂ} {n : ℕ} {e0 : E}

/-- Convergence of the kernel at the argument `z t`. -/
def KAC (D : ℕ → ℂ → ℕ → ℂ) (L : ℂ → ℕ → ℂ) (n : ℕ) (z : E → ℂ) (e0 : E) : Prop :=
  ∀ k ≤ n, AC (fun N t => D N (z t) k) (fun t => L (z t) k) e0

theorem Sm.mul {z w : E → ℂ} (hz : Sm z e0) (hw : Sm w e0) : Sm (fun t => z t * w t) e0 := by
  filter_upwards [hz, hw] with t a b using a.mul b

theorem guard_ne {w : ℂ} (h : solverEps < ‖w‖) : guardAdd solverEps w ≠ 0 := by
  rw [guardAdd_of_le h.le]; exact ne_of_clear h

theorem pzD3_ac {z : E → ℂ} (hz : Sm z e0) (hD : KAC D L n z e0) (h : KernelClear L n (z e0)) : ∀ k ≤ n,
    AC (fun N t => (pzD3 (z t) (guardAdd solverEps (z t)) solverEps (D N (z t)) k).1)
      (fun t => (pzD3 (z t) (guardAdd solverEps (z t)) solverEps (L (z t)) k).1) e0 ∧
    AC (fun N t => (pzD3 (z t) (guardAdd solverEps (z t)) solverEps (D N (z t)) k).2)
      (fun t => (pzD3 (z t) (guardAdd solverEps (z t)) solverEps (L (z t)) k).2) e0 := by
  have hzs := (AC.of_sm hz).guard h.arg
  intro k
  induction k with
  | zero =>
    intro _
    simp only [pzD3]
    refine ⟨AC.of_sm ?_, AC.const _ _⟩
    filter_upwards [hz] with t ht
    exact (differentiableAt_const _).mul ((differentiableAt_const _).sub ((differentiableAt_const _).mul ht).cexp)
  | succ k ih =>
    intro hk
    obtain ⟨i1, i2⟩ := ih (by omega)
    have hq := (AC.const ((k + 1 : ℕ) : ℂ) e0).div hzs (guard_ne h.arg)
    have h1 := (i1.mul (hq.sub (hD k (by omega)))).mul (hq.sub i2)
    have hc := h.prod (k + 1) (by omega) hk
    rw [← guardAdd_of_le h.arg.le] at hc
    have hc' : solverEps < ‖(pzD3 (z e0) (guardAdd solverEps (z e0)) solverEps (L (z e0)) (k + 1)).1‖ := by
      have e : guardAdd solverEps (guardAdd solverEps (z e0)) = guardAdd solverEps (z e0) := by
        rw [guardAdd_of_le h.arg.le, guardAdd_of_le h.arg.le]
      simpa only [guardAdd_of_le h.arg.le] using hc
    refine ⟨h1, ?_⟩
    exact (hD (k + 1) hk).add ((AC.const I e0).div (h1.guard hc') (guard_ne hc'))

theorem d3Fn_ac {z : E → ℂ} (hz : Sm z e0) (hD : KAC D L n z e0) (h : KernelClear L n (z e0)) {k : ℕ} (hk : k ≤ n) :
    AC (fun N t => d3Fn (D N) (z t) k) (fun t => d3Fn L (z t) k) e0 := (pzD3_ac hz hD h k hk).2

theorem prodSeq_ac {f0 zs : E → ℂ} {F : ℕ → E → ℕ → ℂ} {G : E → ℕ → ℂ} (h0 : Sm f0 e0)
    (hz : AC (fun _ => zs) zs e0) (hz0 : zs e0 ≠ 0) (h : ∀ k ≤ n, AC (fun N t => F N t k) (fun t => G t k) e0) :
    ∀ k ≤ n, AC (fun N t => prodSeq (f0 t) (zs t) (F N t) k) (fun t => prodSeq (f0 t) (zs t) (G t) k) e0 := by
  intro k
  induction k with
  | zero => intro _; exact AC.of_sm h0
  | succ k ih =>
    intro hk
    exact (ih (by omega)).mul (((AC.const ((k + 1 : ℕ) : ℂ) e0).div hz hz0).sub (h k (by omega)))

theorem q0_key (z : ℂ) : exp (-2 * I * z.re) - exp (-2 * z.im : ℝ) = exp (-2 * z.im : ℝ) * (exp (-2 * I * z) - 1) := by
  rw [mul_sub, ← Complex.exp_add, mul_one]
  congr 2
  conv_rhs => rw [← re_add_im z]
  push_cast
  simp only [ofReal_re, I_re, mul_zero, ofReal_im, I_im, mul_one, add_zero, add_im, mul_im, zero_add]
  ring_nf
  simp only [I_sq]
  ring

theorem q0_eq (z1 z2 : ℂ) : (exp (-2 * I * z1.re) - exp (-2 * z1.im : ℝ)) / (exp (-2 * I * z2.re) - exp (-2 * z2.im : ℝ)) *
    exp (-2 * (z2.im - z1.im) : ℝ) = (exp (-2 * I * z1) - 1) / (exp (-2 * I * z2) - 1) := by
  have h2 : exp ((-2 * (z2.im - z1.im) : ℝ) : ℂ) = exp ((-2 * z2.im : ℝ) : ℂ) / exp ((-2 * z1.im : ℝ) : ℂ) := by
    rw [← Complex.exp_sub]
    congr 1
    push_cast
    ring
  rw [q0_key, q0_key, h2, mul_div_mul_comm]
  have a1 := Complex.exp_ne_zero ((-2 * z1.im : ℝ) : ℂ)
  have a2 := Complex.exp_ne_zero ((-2 * z2.im : ℝ) : ℂ)
  rw [mul_comm, ← mul_assoc, div_mul_div_comm, mul_comm (exp ((-2 * z2.im : ℝ) : ℂ)), div_self (mul_ne_zero a1 a2), one_mul]

theorem sm_exp {z : E → ℂ} (hz : Sm z e0) : Sm (fun t => exp (-2 * I * z t) - 1) e0 := by
  filter_upwards [hz] with t ht
  exact (((differentiableAt_const _).mul ht).cexp).sub (differentiableAt_const _)

theorem q0_ac {z1 z2 : E → ℂ} (h1 : Sm z1 e0) (h2 : Sm z2 e0)
    (hc : solverEps < ‖exp (-2 * I * (z2 e0).re) - exp (((-2 * (z2 e0).im : ℝ)) : ℂ)‖) :
    AC (fun (_ : ℕ) t => (exp (-2 * I * (z1 t).re) - exp (-2 * (z1 t).im : ℝ)) /
      guardAdd solverEps (exp (-2 * I * (z2 t).re) - exp (-2 * (z2 t).im : ℝ)) * exp (-2 * ((z2 t).im - (z1 t).im) : ℝ))
      (fun t => (exp (-2 * I * (z1 t).re) - exp (-2 * (z1 t).im : ℝ)) /
      guardAdd solverEps (exp (-2 * I * (z2 t).re) - exp (-2 * (z2 t).im : ℝ)) * exp (-2 * ((z2 t).im - (z1 t).im) : ℝ))
      e0 := by
  have hcont : ContinuousAt (fun t => ‖exp (-2 * I * (z2 t).re) - exp (((-2 * (z2 t).im : ℝ)) : ℂ)‖) e0 := by
    have hz : ContinuousAt z2 e0 := h2.self_of_nhds.continuousAt
    have hg : Continuous fun w : ℂ => ‖exp (-2 * I * w.re) - exp (((-2 * w.im : ℝ)) : ℂ)‖ := by fun_prop
    exact ContinuousAt.comp (g := fun w : ℂ => ‖exp (-2 * I * w.re) - exp (((-2 * w.im : ℝ)) : ℂ)‖) (f := z2) hg.continuousAt hz
  have hev := hcont.eventually_const_lt hc
  have hne : exp (-2 * I * z2 e0) - 1 ≠ 0 := by
    intro h0
    apply ne_of_clear hc
    rw [q0_key, h0, mul_zero]
  have hA := (AC.of_sm (sm_exp h1)).div (AC.of_sm (sm_exp h2)) hne
  refine hA.congr ?_ ?_
  · filter_upwards [tendsto_snd.eventually hev] with q hq
    rw [guardAdd_of_le hq.le, q0_eq]
  · filter_upwards [hev] with t ht
    rw [guardAdd_of_le ht.le, q0_eq]

theorem qFn_ac {z1 z2 x1 x2 : E → ℂ} (hz1 : Sm z1 e0) (hz2 : Sm z2 e0) (hx1 : Sm x1 e0) (hx2 : Sm x2 e0)
    (h1 : KAC D L n z1 e0) (h2 : KAC D L n z2 e0) (c1 : KernelClear L n (z1 e0))
    (c2 : KernelClear L n (z2 e0)) (h : QClear L n (z1 e0) (z2 e0) (x2 e0)) :
    ∀ k ≤ n, AC (fun N t => qFn (D N) (z1 t) (z2 t) (x1 t) (x2 t) k) (fun t => qFn L (z1 t) (z2 t) (x1 t) (x2 t) k) e0 := by
  intro k
  induction k with
  | zero => intro _; exact q0_ac hz1 hz2 h.den0
  | succ k ih =>
    intro hk
    have hd := h.den k hk
    have hx := ((AC.of_sm hx1).div ((AC.of_sm hx2).guard h.outer) (guard_ne h.outer)).sq
    have n2 := (((AC.of_sm hz2).mul (h2 _ hk)).add (AC.const ((k + 1 : ℕ) : ℂ) e0)).mul
      ((AC.const ((k + 1 : ℕ) : ℂ) e0).sub ((AC.of_sm hz2).mul (d3Fn_ac hz2 h2 c2 (by omega : k ≤ n))))
    have n1 := (((AC.of_sm hz1).mul (h1 _ hk)).add (AC.const ((k + 1 : ℕ) : ℂ) e0)).mul
      ((AC.const ((k + 1 : ℕ) : ℂ) e0).sub ((AC.of_sm hz1).mul (d3Fn_ac hz1 h1 c1 (by omega : k ≤ n))))
    exact ((ih (by omega)).mul hx).mul (n2.div (n1.guard hd) (guard_ne hd))

/-- Convergence of states. -/
structure StAC (n : ℕ) (st : ℕ → E → HState) (st' : E → HState) (e0 : E) : Prop where
  m : ∀ N t, (st N t).m = (st' t).m
  x : ∀ N t, (st N t).x = (st' t).x
  mSm : Sm (fun t => (st' t).m) e0
  xSm : Sm (fun t => (st' t).x) e0
  H : ∀ p i, 1 ≤ i → i ≤ n → AC (fun N t => (st N t).H p i) (fun t => (st' t).H p i) e0

theorem polP_sm {p : Pol} {m m' : E → ℂ} (h : Sm m e0) (h' : Sm m' e0) : Sm (fun t => polP p (m t) (m' t)) e0 := by
  cases p
  exacts [h', h]

theorem polQ_sm {p : Pol} {m m' : E → ℂ} (h : Sm m e0) (h' : Sm m' e0) : Sm (fun t => polQ p (m t) (m' t)) e0 := by
  cases p
  exacts [h, h']

theorem hStep_ac {st : ℕ → E → HState} {st' : E → HState} {l : (E → ℂ) × (E → ℂ)} (hs : StAC n st st' e0)
    (hl1 : Sm l.1 e0) (hl2 : Sm l.2 e0)
    (h1 : KAC D L n (fun t => l.1 t * (st' t).x) e0) (h2 : KAC D L n (fun t => l.1 t * l.2 t) e0)
    (hc : StepClear L n (st' e0) (l.1 e0, l.2 e0)) :
    StAC n (fun N t => hStep (D N) (st N t) (l.1 t, l.2 t)) (fun t => hStep L (st' t) (l.1 t, l.2 t)) e0 := by
  refine ⟨fun _ _ => rfl, fun _ _ => rfl, hl1, hl2, ?_⟩
  intro p i hi1 hi
  have hH := hs.H p i hi1 hi
  have hd := hc.den p i hi1 hi
  have z1 := hl1.mul hs.xSm
  have z2 := hl1.mul hl2
  have e1 := d3Fn_ac z1 h1 hc.prev hi
  have e2 := d3Fn_ac z2 h2 hc.curr hi
  have e3 := qFn_ac z1 z2 hs.xSm hl2 h1 h2 hc.prev hc.curr hc.q i hi
  have P := AC.of_sm (polP_sm (p := p) hs.mSm hl1)
  have Q := AC.of_sm (polQ_sm (p := p) hs.mSm hl1)
  have g1 := (P.mul hH).sub (Q.mul (h1 i hi))
  have g2 := (P.mul hH).sub (Q.mul e1)
  simp only [hStep, hUpdate, hs.m, hs.x]
  exact ((g2.mul (h2 i hi)).sub ((e3.mul g1).mul e2)).div ((g2.sub (e3.mul g1)).guard hd) (guard_ne hd)

theorem sm_sin {x : E → ℂ} (hx : Sm x e0) : Sm (fun t => sin (x t)) e0 := by
  filter_upwards [hx] with t ht using ht.csin

theorem sm_zeta0 {x : E → ℂ} (hx : Sm x e0) : Sm (fun t => sin (x t) - I * cos (x t)) e0 := by
  filter_upwards [hx] with t ht using ht.csin.sub ((differentiableAt_const _).mul ht.ccos)

theorem final_ac {st : ℕ → E → HState} {st' : E → HState} (hs : StAC n st st' e0) (hm : (st' e0).m ≠ 0)
    (hx : KAC D L n (fun t => (st' t).x) e0)
    (hc : FinalClear L n (st' e0)) (p : Pol) {i : ℕ} (h1 : 1 ≤ i) (hi : i ≤ n) :
    AC (fun N t => coefFn (D N) p (st N t) i) (fun t => coefFn L p (st' t) i) e0 := by
  have hd := hc.den p i h1 hi
  have hg := (AC.of_sm hs.xSm).guard hc.host.arg
  have hg0 := guard_ne hc.host.arg
  have hpsi : ∀ k ≤ n, AC (fun N t => psiFn (D N) (st' t).x k) (fun t => psiFn L (st' t).x k) e0 :=
    prodSeq_ac (sm_sin hs.xSm) hg hg0 hx
  have hzeta : ∀ k ≤ n, AC (fun N t => zetaFn (D N) (st' t).x k) (fun t => zetaFn L (st' t).x k) e0 :=
    prodSeq_ac (sm_zeta0 hs.xSm) hg hg0 (fun k hk => d3Fn_ac hs.xSm hx hc.host hk)
  have hH := hs.H p i h1 hi
  have hO : AC (fun N t => polOut p (st' t).m ((st N t).H p i)) (fun t => polOut p (st' t).m ((st' t).H p i)) e0 := by
    cases p
    · exact hH.div (AC.of_sm hs.mSm) hm
    · exact (AC.of_sm hs.mSm).mul hH
  have hT := hO.add ((AC.const (i : ℂ) e0).div hg hg0)
  have n1 := (hT.mul (hpsi i hi)).sub (hpsi (i - 1) (by omega))
  have n2 := (hT.mul (hzeta i hi)).sub (hzeta (i - 1) (by omega))
  rw [← guardAdd_of_le hc.host.arg.le] at hd
  have hd' : solverEps < ‖(polOut p (st' e0).m ((st' e0).H p i) + (i : ℂ) / guardAdd solverEps (st' e0).x) *
      zetaFn L (st' e0).x i - zetaFn L (st' e0).x (i - 1)‖ := by
    simpa only [guardAdd_of_le hc.host.arg.le] using hd
  unfold coefFn finalCoef
  simp only [hs.m, hs.x]
  exact n1.div (n2.guard hd') (guard_ne hd')

theorem run_ac (p : Pol) {i : ℕ} (h1 : 1 ≤ i) (hi : i ≤ n) :
    ∀ (rest : LayerFam E) (st : ℕ → E → HState) (st' : E → HState), StAC n st st' e0 → (st' e0).m ≠ 0 →
      (∀ l ∈ rest, Sm l.1 e0 ∧ Sm l.2 e0 ∧ l.1 e0 ≠ 0) →
      (∀ z : E → ℂ, Sm z e0 → z e0 ∈ runArgs (st' e0).x (rest.at' e0) → KAC D L n z e0) →
      RunClear L n (st' e0) (rest.at' e0) →
      AC (fun N t => coefFn (D N) p ((rest.at' t).foldl (hStep (D N)) (st N t)) i)
        (fun t => coefFn L p ((rest.at' t).foldl (hStep L) (st' t)) i) e0 := by
  intro rest
  induction rest with
  | nil =>
    intro st st' hs hm _ ha hc
    exact final_ac hs hm (ha _ hs.xSm (by simp [runArgs, LayerFam.at'])) hc p h1 hi
  | cons l rest ih =>
    intro st st' hs hm hl ha hc
    obtain ⟨sc, hc⟩ := hc
    obtain ⟨l1, l2, l0⟩ := hl l (by simp)
    refine ih _ _ (hStep_ac hs l1 l2 (ha _ (l1.mul hs.xSm) (by simp [runArgs, LayerFam.at']))
      (ha _ (l1.mul l2) (by simp [runArgs, LayerFam.at'])) sc) l0 (fun k hk => hl k (by simp [hk])) ?_ hc
    intro z hz hmem
    refine ha z hz ?_
    simp only [LayerFam.at', List.map_cons, runArgs, List.mem_cons]
    right; right
    exact hmem

/-- Coefficients of the truncated recurrence as functions of the parameters. -/
noncomputable def coefAt (D : ℂ → ℕ → ℂ) (p : Pol) (i : ℕ) : List (ℂ × ℂ) → ℂ
  | [] => 0
  | l :: rest => coefFn D p (hFinal D l rest) i

theorem coefAt_ac (p : Pol) {i : ℕ} (h1 : 1 ≤ i) (hi : i ≤ n) {ls : LayerFam E} (hl : ls.OK ℂ e0)
    (hd : ∀ z ∈ kernelArgs (ls.at' e0), D1Clear z) (hc : SolverClear idealFn n (ls.at' e0)) :
    AC (fun N t => coefAt (depthFn n N) p i (ls.at' t)) (fun t => coefAt idealFn p i (ls.at' t)) e0 := by
  have sm : ∀ {f : E → ℂ}, ContDiffAt ℂ ω f e0 → Sm f e0 := fun h =>
    (h.eventually (by simp)).mono fun t ht => ht.differentiableAt (by simp)
  cases ls with
  | nil => exact hc.elim
  | cons l rest =>
    obtain ⟨l1, l2, l0, -⟩ := hl l (by simp)
    have l1 := sm l1
    have l2 := sm l2
    have ka : ∀ z : E → ℂ, Sm z e0 → z e0 ∈ kernelArgs (LayerFam.at' (l :: rest) e0) → KAC (depthFn n) idealFn n z e0 :=
      fun z hz hm k _ => (depthFn_ac n (hd _ hm) k).comp hz
    refine run_ac p h1 hi rest (fun N t => hInit (depthFn n N) (l.1 t, l.2 t)) (fun t => hInit idealFn (l.1 t, l.2 t))
      ⟨fun _ _ => rfl, fun _ _ => rfl, l1, l2, ?_⟩ l0 ?_ ?_ hc.2
    · intro p i _ hi
      exact ka _ (l1.mul l2) (by simp [kernelArgs, LayerFam.at']) i hi
    · intro k hk
      obtain ⟨a, b, c, -⟩ := hl k (by simp [hk])
      exact ⟨sm a, sm b, c⟩
    · intro z hz hm
      refine ka z hz ?_
      simp only [LayerFam.at', List.map_cons, kernelArgs, List.mem_cons]
      right
      exact hm

/-! ## The conditions on the guards are open -/

theorem kernelClear_near {z : E → ℂ} (hz : Sm z e0) (hD : KAC D L n z e0) (h : KernelClear L n (z e0)) :
    ∀ᶠ t in 𝓝 e0, KernelClear L n (z t) := by
  have h1 := (AC.of_sm hz).near h.arg
  have h2 : ∀ᶠ t in 𝓝 e0, ∀ k ∈ Finset.Icc 1 n,
      solverEps < ‖(pzD3 (z t) (guardAdd solverEps (z t)) solverEps (L (z t)) k).1‖ := by
    refine (Finset.eventually_all _).2 fun k hk => ?_
    obtain ⟨k1, k2⟩ := Finset.mem_Icc.1 hk
    refine (pzD3_ac hz hD h k k2).1.near ?_
    rw [guardAdd_of_le h.arg.le]
    exact h.prod k k1 k2
  filter_upwards [h1, h2] with t a b
  refine ⟨a, fun k k1 k2 => ?_⟩
  have := b k (Finset.mem_Icc.2 ⟨k1, k2⟩)
  rwa [guardAdd_of_le a.le] at this

theorem qClear_near {z1 z2 x2 : E → ℂ} (hz1 : Sm z1 e0) (hz2 : Sm z2 e0) (hx2 : Sm x2 e0)
    (h1 : KAC D L n z1 e0) (c1 : KernelClear L n (z1 e0)) (h : QClear L n (z1 e0) (z2 e0) (x2 e0)) :
    ∀ᶠ t in 𝓝 e0, QClear L n (z1 t) (z2 t) (x2 t) := by
  have hcont : ContinuousAt (fun t => ‖exp (-2 * I * (z2 t).re) - exp (((-2 * (z2 t).im : ℝ)) : ℂ)‖) e0 := by
    have hz : ContinuousAt z2 e0 := hz2.self_of_nhds.continuousAt
    have hg : Continuous fun w : ℂ => ‖exp (-2 * I * w.re) - exp (((-2 * w.im : ℝ)) : ℂ)‖ := by fun_prop
    exact ContinuousAt.comp (g := fun w : ℂ => ‖exp (-2 * I * w.re) - exp (((-2 * w.im : ℝ)) : ℂ)‖) (f := z2) hg.continuousAt hz
  have h2 : ∀ᶠ t in 𝓝 e0, ∀ k ∈ Finset.range n, solverEps <
      ‖(z1 t * L (z1 t) (k + 1) + (k + 1 : ℕ)) * ((k + 1 : ℕ) - z1 t * d3Fn L (z1 t) k)‖ := by
    refine (Finset.eventually_all _).2 fun k hk => ?_
    have hk' : k + 1 ≤ n := Finset.mem_range.1 hk
    have n1 := (((AC.of_sm hz1).mul (h1 _ hk')).add (AC.const ((k + 1 : ℕ) : ℂ) e0)).mul
      ((AC.const ((k + 1 : ℕ) : ℂ) e0).sub ((AC.of_sm hz1).mul (d3Fn_ac hz1 h1 c1 (by omega : k ≤ n))))
    exact n1.near (h.den k hk')
  filter_upwards [(AC.of_sm hx2).near h.outer, hcont.eventually_const_lt h.den0, h2] with t a b c
  exact ⟨a, b, fun k hk => c k (Finset.mem_range.2 hk)⟩

omit [NormedSpace ℂ E] in
theorem all_orders {P : Pol → ℕ → E → Prop} (h : ∀ p i, 1 ≤ i → i ≤ n → ∀ᶠ t in 𝓝 e0, P p i t) :
    ∀ᶠ t in 𝓝 e0, ∀ p i, 1 ≤ i → i ≤ n → P p i t := by
  have h1 : ∀ p, ∀ᶠ t in 𝓝 e0, ∀ i ∈ Finset.Icc 1 n, P p i t := fun p =>
    (Finset.eventually_all _).2 fun i hi => h p i (Finset.mem_Icc.1 hi).1 (Finset.mem_Icc.1 hi).2
  filter_upwards [h1 .tm, h1 .te] with t a b p i h1 h2
  cases p
  exacts [a i (Finset.mem_Icc.2 ⟨h1, h2⟩), b i (Finset.mem_Icc.2 ⟨h1, h2⟩)]

theorem stepClear_near {st : ℕ → E → HState} {st' : E → HState} {l : (E → ℂ) × (E → ℂ)} (hs : StAC n st st' e0)
    (hl1 : Sm l.1 e0) (hl2 : Sm l.2 e0)
    (h1 : KAC D L n (fun t => l.1 t * (st' t).x) e0) (h2 : KAC D L n (fun t => l.1 t * l.2 t) e0)
    (hc : StepClear L n (st' e0) (l.1 e0, l.2 e0)) : ∀ᶠ t in 𝓝 e0, StepClear L n (st' t) (l.1 t, l.2 t) := by
  have z1 := hl1.mul hs.xSm
  have z2 := hl1.mul hl2
  have hden : ∀ᶠ t in 𝓝 e0, ∀ p i, 1 ≤ i → i ≤ n → solverEps < ‖hDen L (st' t) (l.1 t, l.2 t) p i‖ := by
    refine all_orders fun p i hi1 hi => ?_
    have hH := hs.H p i hi1 hi
    have e1 := d3Fn_ac z1 h1 hc.prev hi
    have e3 := qFn_ac z1 z2 hs.xSm hl2 h1 h2 hc.prev hc.curr hc.q i hi
    have P := AC.of_sm (polP_sm (p := p) hs.mSm hl1)
    have Q := AC.of_sm (polQ_sm (p := p) hs.mSm hl1)
    have g1 := (P.mul hH).sub (Q.mul (h1 i hi))
    have g2 := (P.mul hH).sub (Q.mul e1)
    exact (g2.sub (e3.mul g1)).near (hc.den p i hi1 hi)
  filter_upwards [kernelClear_near z1 h1 hc.prev, kernelClear_near z2 h2 hc.curr,
    qClear_near z1 z2 hl2 h1 hc.prev hc.q, hden] with t a b c d
  exact ⟨a, b, c, d⟩

theorem finalClear_near {st : ℕ → E → HState} {st' : E → HState} (hs : StAC n st st' e0) (hm : (st' e0).m ≠ 0)
    (hx : KAC D L n (fun t => (st' t).x) e0) (hc : FinalClear L n (st' e0)) : ∀ᶠ t in 𝓝 e0, FinalClear L n (st' t) := by
  have hg := (AC.of_sm hs.xSm).guard hc.host.arg
  have hg0 := guard_ne hc.host.arg
  have hzeta : ∀ k ≤ n, AC (fun N t => zetaFn (D N) (st' t).x k) (fun t => zetaFn L (st' t).x k) e0 :=
    prodSeq_ac (sm_zeta0 hs.xSm) hg hg0 (fun k hk => d3Fn_ac hs.xSm hx hc.host hk)
  have hden : ∀ᶠ t in 𝓝 e0, ∀ p i, 1 ≤ i → i ≤ n → solverEps <
      ‖(polOut p (st' t).m ((st' t).H p i) + (i : ℂ) / (st' t).x) * zetaFn L (st' t).x i - zetaFn L (st' t).x (i - 1)‖ := by
    refine all_orders fun p i hi1 hi => ?_
    have hH := hs.H p i hi1 hi
    have hO : AC (fun N t => polOut p (st' t).m ((st N t).H p i)) (fun t => polOut p (st' t).m ((st' t).H p i)) e0 := by
      cases p
      · exact hH.div (AC.of_sm hs.mSm) hm
      · exact (AC.of_sm hs.mSm).mul hH
    have hT := hO.add ((AC.const (i : ℂ) e0).div (AC.of_sm hs.xSm) (ne_of_clear hc.host.arg))
    exact ((hT.mul (hzeta i hi)).sub (hzeta (i - 1) (by omega))).near (hc.den p i hi1 hi)
  filter_upwards [kernelClear_near hs.xSm hx hc.host, hden] with t a b
  exact ⟨a, b⟩

theorem runClear_near : ∀ (rest : LayerFam E) (st : ℕ → E → HState) (st' : E → HState), StAC n st st' e0 → (st' e0).m ≠ 0 →
      (∀ l ∈ rest, Sm l.1 e0 ∧ Sm l.2 e0 ∧ l.1 e0 ≠ 0) →
      (∀ z : E → ℂ, Sm z e0 → z e0 ∈ runArgs (st' e0).x (rest.at' e0) → KAC D L n z e0) →
      RunClear L n (st' e0) (rest.at' e0) → ∀ᶠ t in 𝓝 e0, RunClear L n (st' t) (rest.at' t) := by
  intro rest
  induction rest with
  | nil =>
    intro st st' hs hm _ ha hc
    exact finalClear_near hs hm (ha _ hs.xSm (by simp [runArgs, LayerFam.at'])) hc
  | cons l rest ih =>
    intro st st' hs hm hl ha hc
    obtain ⟨sc, hc⟩ := hc
    obtain ⟨l1, l2, l0⟩ := hl l (by simp)
    have a1 := ha _ (l1.mul hs.xSm) (by simp [runArgs, LayerFam.at'])
    have a2 := ha _ (l1.mul l2) (by simp [runArgs, LayerFam.at'])
    have h2 := ih _ _ (hStep_ac hs l1 l2 a1 a2 sc) l0 (fun k hk => hl k (by simp [hk])) (by
      intro z hz hmem
      refine ha z hz ?_
      simp only [LayerFam.at', List.map_cons, runArgs, List.mem_cons]
      right; right
      exact hmem) hc
    filter_upwards [stepClear_near hs l1 l2 a1 a2 sc, h2] with t b1 b2
    exact ⟨b1, b2⟩

theorem sm_of_contDiff {f : E → ℂ} (h : ContDiffAt ℂ ω f e0) : Sm f e0 :=
  (h.eventually (by simp)).mono fun _ ht => ht.differentiableAt (by simp)

/-- No guard fires for nearby parameters either. -/
theorem solverClear_near {ls : LayerFam E} (hl : ls.OK ℂ e0)
    (hd : ∀ z ∈ kernelArgs (ls.at' e0), D1Clear z) (hc : SolverClear idealFn n (ls.at' e0)) :
    ∀ᶠ t in 𝓝 e0, SolverClear idealFn n (ls.at' t) := by
  cases ls with
  | nil => exact hc.elim
  | cons l rest =>
    obtain ⟨l1, l2, l0, -⟩ := hl l (by simp)
    have l1 := sm_of_contDiff l1
    have l2 := sm_of_contDiff l2
    have ka : ∀ z : E → ℂ, Sm z e0 → z e0 ∈ kernelArgs (LayerFam.at' (l :: rest) e0) → KAC (depthFn n) idealFn n z e0 :=
      fun z hz hm k _ => (depthFn_ac n (hd _ hm) k).comp hz
    have k0 := ka _ (l1.mul l2) (by simp [kernelArgs, LayerFam.at'])
    have h2 := runClear_near rest (fun N t => hInit (depthFn n N) (l.1 t, l.2 t)) (fun t => hInit idealFn (l.1 t, l.2 t))
      ⟨fun _ _ => rfl, fun _ _ => rfl, l1, l2, fun p i _ hi => k0 i hi⟩ l0 (fun k hk => by
        obtain ⟨a, b, c, -⟩ := hl k (by simp [hk])
        exact ⟨sm_of_contDiff a, sm_of_contDiff b, c⟩) (fun z hz hm => by
          refine ka z hz ?_
          simp only [LayerFam.at', List.map_cons, kernelArgs, List.mem_cons]
          right
          exact hm) hc.2
    filter_upwards [kernelClear_near (l1.mul l2) k0 hc.1, h2] with t b1 b2
    exact ⟨b1, b2⟩

end MieDiff
