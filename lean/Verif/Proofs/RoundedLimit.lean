import Verif.Proofs.Rounded
import Verif.Proofs.Pipeline

/-!
# The solver as the rounding error tends to zero
-/

namespace MieDiff

open Complex Spec Filter Topology

/-- A sequence of arithmetics whose rounding error tends to zero. -/
def Refining (A : ℕ → Arith) : Prop := ∃ u : ℕ → ℝ, Tendsto u atTop (𝓝 0) ∧ ∀ k, (A k).Within (u k)

theorem Arith.Within.nonneg {A : Arith} {u : ℝ} (h : A.Within u) : 0 ≤ u := by
  have := h.add 1 0
  have h0 := (norm_nonneg _).trans this
  simpa using h0

theorem rel_limit {f g : ℕ → ℂ} {u : ℕ → ℝ} {l : ℂ} (hu : Tendsto u atTop (𝓝 0)) (hg : Tendsto g atTop (𝓝 l))
    (h : ∀ᶠ k in atTop, ‖f k - g k‖ ≤ u k * ‖g k‖) : Tendsto f atTop (𝓝 l) := by
  have h1 : Tendsto (fun k => u k * ‖g k‖) atTop (𝓝 0) := by simpa using hu.mul hg.norm
  have h2 := squeeze_zero_norm' h h1
  simpa using h2.add hg

namespace Refining

variable {A : ℕ → Arith} {f g : ℕ → ℂ} {a b : ℂ}

theorem add (hA : Refining A) (hf : Tendsto f atTop (𝓝 a)) (hg : Tendsto g atTop (𝓝 b)) :
    Tendsto (fun k => (A k).add (f k) (g k)) atTop (𝓝 (a + b)) := by
  obtain ⟨u, hu, h⟩ := hA
  exact rel_limit hu (hf.add hg) (Eventually.of_forall fun k => (h k).add _ _)

theorem sub (hA : Refining A) (hf : Tendsto f atTop (𝓝 a)) (hg : Tendsto g atTop (𝓝 b)) :
    Tendsto (fun k => (A k).sub (f k) (g k)) atTop (𝓝 (a - b)) := by
  obtain ⟨u, hu, h⟩ := hA
  exact rel_limit hu (hf.sub hg) (Eventually.of_forall fun k => (h k).sub _ _)

theorem mul (hA : Refining A) (hf : Tendsto f atTop (𝓝 a)) (hg : Tendsto g atTop (𝓝 b)) :
    Tendsto (fun k => (A k).mul (f k) (g k)) atTop (𝓝 (a * b)) := by
  obtain ⟨u, hu, h⟩ := hA
  exact rel_limit hu (hf.mul hg) (Eventually.of_forall fun k => (h k).mul _ _)

theorem div (hA : Refining A) (hf : Tendsto f atTop (𝓝 a)) (hg : Tendsto g atTop (𝓝 b)) (hb : b ≠ 0) :
    Tendsto (fun k => (A k).div (f k) (g k)) atTop (𝓝 (a / b)) := by
  obtain ⟨u, hu, h⟩ := hA
  exact rel_limit hu (hf.div hg hb) ((hg.eventually_ne hb).mono fun k hk => (h k).div _ _ hk)

theorem exp (hA : Refining A) (hf : Tendsto f atTop (𝓝 a)) :
    Tendsto (fun k => (A k).exp (f k)) atTop (𝓝 (Complex.exp a)) := by
  obtain ⟨u, hu, h⟩ := hA
  exact rel_limit hu ((Complex.continuous_exp.tendsto a).comp hf) (Eventually.of_forall fun k => (h k).exp _)

theorem sin (hA : Refining A) (hf : Tendsto f atTop (𝓝 a)) :
    Tendsto (fun k => (A k).sin (f k)) atTop (𝓝 (Complex.sin a)) := by
  obtain ⟨u, hu, h⟩ := hA
  exact rel_limit hu ((Complex.continuous_sin.tendsto a).comp hf) (Eventually.of_forall fun k => (h k).sin _)

theorem cos (hA : Refining A) (hf : Tendsto f atTop (𝓝 a)) :
    Tendsto (fun k => (A k).cos (f k)) atTop (𝓝 (Complex.cos a)) := by
  obtain ⟨u, hu, h⟩ := hA
  exact rel_limit hu ((Complex.continuous_cos.tendsto a).comp hf) (Eventually.of_forall fun k => (h k).cos _)

theorem sqrt (hA : Refining A) (e : ℂ) : Tendsto (fun k => (A k).sqrt e) atTop (𝓝 (csqrt e)) := by
  obtain ⟨u, hu, h⟩ := hA
  exact rel_limit hu tendsto_const_nhds (Eventually.of_forall fun k => (h k).sqrt _)

theorem abs (hA : Refining A) (hf : Tendsto f atTop (𝓝 a)) : Tendsto (fun k => (A k).abs (f k)) atTop (𝓝 ‖a‖) := by
  obtain ⟨u, hu, h⟩ := hA
  have h1 : Tendsto (fun k => u k * ‖f k‖) atTop (𝓝 0) := by simpa using hu.mul hf.norm
  have h2 := squeeze_zero_norm (fun k => (by simpa using (h k).abs (f k) : ‖(A k).abs (f k) - ‖f k‖‖ ≤ u k * ‖f k‖)) h1
  simpa using h2.add hf.norm

theorem pi (hA : Refining A) : Tendsto (fun k => (A k).pi) atTop (𝓝 Real.pi) := by
  obtain ⟨u, hu, h⟩ := hA
  have h1 : Tendsto (fun k => u k * Real.pi) atTop (𝓝 0) := by simpa using hu.mul_const Real.pi
  have h2 := squeeze_zero_norm (fun k => (by simpa using (h k).pi : ‖(A k).pi - Real.pi‖ ≤ u k * Real.pi)) h1
  simpa using h2.add_const Real.pi

theorem sum_map {ι : Type*} {F : ℕ → ι → ℂ} {G : ι → ℂ} :
    ∀ (l : List ι), (∀ i ∈ l, Tendsto (fun k => F k i) atTop (𝓝 (G i))) →
      Tendsto (fun k => (l.map (F k)).sum) atTop (𝓝 (l.map G).sum) ∧
      Tendsto (fun k => ((l.map (F k)).map fun x => ‖x‖).sum) atTop (𝓝 ((l.map G).map fun x => ‖x‖).sum)
  | [], _ => by simp
  | i :: l, h => by
    obtain ⟨h1, h2⟩ := sum_map l fun j hj => h j (List.mem_cons_of_mem _ hj)
    have h0 := h i (by simp)
    simp only [List.map_cons, List.sum_cons]
    exact ⟨h0.add h1, h0.norm.add h2⟩

theorem sum (hA : Refining A) {ι : Type*} {F : ℕ → ι → ℂ} {G : ι → ℂ} (l : List ι)
    (hF : ∀ i ∈ l, Tendsto (fun k => F k i) atTop (𝓝 (G i))) :
    Tendsto (fun k => (A k).sum (l.map (F k))) atTop (𝓝 (l.map G).sum) := by
  obtain ⟨u, hu, h⟩ := hA
  obtain ⟨s1, s2⟩ := sum_map l hF
  have h1 : Tendsto (fun k => u k * (l.length : ℝ) * ((l.map (F k)).map fun x => ‖x‖).sum) atTop (𝓝 0) := by
    simpa using (hu.mul_const (l.length : ℝ)).mul s2
  have h2 : Tendsto (fun k => (A k).sum (l.map (F k)) - (l.map (F k)).sum) atTop (𝓝 0) := by
    refine squeeze_zero_norm (fun k => ?_) h1
    have := (h k).sum (l.map (F k))
    rwa [List.length_map] at this
  simpa using h2.add s1

theorem guard (hA : Refining A) (hf : Tendsto f atTop (𝓝 a)) (ha : solverEps < ‖a‖) :
    Tendsto (fun k => (A k).guard (f k)) atTop (𝓝 a) := by
  refine hf.congr' ?_
  filter_upwards [(hA.abs hf).eventually (lt_mem_nhds ha)] with k hk
  unfold Arith.guard
  rw [if_neg (not_lt.2 hk.le)]

end Refining

/-! ## The kernel -/

/-- Convergence of the rounded log-derivatives at `z`, also for perturbed arguments. -/
def KRound (A : ℕ → Arith) (N : ℕ → ℕ) (E : ℂ → ℕ → ℂ) (n : ℕ) (z : ℂ) : Prop :=
  ∀ zk : ℕ → ℂ, Tendsto zk atTop (𝓝 z) → ∀ j ≤ n, Tendsto (fun k => (A k).d1 n (N k) (zk k) j) atTop (𝓝 (E z j))

variable {A : ℕ → Arith} {N : ℕ → ℕ} {E : ℂ → ℕ → ℂ} {n : ℕ}

theorem logD1_continuousAt (p : ℕ) {z : ℂ} (hz : z ≠ 0) (h : ricPsi p z ≠ 0) : ContinuousAt (logD1 p) z := by
  have h1 : ∀ᶠ w in 𝓝 z, w ≠ 0 := isOpen_ne.mem_nhds hz
  have h2 : logD1 p =ᶠ[𝓝 z] fun w => (((p : ℂ) + 1) / w * ricPsi p w - ricPsi (p + 1) w) / ricPsi p w := by
    filter_upwards [h1] with w hw
    unfold logD1
    rw [deriv_ricPsi_raise p hw]
  have c : ∀ q, ContinuousAt (ricPsi q) z := fun q => (hasDerivAt_ricPsi q hz).continuousAt
  exact ((((continuousAt_const.div continuousAt_id hz).mul (c p)).sub (c (p + 1))).div (c p) h).congr h2.symm

/-- Growing depth: the exact logarithmic derivative. -/
theorem d1_refines (hA : Refining A) (hN : Tendsto N atTop atTop) {z : ℂ} (h : D1Clear z) : KRound A N idealFn n z := by
  intro zk hzk
  have hz : z ≠ 0 := ne_of_clear h.arg
  have hzp : 0 < ‖z‖ := norm_pos_iff.2 hz
  have hzs : Tendsto (fun k => (A k).guard (zk k)) atTop (𝓝 z) := hA.guard hzk h.arg
  have hM : Tendsto (fun k => n + N k) atTop atTop := tendsto_atTop_mono (fun k => Nat.le_add_left _ _) hN
  obtain ⟨p0, hp0⟩ : ∃ p0 : ℕ, 4 * ‖z‖ < p0 + 1 := by
    obtain ⟨m, hm⟩ := exists_nat_gt (4 * ‖z‖)
    exact ⟨m, by linarith⟩
  have top : ∀ p, p0 ≤ p → Tendsto (fun k => (A k).d1Down ((A k).guard (zk k)) (n + N k) (n + N k - p)) atTop (𝓝 (logD1 p z)) := by
    intro p hp
    have hp' : 4 * ‖z‖ < p + 1 := by
      have : (p0 : ℝ) ≤ p := by exact_mod_cast hp
      linarith
    have hpsi := (ricPsi_ratio p hz (by linarith)).1
    have hcont : Tendsto (fun k => logD1 p ((A k).guard (zk k))) atTop (𝓝 (logD1 p z)) :=
      (logD1_continuousAt p hz hpsi).tendsto.comp hzs
    obtain ⟨u, hu, hw⟩ := hA
    have hb : Tendsto (fun k => ((1 : ℝ) / 6) ^ (n + N k - (p + 1)) + 6 * u k * ((p + 2) / ‖(A k).guard (zk k)‖)) atTop
        (𝓝 (0 + 6 * 0 * ((p + 2) / ‖z‖))) := by
      refine Tendsto.add ?_ ((hu.const_mul 6).mul (tendsto_const_nhds.div hzs.norm hzp.ne'))
      exact (tendsto_pow_atTop_nhds_zero_of_lt_one (by norm_num) (by norm_num)).comp
        ((tendsto_sub_atTop_nat (p + 1)).comp hM)
    rw [mul_zero, zero_mul, add_zero] at hb
    have hd : Tendsto (fun k => (A k).d1Down ((A k).guard (zk k)) (n + N k) (n + N k - p) - logD1 p ((A k).guard (zk k))) atTop
        (𝓝 0) := by
      refine squeeze_zero_norm' ?_ hb
      filter_upwards [hzs.eventually_ne hz, hu.eventually (gt_mem_nhds (by norm_num : (0 : ℝ) < 1 / 100)),
        hM.eventually (eventually_ge_atTop (p + 1)),
        (hzs.norm.const_mul 4).eventually (gt_mem_nhds hp')] with k k1 k2 k3 k4
      exact Arith.d1_error (hw k) (hw k).nonneg k2.le k1 _ _ p (by omega) k4.le
    simpa using hd.add hcont
  have all : ∀ i p, p + i = max p0 p →
      Tendsto (fun k => (A k).d1Down ((A k).guard (zk k)) (n + N k) (n + N k - p)) atTop (𝓝 (logD1 p z)) := by
    intro i
    induction i with
    | zero => intro p hp; exact top p (by omega)
    | succ i ih =>
      intro p hp
      have hi := ih (p + 1) (by omega)
      have hc := h.ratio p
      have hadd := logD1_add p hz (h.psi (p + 1))
      have hnum : Tendsto (fun k => (A k).div ((p + 1 : ℕ) : ℂ) ((A k).guard (zk k))) atTop (𝓝 (((p : ℂ) + 1) / z)) := by
        have := hA.div (tendsto_const_nhds (x := ((p + 1 : ℕ) : ℂ))) hzs hz
        simpa using this
      have hden := hA.add hi hnum
      rw [hadd] at hden
      have hq := hA.sub hnum (hA.div (tendsto_const_nhds (x := (1 : ℂ))) (hA.guard hden hc) (ne_of_clear hc))
      rw [logD1_step p hz (h.psi p) (h.psi (p + 1)), hadd]
      refine hq.congr' ?_
      filter_upwards [hM.eventually (eventually_ge_atTop (p + 1))] with k hk
      exact (Arith.d1Down_step (A k) _ (by omega)).symm
  intro j _
  exact all (max p0 j - j) j (by omega)

/-- No guard fires in the recurrence of fixed depth `M`. -/
structure DepthClear (M : ℕ) (z : ℂ) : Prop where
  arg : solverEps < ‖z‖
  den : ∀ p < M, solverEps < ‖d1Val z solverEps M (p + 1) + ((p + 1 : ℕ) : ℂ) / z‖

/-- Fixed depth: the truncated recurrence in exact arithmetic. -/
theorem d1_refines_depth (hA : Refining A) {N0 : ℕ} {z : ℂ} (h : DepthClear (n + N0) z) :
    KRound A (fun _ => N0) (depthFn n N0) n z := by
  intro zk hzk
  have hz : z ≠ 0 := ne_of_clear h.arg
  have hzs : Tendsto (fun k => (A k).guard (zk k)) atTop (𝓝 z) := hA.guard hzk h.arg
  have all : ∀ i p, p + i = n + N0 →
      Tendsto (fun k => (A k).d1Down ((A k).guard (zk k)) (n + N0) (n + N0 - p)) atTop (𝓝 (d1Val z solverEps (n + N0) p)) := by
    intro i
    induction i with
    | zero =>
      intro p hp
      rw [show p = n + N0 by omega]
      simp only [Nat.sub_self, Arith.d1Down, d1Val_top]
      exact tendsto_const_nhds
    | succ i ih =>
      intro p hp
      have hc := h.den p (by omega)
      have hnum := hA.div (tendsto_const_nhds (x := ((p + 1 : ℕ) : ℂ))) hzs hz
      have hq := hA.sub hnum (hA.div (tendsto_const_nhds (x := (1 : ℂ))) (hA.guard (hA.add (ih (p + 1) (by omega)) hnum) hc)
        (ne_of_clear hc))
      rw [d1Val_step z solverEps (by omega), guardAdd_of_le hc.le]
      refine hq.congr fun k => ?_
      exact (Arith.d1Down_step (A k) _ (by omega)).symm
  intro j hj
  unfold depthFn
  rw [guardAdd_of_le h.arg.le]
  exact all (n + N0 - j) j (by omega)

/-! ## The solver -/

theorem pzD3_refines (hA : Refining A) {z : ℂ} (h : KernelClear E n z) {zk : ℕ → ℂ} (hzk : Tendsto zk atTop (𝓝 z))
    {D : ℕ → ℕ → ℂ} (hD : ∀ j ≤ n, Tendsto (fun k => D k j) atTop (𝓝 (E z j))) :
    ∀ j ≤ n, Tendsto (fun k => ((A k).pzD3 (zk k) (D k) j).1) atTop (𝓝 (pzD3 z z solverEps (E z) j).1) ∧
      Tendsto (fun k => ((A k).pzD3 (zk k) (D k) j).2) atTop (𝓝 (pzD3 z z solverEps (E z) j).2) := by
  have hz : z ≠ 0 := ne_of_clear h.arg
  have hzs := hA.guard hzk h.arg
  intro j
  induction j with
  | zero =>
    intro _
    simp only [pzD3, Arith.pzD3]
    exact ⟨hA.mul tendsto_const_nhds (hA.sub tendsto_const_nhds (hA.exp (hA.mul tendsto_const_nhds hzk))), tendsto_const_nhds⟩
  | succ j ih =>
    intro hj
    obtain ⟨i1, i2⟩ := ih (by omega)
    have hq := hA.div (tendsto_const_nhds (x := ((j + 1 : ℕ) : ℂ))) hzs hz
    have h1 : Tendsto (fun k => ((A k).pzD3 (zk k) (D k) (j + 1)).1) atTop (𝓝 (pzD3 z z solverEps (E z) (j + 1)).1) :=
      hA.mul (hA.mul i1 (hA.sub hq (hD j (by omega)))) (hA.sub hq i2)
    refine ⟨h1, ?_⟩
    have hc := h.prod (j + 1) (by omega) hj
    have e : (pzD3 z z solverEps (E z) (j + 1)).2 = E z (j + 1) + I / (pzD3 z z solverEps (E z) (j + 1)).1 := by
      conv_rhs => rw [← guardAdd_of_le hc.le]
      rfl
    rw [e]
    exact hA.add (hD (j + 1) hj) (hA.div tendsto_const_nhds (hA.guard h1 hc) (ne_of_clear hc))

theorem d3_refines (hA : Refining A) {z : ℂ} (h : KernelClear E n z) {zk : ℕ → ℂ} (hzk : Tendsto zk atTop (𝓝 z))
    {D : ℕ → ℕ → ℂ} (hD : ∀ j ≤ n, Tendsto (fun k => D k j) atTop (𝓝 (E z j))) {j : ℕ} (hj : j ≤ n) :
    Tendsto (fun k => (A k).d3 (zk k) (D k) j) atTop (𝓝 (d3Fn E z j)) := by
  unfold d3Fn d3Val
  rw [guardAdd_of_le h.arg.le]
  exact (pzD3_refines hA h hzk hD j hj).2

theorem prodSeq_refines (hA : Refining A) {z f0 : ℂ} (hz : solverEps < ‖z‖) {zk fk : ℕ → ℂ} (hzk : Tendsto zk atTop (𝓝 z))
    (hf : Tendsto fk atTop (𝓝 f0)) {D : ℕ → ℕ → ℂ} {G : ℕ → ℂ} (hD : ∀ j ≤ n, Tendsto (fun k => D k j) atTop (𝓝 (G j))) :
    ∀ j ≤ n, Tendsto (fun k => (A k).prodSeq (fk k) (zk k) (D k) j) atTop (𝓝 (prodSeq f0 (guardAdd solverEps z) G j)) := by
  rw [guardAdd_of_le hz.le]
  intro j
  induction j with
  | zero => intro _; exact hf
  | succ j ih =>
    intro hj
    exact hA.mul (ih (by omega)) (hA.sub (hA.div tendsto_const_nhds (hA.guard hzk hz) (ne_of_clear hz)) (hD j (by omega)))

theorem tendsto_re {f : ℕ → ℂ} {a : ℂ} (h : Tendsto f atTop (𝓝 a)) : Tendsto (fun k => ((f k).re : ℂ)) atTop (𝓝 (a.re : ℂ)) :=
  ((continuous_ofReal.comp continuous_re).tendsto a).comp h

theorem tendsto_im {f : ℕ → ℂ} {a : ℂ} (h : Tendsto f atTop (𝓝 a)) : Tendsto (fun k => ((f k).im : ℂ)) atTop (𝓝 (a.im : ℂ)) :=
  ((continuous_ofReal.comp continuous_im).tendsto a).comp h

theorem q_refines (hA : Refining A) {z1 z2 x1 x2 : ℂ} {z1k z2k x1k x2k : ℕ → ℂ} (c1 : KernelClear E n z1)
    (c2 : KernelClear E n z2) (h : QClear E n z1 z2 x2) (hz1 : Tendsto z1k atTop (𝓝 z1)) (hz2 : Tendsto z2k atTop (𝓝 z2))
    (hx1 : Tendsto x1k atTop (𝓝 x1)) (hx2 : Tendsto x2k atTop (𝓝 x2)) {D1 D2 : ℕ → ℕ → ℂ}
    (h1 : ∀ j ≤ n, Tendsto (fun k => D1 k j) atTop (𝓝 (E z1 j))) (h2 : ∀ j ≤ n, Tendsto (fun k => D2 k j) atTop (𝓝 (E z2 j))) :
    ∀ j ≤ n, Tendsto (fun k => (A k).q (z1k k) (z2k k) (x1k k) (x2k k) (D1 k) (D2 k) ((A k).d3 (z1k k) (D1 k))
      ((A k).d3 (z2k k) (D2 k)) j) atTop (𝓝 (qFn E z1 z2 x1 x2 j)) := by
  intro j
  induction j with
  | zero =>
    intro _
    simp only [qFn, qVal, Arith.q]
    rw [guardAdd_of_le h.den0.le]
    have e : ∀ {zk : ℕ → ℂ} {z : ℂ}, Tendsto zk atTop (𝓝 z) → Tendsto (fun k => (A k).sub
        ((A k).exp ((A k).mul (-2 * I) (zk k).re)) ((A k).exp ((A k).mul (-2) (zk k).im))) atTop
        (𝓝 (Complex.exp (-2 * I * z.re) - Complex.exp ((-2 * z.im : ℝ) : ℂ))) := by
      intro zk z hz
      have := hA.sub (hA.exp (hA.mul (tendsto_const_nhds (x := -2 * I)) (tendsto_re hz)))
        (hA.exp (hA.mul (tendsto_const_nhds (x := (-2 : ℂ))) (tendsto_im hz)))
      simpa using this
    have e2 : ((-2 * (z2.im - z1.im) : ℝ) : ℂ) = -2 * ((z2.im : ℂ) - z1.im) := by push_cast; ring
    rw [e2]
    exact hA.mul (hA.div (e hz1) (hA.guard (e hz2) h.den0) (ne_of_clear h.den0))
      (hA.exp (hA.mul tendsto_const_nhds (hA.sub (tendsto_im hz2) (tendsto_im hz1))))
  | succ j ih =>
    intro hj
    have hd := h.den j hj
    have hi := ih (by omega)
    simp only [qFn, qVal, Arith.q] at hi ⊢
    rw [guardAdd_of_le hd.le, guardAdd_of_le h.outer.le, sq]
    have hr := hA.div hx1 (hA.guard hx2 h.outer) (ne_of_clear h.outer)
    have f : ∀ {zk : ℕ → ℂ} {z : ℂ} {D : ℕ → ℕ → ℂ}, KernelClear E n z → Tendsto zk atTop (𝓝 z) →
        (∀ j ≤ n, Tendsto (fun k => D k j) atTop (𝓝 (E z j))) → Tendsto (fun k =>
        (A k).mul ((A k).add ((A k).mul (zk k) (D k (j + 1))) ((j + 1 : ℕ) : ℂ))
          ((A k).sub ((j + 1 : ℕ) : ℂ) ((A k).mul (zk k) ((A k).d3 (zk k) (D k) j)))) atTop
        (𝓝 ((z * E z (j + 1) + (j + 1 : ℕ)) * ((j + 1 : ℕ) - z * d3Fn E z j))) := by
      intro zk z D c hz hD
      exact hA.mul (hA.add (hA.mul hz (hD _ hj)) tendsto_const_nhds)
        (hA.sub tendsto_const_nhds (hA.mul hz (d3_refines hA c hz hD (by omega))))
    exact hA.mul (hA.mul hi (hA.mul hr hr)) (hA.div (f c2 hz2 h2) (hA.guard (f c1 hz1 h1) hd) (ne_of_clear hd))

/-- `H_a` or `H_b`. -/
def Arith.State.H (st : Arith.State) : Pol → ℕ → ℂ
  | .tm => st.Ha
  | .te => st.Hb

/-- Convergence of states. -/
structure StRound (n : ℕ) (st : ℕ → Arith.State) (st' : HState) : Prop where
  m : Tendsto (fun k => (st k).m) atTop (𝓝 st'.m)
  x : Tendsto (fun k => (st k).x) atTop (𝓝 st'.x)
  H : ∀ p i, 1 ≤ i → i ≤ n → Tendsto (fun k => (st k).H p i) atTop (𝓝 (st'.H p i))

theorem step_refines (hA : Refining A) {st : ℕ → Arith.State} {st' : HState} {lk : ℕ → ℂ × ℂ} {l : ℂ × ℂ}
    (hs : StRound n st st') (hl1 : Tendsto (fun k => (lk k).1) atTop (𝓝 l.1)) (hl2 : Tendsto (fun k => (lk k).2) atTop (𝓝 l.2))
    (h1 : KRound A N E n (l.1 * st'.x)) (h2 : KRound A N E n (l.1 * l.2)) (hc : StepClear E n st' l) :
    StRound n (fun k => (A k).step n (N k) (st k) (lk k)) (hStep E st' l) := by
  refine ⟨hl1, hl2, ?_⟩
  intro p i hi1 hi
  have hzp := hA.mul hl1 hs.x
  have hzc := hA.mul hl1 hl2
  have d1 := h1 _ hzp
  have d2 := h2 _ hzc
  have e1 := d3_refines hA hc.prev hzp d1 hi
  have e2 := d3_refines hA hc.curr hzc d2 hi
  have e3 := q_refines hA hc.prev hc.curr hc.q hzp hzc hs.x hl2 d1 d2 i hi
  have hH := hs.H p i hi1 hi
  have hd := hc.den p i hi1 hi
  have key : ∀ {P Q : ℕ → ℂ}, Tendsto P atTop (𝓝 (polP p st'.m l.1)) → Tendsto Q atTop (𝓝 (polQ p st'.m l.1)) →
      Tendsto (fun k => (A k).update (P k) (Q k) ((st k).H p i) ((A k).d1 n (N k) ((A k).mul (lk k).1 (st k).x) i)
        ((A k).d3 ((A k).mul (lk k).1 (st k).x) ((A k).d1 n (N k) ((A k).mul (lk k).1 (st k).x)) i)
        ((A k).d1 n (N k) ((A k).mul (lk k).1 (lk k).2) i)
        ((A k).d3 ((A k).mul (lk k).1 (lk k).2) ((A k).d1 n (N k) ((A k).mul (lk k).1 (lk k).2)) i)
        ((A k).q ((A k).mul (lk k).1 (st k).x) ((A k).mul (lk k).1 (lk k).2) (st k).x (lk k).2
          ((A k).d1 n (N k) ((A k).mul (lk k).1 (st k).x)) ((A k).d1 n (N k) ((A k).mul (lk k).1 (lk k).2))
          ((A k).d3 ((A k).mul (lk k).1 (st k).x) ((A k).d1 n (N k) ((A k).mul (lk k).1 (st k).x)))
          ((A k).d3 ((A k).mul (lk k).1 (lk k).2) ((A k).d1 n (N k) ((A k).mul (lk k).1 (lk k).2))) i)) atTop
        (𝓝 ((hStep E st' l).H p i)) := by
    intro P Q hP hQ
    have g1 := hA.sub (hA.mul hP hH) (hA.mul hQ (d1 i hi))
    have g2 := hA.sub (hA.mul hP hH) (hA.mul hQ e1)
    unfold hDen at hd
    simp only [hStep, hUpdate]
    rw [guardAdd_of_le hd.le]
    exact hA.div (hA.sub (hA.mul g2 (d2 i hi)) (hA.mul (hA.mul e3 g1) e2)) (hA.guard (hA.sub g2 (hA.mul e3 g1)) hd)
      (ne_of_clear hd)
  cases p
  · exact key hl1 hs.m
  · exact key hs.m hl1

theorem final_refines (hA : Refining A) {st : ℕ → Arith.State} {st' : HState} (hs : StRound n st st')
    (hx : KRound A N E n st'.x) (hm : st'.m ≠ 0) (hc : FinalClear E n st') {i : ℕ} (h1 : 1 ≤ i) (hi : i ≤ n) :
    Tendsto (fun k => ((A k).coefs n (N k) (st k) i).1) atTop (𝓝 (coefFn E .tm st' i)) ∧
      Tendsto (fun k => ((A k).coefs n (N k) (st k) i).2) atTop (𝓝 (coefFn E .te st' i)) := by
  have ha := hc.host.arg
  have d1 := hx _ hs.x
  have hpsi := prodSeq_refines hA ha hs.x (hA.sin hs.x) d1
  have hzeta := prodSeq_refines hA ha hs.x (hA.sub (hA.sin hs.x) (hA.mul (tendsto_const_nhds (x := I)) (hA.cos hs.x)))
    (G := d3Fn E st'.x) (fun j hj => d3_refines hA hc.host hs.x d1 hj)
  have hix := hA.div (tendsto_const_nhds (x := (i : ℂ))) (hA.guard hs.x ha) (ne_of_clear ha)
  have key : ∀ (p : Pol) {T : ℕ → ℂ}, Tendsto T atTop (𝓝 (polOut p st'.m (st'.H p i) + (i : ℂ) / st'.x)) →
      Tendsto (fun k => (A k).final (T k) ((A k).prodSeq ((A k).sin (st k).x) (st k).x ((A k).d1 n (N k) (st k).x) i)
        ((A k).prodSeq ((A k).sin (st k).x) (st k).x ((A k).d1 n (N k) (st k).x) (i - 1))
        ((A k).prodSeq ((A k).sub ((A k).sin (st k).x) ((A k).mul I ((A k).cos (st k).x))) (st k).x
          ((A k).d3 (st k).x ((A k).d1 n (N k) (st k).x)) i)
        ((A k).prodSeq ((A k).sub ((A k).sin (st k).x) ((A k).mul I ((A k).cos (st k).x))) (st k).x
          ((A k).d3 (st k).x ((A k).d1 n (N k) (st k).x)) (i - 1))) atTop (𝓝 (coefFn E p st' i)) := by
    intro p T hT
    have hd := hc.den p i h1 hi
    unfold coefFn finalCoef
    rw [guardAdd_of_le ha.le, guardAdd_of_le hd.le]
    exact hA.div (hA.sub (hA.mul hT (hpsi i hi)) (hpsi (i - 1) (by omega)))
      (hA.guard (hA.sub (hA.mul hT (hzeta i hi)) (hzeta (i - 1) (by omega))) hd) (ne_of_clear hd)
  exact ⟨key .tm (hA.add (hA.div (hs.H .tm i h1 hi) hs.m hm) hix), key .te (hA.add (hA.mul hs.m (hs.H .te i h1 hi)) hix)⟩

/-- Convergence of lists of layers. -/
inductive LRound : (ℕ → List (ℂ × ℂ)) → List (ℂ × ℂ) → Prop
  | nil : LRound (fun _ => []) []
  | cons {lk : ℕ → ℂ × ℂ} {l : ℂ × ℂ} {rk : ℕ → List (ℂ × ℂ)} {r : List (ℂ × ℂ)} :
      Tendsto (fun k => (lk k).1) atTop (𝓝 l.1) → Tendsto (fun k => (lk k).2) atTop (𝓝 l.2) → LRound rk r →
        LRound (fun k => lk k :: rk k) (l :: r)

theorem run_refines (hA : Refining A) {i : ℕ} (h1 : 1 ≤ i) (hi : i ≤ n) {rk : ℕ → List (ℂ × ℂ)} {rest : List (ℂ × ℂ)}
    (hr : LRound rk rest) : ∀ (st : ℕ → Arith.State) (st' : HState), StRound n st st' →
      (∀ z ∈ runArgs st'.x rest, KRound A N E n z) → st'.m ≠ 0 → (∀ l ∈ rest, l.1 ≠ 0) → RunClear E n st' rest →
      Tendsto (fun k => ((A k).coefs n (N k) ((rk k).foldl ((A k).step n (N k)) (st k)) i).1) atTop
        (𝓝 (coefFn E .tm (rest.foldl (hStep E) st') i)) ∧
      Tendsto (fun k => ((A k).coefs n (N k) ((rk k).foldl ((A k).step n (N k)) (st k)) i).2) atTop
        (𝓝 (coefFn E .te (rest.foldl (hStep E) st') i)) := by
  induction hr with
  | nil =>
    intro st st' hs ha hm _ hc
    exact final_refines hA hs (ha _ (by simp [runArgs])) hm hc h1 hi
  | @cons lk l rk r hl1 hl2 _ ih =>
    intro st st' hs ha hm hne hc
    obtain ⟨sc, hc⟩ := hc
    simp only [List.foldl_cons]
    exact ih _ _ (step_refines hA hs hl1 hl2 (ha _ (by simp [runArgs])) (ha _ (by simp [runArgs])) sc)
      (fun z hz => ha z (by simp only [runArgs, List.mem_cons]; right; right; exact hz)) (hne l (by simp))
      (fun l' hl' => hne l' (List.mem_cons_of_mem _ hl')) hc

theorem layers_refine (hA : Refining A) (p : Particle1) (h0 : csqrt p.epsEnv ≠ 0) :
    LRound (fun k => (A k).layers p) p.layers := by
  have he := hA.sqrt p.epsEnv
  have hk := hA.mul (tendsto_const_nhds (x := p.k0)) he
  have key : ∀ (es : List ℂ) (rs : List ℝ), LRound
      (fun k => (es.map fun e => (A k).div ((A k).sqrt e) ((A k).host p).1).zip
        (rs.map fun (r : ℝ) => (A k).mul ((A k).host p).2 (r : ℂ)))
      ((es.map fun e => csqrt e / csqrt p.epsEnv).zip (rs.map fun (r : ℝ) => p.k0 * csqrt p.epsEnv * (r : ℂ))) := by
    intro es
    induction es with
    | nil => intro rs; simpa using LRound.nil
    | cons e es ih =>
      intro rs
      cases rs with
      | nil => simpa using LRound.nil
      | cons r rs =>
        simp only [List.map_cons, List.zip_cons_cons]
        exact .cons (hA.div (hA.sqrt e) he h0) (hA.mul hk tendsto_const_nhds) (ih rs)
  exact key p.epsLayers p.rLayers

/-- The coefficients of the solver whose kernel is `E`. -/
theorem mie_refines (hA : Refining A) (p : Particle1) {l : ℂ × ℂ} {rest : List (ℂ × ℂ)} (hp : p.layers = l :: rest)
    (h0 : csqrt p.epsEnv ≠ 0) (hne : ∀ l' ∈ p.layers, l'.1 ≠ 0) (ha : ∀ z ∈ kernelArgs p.layers, KRound A N E n z)
    (hc : SolverClear E n p.layers) {i : ℕ} (h1 : 1 ≤ i) (hi : i ≤ n) :
    Tendsto (fun k => ((A k).mie n (N k) p i).1) atTop (𝓝 (coefFn E .tm (hFinal E l rest) i)) ∧
      Tendsto (fun k => ((A k).mie n (N k) p i).2) atTop (𝓝 (coefFn E .te (hFinal E l rest) i)) := by
  have hl := layers_refine hA p h0
  rw [hp] at hl hne ha hc
  have key : ∀ {lk : ℕ → List (ℂ × ℂ)} {l : ℂ × ℂ} {rest : List (ℂ × ℂ)}, LRound lk (l :: rest) →
      (∀ l' ∈ l :: rest, l'.1 ≠ 0) → (∀ z ∈ kernelArgs (l :: rest), KRound A N E n z) → SolverClear E n (l :: rest) →
      Tendsto (fun k => (match lk k with
        | [] => ((0 : ℂ), (0 : ℂ))
        | l :: rest => (A k).coefs n (N k) (rest.foldl ((A k).step n (N k)) ((A k).init n (N k) l)) i).1) atTop
          (𝓝 (coefFn E .tm (hFinal E l rest) i)) ∧
      Tendsto (fun k => (match lk k with
        | [] => ((0 : ℂ), (0 : ℂ))
        | l :: rest => (A k).coefs n (N k) (rest.foldl ((A k).step n (N k)) ((A k).init n (N k) l)) i).2) atTop
          (𝓝 (coefFn E .te (hFinal E l rest) i)) := by
    intro lk l rest hl hne ha hc
    cases hl with
    | cons a b c =>
      refine run_refines hA h1 hi c _ (hInit E l) ⟨a, b, ?_⟩ ?_ (hne l (by simp))
        (fun l' hl' => hne l' (List.mem_cons_of_mem _ hl')) hc.2
      · intro p i _ hi
        have := ha (l.1 * l.2) (by simp [kernelArgs]) _ (hA.mul a b) i hi
        cases p <;> exact this
      · intro z hz
        exact ha z (by simp only [kernelArgs, List.mem_cons]; right; exact hz)
  exact key hl hne ha hc

end MieDiff
