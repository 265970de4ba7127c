import Verif.Proofs.Solver

/-!
# The solver depends continuously on the log-derivative kernel

If kernels `D N` converge to `D∞` at the arguments the solver uses and no guard fires for `D∞`, the
coefficients converge.
-/

namespace MieDiff

open Complex Spec Filter Topology

variable {D : ℕ → ℂ → ℕ → ℂ} {E : ℂ → ℕ → ℂ} {n : ℕ}

/-- Convergence at argument `z` for orders `0..n`. -/
def KConv (D : ℕ → ℂ → ℕ → ℂ) (E : ℂ → ℕ → ℂ) (n : ℕ) (z : ℂ) : Prop :=
  ∀ k ≤ n, Tendsto (fun N => D N z k) atTop (𝓝 (E z k))

theorem tendsto_guard {f : ℕ → ℂ} {w : ℂ} (hf : Tendsto f atTop (𝓝 w)) (h : solverEps < ‖w‖) :
    Tendsto (fun N => guardAdd solverEps (f N)) atTop (𝓝 w) := by
  have := (guardAdd_continuousAt h).tendsto.comp hf
  rw [guardAdd_of_le h.le] at this
  exact this

theorem ne_of_clear {w : ℂ} (h : solverEps < ‖w‖) : w ≠ 0 := by
  rintro rfl; simp at h; linarith [solverEps_pos]

theorem pzD3_conv {z : ℂ} (hD : KConv D E n z) (h : KernelClear E n z) :
    ∀ k ≤ n, Tendsto (fun N => (pzD3 z z solverEps (D N z) k).1) atTop (𝓝 (pzD3 z z solverEps (E z) k).1) ∧
      Tendsto (fun N => (pzD3 z z solverEps (D N z) k).2) atTop (𝓝 (pzD3 z z solverEps (E z) k).2) := by
  intro k
  induction k with
  | zero => intro _; simp only [pzD3]; exact ⟨tendsto_const_nhds, tendsto_const_nhds⟩
  | succ k ih =>
    intro hk
    obtain ⟨i1, i2⟩ := ih (by omega)
    have h1 : Tendsto (fun N => (pzD3 z z solverEps (D N z) (k + 1)).1) atTop
        (𝓝 (pzD3 z z solverEps (E z) (k + 1)).1) := by
      simp only [pzD3]
      exact (i1.mul (tendsto_const_nhds.sub (hD k (by omega)))).mul (tendsto_const_nhds.sub i2)
    refine ⟨h1, ?_⟩
    have hc := h.prod (k + 1) (by omega) hk
    have e : ∀ F : ℕ → ℂ, (pzD3 z z solverEps F (k + 1)).2 =
        F (k + 1) + I / guardAdd solverEps (pzD3 z z solverEps F (k + 1)).1 := fun F => rfl
    simp only [e]
    refine (hD (k + 1) hk).add ?_
    rw [guardAdd_of_le hc.le]
    exact tendsto_const_nhds.div (tendsto_guard h1 hc) (ne_of_clear hc)

theorem d3Fn_conv {z : ℂ} (hD : KConv D E n z) (h : KernelClear E n z) {k : ℕ} (hk : k ≤ n) :
    Tendsto (fun N => d3Fn (D N) z k) atTop (𝓝 (d3Fn E z k)) := by
  unfold d3Fn d3Val
  rw [guardAdd_of_le h.arg.le]
  exact (pzD3_conv hD h k hk).2

theorem prodSeq_conv {f0 zs : ℂ} {F : ℕ → ℕ → ℂ} {G : ℕ → ℂ}
    (h : ∀ k ≤ n, Tendsto (fun N => F N k) atTop (𝓝 (G k))) :
    ∀ k ≤ n, Tendsto (fun N => prodSeq f0 zs (F N) k) atTop (𝓝 (prodSeq f0 zs G k)) := by
  intro k
  induction k with
  | zero => intro _; exact tendsto_const_nhds
  | succ k ih =>
    intro hk
    exact (ih (by omega)).mul (tendsto_const_nhds.sub (h k (by omega)))

theorem qFn_conv {z1 z2 x1 x2 : ℂ} (h1 : KConv D E n z1) (h2 : KConv D E n z2) (c1 : KernelClear E n z1)
    (c2 : KernelClear E n z2) (h : QClear E n z1 z2 x2) :
    ∀ k ≤ n, Tendsto (fun N => qFn (D N) z1 z2 x1 x2 k) atTop (𝓝 (qFn E z1 z2 x1 x2 k)) := by
  intro k
  induction k with
  | zero => intro _; exact tendsto_const_nhds
  | succ k ih =>
    intro hk
    have hd := h.den k hk
    simp only [qFn, qVal] at ih ⊢
    rw [guardAdd_of_le hd.le]
    refine ((ih (by omega)).mul tendsto_const_nhds).mul (Tendsto.div ?_ (tendsto_guard ?_ hd) (ne_of_clear hd))
    · exact ((tendsto_const_nhds.mul (h2 _ hk)).add tendsto_const_nhds).mul
        (tendsto_const_nhds.sub (tendsto_const_nhds.mul (d3Fn_conv h2 c2 (by omega))))
    · exact ((tendsto_const_nhds.mul (h1 _ hk)).add tendsto_const_nhds).mul
        (tendsto_const_nhds.sub (tendsto_const_nhds.mul (d3Fn_conv h1 c1 (by omega))))

/-- Convergence of states. -/
def StConv (n : ℕ) (st : ℕ → HState) (st' : HState) : Prop :=
  (∀ N, (st N).m = st'.m ∧ (st N).x = st'.x) ∧
    ∀ p i, 1 ≤ i → i ≤ n → Tendsto (fun N => (st N).H p i) atTop (𝓝 (st'.H p i))

theorem hStep_conv {st : ℕ → HState} {st' : HState} {l : ℂ × ℂ} (hs : StConv n st st')
    (h1 : KConv D E n (l.1 * st'.x)) (h2 : KConv D E n (l.1 * l.2)) (hc : StepClear E n st' l) :
    StConv n (fun N => hStep (D N) (st N) l) (hStep E st' l) := by
  refine ⟨fun N => ⟨rfl, rfl⟩, ?_⟩
  intro p i hi1 hi
  have hH := hs.2 p i hi1 hi
  have hd := hc.den p i hi1 hi
  have e1 := d3Fn_conv h1 hc.prev hi
  have e2 := d3Fn_conv h2 hc.curr hi
  have e3 := qFn_conv (x1 := st'.x) h1 h2 hc.prev hc.curr hc.q i hi
  simp only [hStep, hUpdate, (hs.1 _).1, (hs.1 _).2]
  unfold hDen at hd
  rw [guardAdd_of_le hd.le]
  have g1 := (tendsto_const_nhds (x := polP p st'.m l.1)).mul hH |>.sub
    ((tendsto_const_nhds (x := polQ p st'.m l.1)).mul (h1 i hi))
  have g2 := (tendsto_const_nhds (x := polP p st'.m l.1)).mul hH |>.sub
    ((tendsto_const_nhds (x := polQ p st'.m l.1)).mul e1)
  exact ((g2.mul (h2 i hi)).sub ((e3.mul g1).mul e2)).div (tendsto_guard (g2.sub (e3.mul g1)) hd)
    (ne_of_clear hd)

/-- Arguments at which the kernel is evaluated after the first layer. -/
def runArgs : ℂ → List (ℂ × ℂ) → List ℂ
  | x, [] => [x]
  | x, l :: rest => (l.1 * x) :: (l.1 * l.2) :: runArgs l.2 rest

/-- All arguments at which the solver evaluates the kernel. -/
def kernelArgs : List (ℂ × ℂ) → List ℂ
  | [] => []
  | l :: rest => (l.1 * l.2) :: runArgs l.2 rest

theorem final_conv {st : ℕ → HState} {st' : HState} (hs : StConv n st st') (hx : KConv D E n st'.x)
    (hc : FinalClear E n st') (p : Pol) {i : ℕ} (h1 : 1 ≤ i) (hi : i ≤ n) :
    Tendsto (fun N => coefFn (D N) p (st N) i) atTop (𝓝 (coefFn E p st' i)) := by
  have hd := hc.den p i h1 hi
  unfold coefFn finalCoef
  simp only [(hs.1 _).1, (hs.1 _).2]
  have hg : guardAdd solverEps st'.x = st'.x := guardAdd_of_le hc.host.arg.le
  have hpsi : ∀ k ≤ n, Tendsto (fun N => psiFn (D N) st'.x k) atTop (𝓝 (psiFn E st'.x k)) :=
    prodSeq_conv hx
  have hzeta : ∀ k ≤ n, Tendsto (fun N => zetaFn (D N) st'.x k) atTop (𝓝 (zetaFn E st'.x k)) :=
    prodSeq_conv (fun k hk => d3Fn_conv hx hc.host hk)
  have hH := hs.2 p i h1 hi
  have hT : Tendsto (fun N => polOut p st'.m ((st N).H p i) + (i : ℂ) / guardAdd solverEps st'.x) atTop
      (𝓝 (polOut p st'.m (st'.H p i) + (i : ℂ) / guardAdd solverEps st'.x)) := by
    refine Tendsto.add ?_ tendsto_const_nhds
    cases p
    · exact hH.div_const _
    · exact hH.const_mul _
  rw [hg] at hT ⊢
  rw [guardAdd_of_le hd.le]
  have n1 := (hT.mul (hpsi i hi)).sub (hpsi (i - 1) (by omega))
  have n2 := (hT.mul (hzeta i hi)).sub (hzeta (i - 1) (by omega))
  exact n1.div (tendsto_guard n2 hd) (ne_of_clear hd)

theorem run_conv (p : Pol) {i : ℕ} (h1 : 1 ≤ i) (hi : i ≤ n) :
    ∀ (rest : List (ℂ × ℂ)) (st : ℕ → HState) (st' : HState), StConv n st st' →
      (∀ z ∈ runArgs st'.x rest, KConv D E n z) → RunClear E n st' rest →
      Tendsto (fun N => coefFn (D N) p (rest.foldl (hStep (D N)) (st N)) i) atTop
        (𝓝 (coefFn E p (rest.foldl (hStep E) st') i)) := by
  intro rest
  induction rest with
  | nil =>
    intro st st' hs ha hc
    exact final_conv hs (ha _ (by simp [runArgs])) hc p h1 hi
  | cons l rest ih =>
    intro st st' hs ha hc
    obtain ⟨sc, hc⟩ := hc
    exact ih _ _ (hStep_conv hs (ha _ (by simp [runArgs])) (ha _ (by simp [runArgs])) sc)
      (fun z hz => ha z (by simp only [runArgs, List.mem_cons]; right; right; exact hz)) hc

theorem coef_conv (p : Pol) {i : ℕ} (h1 : 1 ≤ i) (hi : i ≤ n) {l : ℂ × ℂ} {rest : List (ℂ × ℂ)}
    (ha : ∀ z ∈ kernelArgs (l :: rest), KConv D E n z) (hc : SolverClear E n (l :: rest)) :
    Tendsto (fun N => coefFn (D N) p (hFinal (D N) l rest) i) atTop
      (𝓝 (coefFn E p (hFinal E l rest) i)) := by
  refine run_conv p h1 hi rest (fun N => hInit (D N) l) (hInit E l) ⟨fun N => ⟨rfl, rfl⟩, ?_⟩ ?_ hc.2
  · intro p i _ hi
    exact ha _ (by simp [kernelArgs]) i hi
  · intro z hz
    exact ha z (by simp only [kernelArgs, List.mem_cons]; right; exact hz)

/-- `pena_D1_n` with `n_add = N`. -/
noncomputable def depthD1 (N : ℕ) : D1Kernel := fun n z => penaD1 n z N

noncomputable def depthFn (n N : ℕ) : ℂ → ℕ → ℂ := fun z => d1Val (guardAdd solverEps z) solverEps (n + N)

theorem depthD1_fun (n N : ℕ) (h : 1 ≤ N) : KernelFun (depthD1 N) n (depthFn n N) :=
  fun z => penaD1_eq n z N _ h

/-- No guard fires in the downward recurrence at `z` with exact values. -/
structure D1Clear (z : ℂ) : Prop where
  arg : solverEps < ‖z‖
  psi : ∀ k, ricPsi k z ≠ 0
  ratio : ∀ k, solverEps < ‖ricPsi k z / ricPsi (k + 1) z‖

theorem depthFn_conv (n : ℕ) {z : ℂ} (h : D1Clear z) : KConv (depthFn n) idealFn n z := by
  intro k _
  unfold depthFn idealFn
  rw [guardAdd_of_le h.arg.le]
  have := d1Val_tendsto (z := z) (eps := solverEps) (ne_of_clear h.arg) (by unfold solverEps; norm_num) k
    (fun j _ => h.psi j) (fun j _ => h.ratio j)
  exact this.comp (tendsto_add_atTop_nat n |>.congr fun N => by ring)

end MieDiff
