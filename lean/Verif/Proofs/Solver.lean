import Verif.Model.Multishell
import Verif.Proofs.Interface

/-!
# The multilayer solver as functions of the order

`miecoefPenaK` works on order lists; here it is rewritten to functions of the order, for any log-derivative kernel
that delivers `D z 0 .. D z n`.
-/

namespace MieDiff

open Complex Spec

/-- The kernel delivers the values `D z k`. -/
def KernelFun (K : D1Kernel) (n : ℕ) (D : ℂ → ℕ → ℂ) : Prop := ∀ z, K n z = .ok (tab n (D z))

noncomputable def d3Fn (D : ℂ → ℕ → ℂ) (z : ℂ) : ℕ → ℂ :=
  d3Val z (guardAdd solverEps z) solverEps (D z)

noncomputable def qFn (D : ℂ → ℕ → ℂ) (z1 z2 x1 x2 : ℂ) : ℕ → ℂ :=
  qVal z1 z2 x1 x2 solverEps (D z1) (D z2) (d3Fn D z1) (d3Fn D z2)

/-- Weights of `H` and of the kernel in `G1, G2`. -/
def polP : Pol → ℂ → ℂ → ℂ
  | .tm, _, m' => m'
  | .te, m, _ => m

def polQ : Pol → ℂ → ℂ → ℂ
  | .tm, m, _ => m
  | .te, _, m' => m'

/-- Logarithmic derivative seen from the host. -/
noncomputable def polOut : Pol → ℂ → ℂ → ℂ
  | .tm, m, H => H / m
  | .te, m, H => m * H

structure HState where
  m : ℂ
  x : ℂ
  H : Pol → ℕ → ℂ

noncomputable def hInit (D : ℂ → ℕ → ℂ) (l : ℂ × ℂ) : HState := ⟨l.1, l.2, fun _ => D (l.1 * l.2)⟩

noncomputable def hStep (D : ℂ → ℕ → ℂ) (st : HState) (l : ℂ × ℂ) : HState :=
  ⟨l.1, l.2, fun p i => hUpdate (polP p st.m l.1) (polQ p st.m l.1) (st.H p i) (D (l.1 * st.x) i)
    (d3Fn D (l.1 * st.x) i) (D (l.1 * l.2) i) (d3Fn D (l.1 * l.2) i)
    (qFn D (l.1 * st.x) (l.1 * l.2) st.x l.2 i)⟩

def HState.toState (n : ℕ) (st : HState) : LayerState := ⟨st.m, st.x, tab n (st.H .tm), tab n (st.H .te)⟩

noncomputable def psiFn (D : ℂ → ℕ → ℂ) (x : ℂ) : ℕ → ℂ := prodSeq (sin x) (guardAdd solverEps x) (D x)

noncomputable def zetaFn (D : ℂ → ℕ → ℂ) (x : ℂ) : ℕ → ℂ :=
  prodSeq (sin x - I * cos x) (guardAdd solverEps x) (d3Fn D x)

/-- The coefficient at order `i`. -/
noncomputable def coefFn (D : ℂ → ℕ → ℂ) (p : Pol) (st : HState) (i : ℕ) : ℂ :=
  finalCoef (polOut p st.m (st.H p i) + (i : ℂ) / guardAdd solverEps st.x) (psiFn D st.x i)
    (psiFn D st.x (i - 1)) (zetaFn D st.x i) (zetaFn D st.x (i - 1))

/-- State after all layers. -/
noncomputable def hFinal (D : ℂ → ℕ → ℂ) (l : ℂ × ℂ) (rest : List (ℂ × ℂ)) : HState :=
  rest.foldl (hStep D) (hInit D l)

theorem layerStep_none {K : D1Kernel} {n : ℕ} {D : ℂ → ℕ → ℂ} (h : KernelFun K n D) (l : ℂ × ℂ) :
    layerStep K n none l = .ok (some ((hInit D l).toState n)) := by
  unfold layerStep
  simp only [h (l.1 * l.2), penaD3_eq, bind, Except.bind]
  rfl

theorem map_range_tab {n : ℕ} (f : ℕ → ℂ) (g : ℕ → ℂ) (hg : ∀ i ≤ n, g i = f i) :
    (List.range (n + 1)).map g = tab n f := by
  unfold tab
  apply List.map_congr_left
  intro i hi
  exact hg i (by simpa [Nat.lt_succ_iff] using hi)

theorem layerStep_some {K : D1Kernel} {n : ℕ} {D : ℂ → ℕ → ℂ} (h : KernelFun K n D) (st : HState)
    (l : ℂ × ℂ) :
    layerStep K n (some (st.toState n)) l = .ok (some ((hStep D st l).toState n)) := by
  unfold layerStep
  simp only [h (l.1 * l.2), h (l.1 * st.x), HState.toState, penaD3_eq, bind, Except.bind,
    Int.toNat_natCast, penaQ_eq, tab_length]
  congr 2
  congr 1
  · refine map_range_tab _ _ fun i hi => ?_
    rw [tab_getD hi, tab_getD hi, tab_getD hi, tab_getD hi, tab_getD hi, tab_getD hi]
    rfl
  · refine map_range_tab _ _ fun i hi => ?_
    rw [tab_getD hi, tab_getD hi, tab_getD hi, tab_getD hi, tab_getD hi, tab_getD hi]
    rfl

theorem foldlM_layers {K : D1Kernel} {n : ℕ} {D : ℂ → ℕ → ℂ} (h : KernelFun K n D) (st : HState) :
    ∀ rest : List (ℂ × ℂ), rest.foldlM (layerStep K n) (some (st.toState n)) =
      .ok (some ((rest.foldl (hStep D) st).toState n)) := by
  intro rest
  induction rest generalizing st with
  | nil => rfl
  | cons l rest ih =>
    rw [List.foldlM_cons, layerStep_some h]
    exact ih _

/-- Relative index and size parameter of every layer. -/
noncomputable def layersOf (k : ℂ) (rs : List ℝ) (es : List ℂ) (nEnv : ℂ) : List (ℂ × ℂ) :=
  (es.map fun e => csqrt e / nEnv).zip (rs.map fun (r : ℝ) => k * (r : ℂ))

theorem miecoefPenaK_eq {K : D1Kernel} {n : ℕ} {D : ℂ → ℕ → ℂ} (h : KernelFun K n D) (hn : 1 ≤ n)
    {k : ℂ} {rs : List ℝ} {es : List ℂ} {nEnv : ℂ} {l : ℂ × ℂ} {rest : List (ℂ × ℂ)}
    (hl : layersOf k rs es nEnv = l :: rest) :
    miecoefPenaK K k rs es nEnv n =
      .ok ((List.range n).map (fun i => coefFn D .tm (hFinal D l rest) (i + 1)),
        (List.range n).map (fun i => coefFn D .te (hFinal D l rest) (i + 1))) := by
  unfold miecoefPenaK
  rw [if_neg (by simp), if_neg (by omega)]
  unfold layersOf at hl
  simp only [hl]
  rw [List.foldlM_cons, layerStep_none h]
  have := foldlM_layers h (hInit D l) rest
  simp only [bind, Except.bind] at this ⊢
  rw [this]
  simp only [HState.toState]
  rw [show List.foldl (hStep D) (hInit D l) rest = hFinal D l rest from rfl]
  simp only [h (hFinal D l rest).x, penaD3_eq, Int.toNat_natCast, penaPsiZeta_eq]
  congr 2
  · apply List.map_congr_left
    intro i hi
    have hi : i < n := by simpa using hi
    rw [tab_getD (by omega), tab_getD (by omega), tab_getD (by omega), tab_getD (by omega),
      tab_getD (by omega)]
    rfl
  · apply List.map_congr_left
    intro i hi
    have hi : i < n := by simpa using hi
    rw [tab_getD (by omega), tab_getD (by omega), tab_getD (by omega), tab_getD (by omega),
      tab_getD (by omega)]
    rfl

theorem codeD1_fun (n : ℕ) :
    KernelFun codeD1 n (fun z => d1Val (guardAdd solverEps z) solverEps (n + 15)) := by
  intro z
  exact penaD1_eq n z 15 _ (by norm_num)

/-! ## Guards -/

/-- No guard fires while `D3` is computed from `D z`. -/
structure KernelClear (D : ℂ → ℕ → ℂ) (n : ℕ) (z : ℂ) : Prop where
  arg : solverEps < ‖z‖
  prod : ∀ k, 1 ≤ k → k ≤ n → solverEps < ‖(pzD3 z z solverEps (D z) k).1‖

/-- No guard fires while `Q` is computed. -/
structure QClear (D : ℂ → ℕ → ℂ) (n : ℕ) (z1 z2 x2 : ℂ) : Prop where
  outer : solverEps < ‖x2‖
  den0 : solverEps < ‖exp (-2 * I * z2.re) - exp (((-2 * z2.im : ℝ)) : ℂ)‖
  den : ∀ k, k + 1 ≤ n → solverEps <
    ‖(z1 * D z1 (k + 1) + (k + 1 : ℕ)) * ((k + 1 : ℕ) - z1 * d3Fn D z1 k)‖

/-- Denominator of the layer update. -/
noncomputable def hDen (D : ℂ → ℕ → ℂ) (st : HState) (l : ℂ × ℂ) (p : Pol) (i : ℕ) : ℂ :=
  (polP p st.m l.1 * st.H p i - polQ p st.m l.1 * d3Fn D (l.1 * st.x) i) -
    qFn D (l.1 * st.x) (l.1 * l.2) st.x l.2 i *
      (polP p st.m l.1 * st.H p i - polQ p st.m l.1 * D (l.1 * st.x) i)

structure StepClear (D : ℂ → ℕ → ℂ) (n : ℕ) (st : HState) (l : ℂ × ℂ) : Prop where
  prev : KernelClear D n (l.1 * st.x)
  curr : KernelClear D n (l.1 * l.2)
  q : QClear D n (l.1 * st.x) (l.1 * l.2) l.2
  den : ∀ p i, 1 ≤ i → i ≤ n → solverEps < ‖hDen D st l p i‖

structure FinalClear (D : ℂ → ℕ → ℂ) (n : ℕ) (st : HState) : Prop where
  host : KernelClear D n st.x
  den : ∀ p i, 1 ≤ i → i ≤ n → solverEps <
    ‖(polOut p st.m (st.H p i) + (i : ℂ) / st.x) * zetaFn D st.x i - zetaFn D st.x (i - 1)‖

def RunClear (D : ℂ → ℕ → ℂ) (n : ℕ) : HState → List (ℂ × ℂ) → Prop
  | st, [] => FinalClear D n st
  | st, l :: rest => StepClear D n st l ∧ RunClear D n (hStep D st l) rest

/-- No denominator guard of the solver fires. -/
def SolverClear (D : ℂ → ℕ → ℂ) (n : ℕ) : List (ℂ × ℂ) → Prop
  | [] => False
  | l :: rest => KernelClear D n (l.1 * l.2) ∧ RunClear D n (hInit D l) rest

/-! ## Exact kernel -/

/-- The exact logarithmic derivative in place of the truncated recurrence. -/
noncomputable def idealD1 : D1Kernel := fun n z => .ok (tab n.toNat (fun k => logD1 k z))

noncomputable def idealFn : ℂ → ℕ → ℂ := fun z k => logD1 k z

theorem idealD1_fun (n : ℕ) : KernelFun idealD1 n idealFn := by
  intro z; rfl

theorem solverEps_pos : 0 < solverEps := by unfold solverEps; norm_num

theorem KernelClear.ne {D : ℂ → ℕ → ℂ} {n : ℕ} {z : ℂ} (h : KernelClear D n z) : z ≠ 0 := by
  rintro rfl
  have := h.arg
  simp at this
  linarith [solverEps_pos]

theorem kernelClear_ideal {n : ℕ} {z : ℂ} (h : KernelClear idealFn n z) (hn : 1 ≤ n) :
    KernelOK n z solverEps := by
  have hz := h.ne
  have key : ∀ k ≤ n, (pzD3 z z solverEps (idealFn z) k = (ricPsi k z * ricZeta k z, logD3 k z)) ∧
      ricPsi k z ≠ 0 ∧ ricZeta k z ≠ 0 := by
    intro k
    induction k with
    | zero =>
      intro _
      have e : pzD3 z z solverEps (idealFn z) 0 = (ricPsi 0 z * ricZeta 0 z, logD3 0 z) := by
        rw [pzD3, psi_zeta_zero hz, logD3_zero hz]
      refine ⟨e, ?_, ricZeta_zero_ne z hz⟩
      intro h0
      have h1 := h.prod 1 le_rfl hn
      have : (pzD3 z z solverEps (idealFn z) 1).1 = 0 := by
        rw [pzD3]; simp only [e, h0]; ring
      rw [this] at h1
      simp at h1
      linarith [solverEps_pos]
    | succ k ih =>
      intro hk
      obtain ⟨e, h1, h3⟩ := ih (by omega)
      have hp : (pzD3 z z solverEps (idealFn z) (k + 1)).1 = ricPsi (k + 1) z * ricZeta (k + 1) z := by
        rw [pzD3]
        simp only [e]
        rw [logD1_psi_succ k hz h1, logD3_zeta_succ k hz h3]
        simp only [idealFn]
        push_cast
        ring
      have hc := h.prod (k + 1) (by omega) hk
      rw [hp] at hc
      have hne : ricPsi (k + 1) z * ricZeta (k + 1) z ≠ 0 := by
        intro h0; rw [h0] at hc; simp at hc; linarith [solverEps_pos]
      have h1' := left_ne_zero_of_mul hne
      have h3' := right_ne_zero_of_mul hne
      refine ⟨?_, h1', h3'⟩
      apply Prod.ext
      · exact hp
      · show idealFn z (k + 1) + I / guardAdd solverEps (pzD3 z z solverEps (idealFn z) (k + 1)).1 = _
        rw [hp, guardAdd_of_le hc.le, ← logD3_sub_logD1 (k + 1) hz h1' h3']
        simp only [idealFn]; ring
  refine ⟨solverEps_pos, h.arg.le, fun k hk => (key k hk).2.1, fun k hk => (key k hk).2.2, ?_⟩
  intro k h1 hk
  have := h.prod k h1 hk
  rw [(key k hk).1] at this
  exact this.le

theorem d3Fn_ideal {n : ℕ} {z : ℂ} (h : KernelOK n z solverEps) {k : ℕ} (hk : k ≤ n) :
    d3Fn idealFn z k = logD3 k z := by
  unfold d3Fn d3Val
  rw [guardAdd_of_le h.arg]
  exact congrArg Prod.snd (pzD3_exact h k hk)

theorem zetaFn_ideal {n : ℕ} {z : ℂ} (h : KernelOK n z solverEps) :
    ∀ k ≤ n, zetaFn idealFn z k = ricZeta k z := by
  intro k
  induction k with
  | zero => intro _; simp only [zetaFn, prodSeq]; rw [ricZeta_zero z h.ne]
  | succ k ih =>
    intro hk
    have ih := ih (by omega)
    simp only [zetaFn, prodSeq] at ih ⊢
    rw [ih, d3Fn_ideal h (by omega), guardAdd_of_le h.arg, logD3_zeta_succ k h.ne (h.zeta k (by omega))]
    push_cast; ring

theorem psiFn_ideal {n : ℕ} {z : ℂ} (h : KernelOK n z solverEps) :
    ∀ k ≤ n, psiFn idealFn z k = ricPsi k z := by
  intro k
  induction k with
  | zero => intro _; simp only [psiFn, prodSeq]; rw [ricPsi_zero z h.ne]
  | succ k ih =>
    intro hk
    have ih := ih (by omega)
    simp only [psiFn, prodSeq] at ih ⊢
    rw [ih, guardAdd_of_le h.arg, logD1_psi_succ k h.ne (h.psi k (by omega))]
    simp only [idealFn]
    push_cast; ring

theorem qVal_congr {n : ℕ} {z1 z2 x1 x2 : ℂ} {eps : ℝ} {A B C E A' B' C' E' : ℕ → ℂ}
    (hA : ∀ k ≤ n, A k = A' k) (hB : ∀ k ≤ n, B k = B' k) (hC : ∀ k ≤ n, C k = C' k)
    (hE : ∀ k ≤ n, E k = E' k) :
    ∀ k ≤ n, qVal z1 z2 x1 x2 eps A B C E k = qVal z1 z2 x1 x2 eps A' B' C' E' k := by
  intro k
  induction k with
  | zero => intro _; rfl
  | succ k ih =>
    intro hk
    rw [qVal, qVal, ih (by omega), hA _ hk, hB _ hk, hC k (by omega), hE k (by omega)]

theorem qFn_ideal {n : ℕ} {m x x' : ℂ} (hn : 1 ≤ n) (h1 : KernelClear idealFn n (m * x))
    (h2 : KernelClear idealFn n (m * x')) (h : QClear idealFn n (m * x) (m * x') x') {k : ℕ} (hk : k ≤ n) :
    qFn idealFn (m * x) (m * x') x x' k =
      ricPsi k (m * x) * ricZeta k (m * x') / (ricZeta k (m * x) * ricPsi k (m * x')) := by
  have k1 := kernelClear_ideal h1 hn
  have k2 := kernelClear_ideal h2 hn
  unfold qFn
  have e := qVal_congr (n := n) (z1 := m * x) (z2 := m * x') (x1 := x) (x2 := x') (eps := solverEps)
    (A := idealFn (m * x)) (B := idealFn (m * x')) (C := d3Fn idealFn (m * x))
    (E := d3Fn idealFn (m * x')) (A' := fun k => logD1 k (m * x)) (B' := fun k => logD1 k (m * x'))
    (C' := fun k => logD3 k (m * x)) (E' := fun k => logD3 k (m * x')) (fun _ _ => rfl) (fun _ _ => rfl)
    (fun k hk => d3Fn_ideal k1 hk) (fun k hk => d3Fn_ideal k2 hk) k hk
  rw [e]
  refine qVal_exact k1 k2 ⟨h.outer.le, by ring, h.den0.le, ?_⟩ k hk
  intro j hj
  have := h.den j hj
  rw [d3Fn_ideal k1 (by omega)] at this
  exact this.le

/-- The layer update carries `H = f'/f` from one layer to the next. -/
theorem hUpdate_exact {n i : ℕ} {zp zc : ℂ} (k1 : KernelOK n zp solverEps) (k2 : KernelOK n zc solverEps)
    (hi : i ≤ n) {p q H Q : ℂ} (hq : q ≠ 0) (w : Wave) (hv : w.val i zp ≠ 0)
    (he : p * H * w.val i zp = q * w.der i zp)
    (hQ : Q = ricPsi i zp * ricZeta i zc / (ricZeta i zp * ricPsi i zc))
    (hden : solverEps < ‖(p * H - q * logD3 i zp) - Q * (p * H - q * logD1 i zp)‖) :
    w.val i zc ≠ 0 ∧ hUpdate p q H (logD1 i zp) (logD3 i zp) (logD1 i zc) (logD3 i zc) Q =
      w.der i zc / w.val i zc := by
  have hp1 := k1.psi i hi
  have hp3 := k1.zeta i hi
  have hc1 := k2.psi i hi
  have hc3 := k2.zeta i hi
  have hpH : p * H = q * w.der i zp / w.val i zp := by field_simp; exact he
  have g1 : p * H - q * logD1 i zp = -(q * w.a * I) / (w.val i zp * ricPsi i zp) := by
    have := wave_a w i k1.ne
    rw [hpH, logD1]
    field_simp
    linear_combination (-1) * this
  have g2 : p * H - q * logD3 i zp = -(q * w.d * I) / (w.val i zp * ricZeta i zp) := by
    have := wave_d w i k1.ne
    rw [hpH, logD3]
    field_simp
    linear_combination (-1) * this
  have hd : (p * H - q * logD3 i zp) - Q * (p * H - q * logD1 i zp) =
      -(q * I) / (w.val i zp * ricZeta i zp * ricPsi i zc) * w.val i zc := by
    rw [g1, g2, hQ]
    have : w.val i zc = w.d * ricPsi i zc - w.a * ricZeta i zc := rfl
    rw [this]
    field_simp
    ring
  have hnum : (p * H - q * logD3 i zp) * logD1 i zc - Q * (p * H - q * logD1 i zp) * logD3 i zc =
      -(q * I) / (w.val i zp * ricZeta i zp * ricPsi i zc) * w.der i zc := by
    rw [g1, g2, hQ, logD1, logD3]
    have : w.der i zc = w.d * deriv (ricPsi i) zc - w.a * deriv (ricZeta i) zc := rfl
    rw [this]
    field_simp
    ring
  have hne : (p * H - q * logD3 i zp) - Q * (p * H - q * logD1 i zp) ≠ 0 := by
    intro h0; rw [h0] at hden; simp at hden; linarith [solverEps_pos]
  have hvc : w.val i zc ≠ 0 := by
    intro h0; rw [hd, h0, mul_zero] at hne; exact hne rfl
  refine ⟨hvc, ?_⟩
  unfold hUpdate
  simp only
  rw [guardAdd_of_le hden.le, hnum, hd]
  have := I_ne_zero
  field_simp

theorem cont_exists (p : Pol) (n : ℕ) {m m' x : ℂ} (hm : m ≠ 0) (hm' : m' ≠ 0) (hz : m' * x ≠ 0) (w : Wave)
    (hv : w.val n (m * x) ≠ 0) :
    ∃ w', Cont p n m m' x w w' ∧ w'.val n (m' * x) ≠ 0 ∧
      polP p m m' * (w.der n (m * x) / w.val n (m * x)) * w'.val n (m' * x) =
        polQ p m m' * w'.der n (m' * x) := by
  cases p
  · refine ⟨waveOf n (m' * x) (w.val n (m * x)) (w.der n (m * x) * m' / m), ⟨?_, ?_⟩, ?_, ?_⟩
    · rw [waveOf_val n hz]
    · rw [waveOf_der n hz]; field_simp
    · rw [waveOf_val n hz]; exact hv
    · rw [waveOf_val n hz, waveOf_der n hz]; simp only [polP, polQ]; field_simp
  · refine ⟨waveOf n (m' * x) (w.val n (m * x) * m' / m) (w.der n (m * x)), ⟨?_, ?_⟩, ?_, ?_⟩
    · rw [waveOf_val n hz]; field_simp
    · rw [waveOf_der n hz]
    · rw [waveOf_val n hz]; exact div_ne_zero (mul_ne_zero hv hm') hm
    · rw [waveOf_val n hz, waveOf_der n hz]; simp only [polP, polQ]; field_simp

/-- Running the recursion from a wave with `H = f'/f` gives the host wave and its logarithmic derivative. -/
theorem run_exact {n i : ℕ} (p : Pol) (h1 : 1 ≤ i) (hi : i ≤ n) :
    ∀ (rest : List (ℂ × ℂ)) (st : HState) (w : Wave), st.m ≠ 0 → st.x ≠ 0 →
      (∀ l ∈ rest, l.1 ≠ 0 ∧ l.2 ≠ 0) → RunClear idealFn n st rest →
      w.val i (st.m * st.x) ≠ 0 → st.H p i = w.der i (st.m * st.x) / w.val i (st.m * st.x) →
      ∃ out, Chain p i w ((st.m, st.x) :: rest) out ∧
        out.val i (rest.foldl (hStep idealFn) st).x ≠ 0 ∧
        polOut p (rest.foldl (hStep idealFn) st).m ((rest.foldl (hStep idealFn) st).H p i) *
          out.val i (rest.foldl (hStep idealFn) st).x = out.der i (rest.foldl (hStep idealFn) st).x := by
  intro rest
  induction rest with
  | nil =>
    intro st w hm hx _ hc hv hH
    obtain ⟨w', c, v', e⟩ := cont_exists p i hm one_ne_zero (by rw [one_mul]; exact hx) w hv
    rw [one_mul, ← hH] at e
    rw [one_mul] at v'
    refine ⟨w', c, v', ?_⟩
    simp only [List.foldl_nil]
    cases p
    · simp only [polOut, polP, polQ] at e ⊢; field_simp; linear_combination e
    · simp only [polOut, polP, polQ] at e ⊢; linear_combination e
  | cons l rest ih =>
    intro st w hm hx hl hc hv hH
    obtain ⟨sc, hc⟩ := hc
    have hl0 := hl l (by simp)
    obtain ⟨w', c, v', e⟩ := cont_exists p i hm hl0.1 (mul_ne_zero hl0.1 hx) w hv
    rw [← hH] at e
    have k1 := kernelClear_ideal sc.prev (h1.trans hi)
    have k2 := kernelClear_ideal sc.curr (h1.trans hi)
    have hq : polQ p st.m l.1 ≠ 0 := by cases p <;> simp only [polQ]; exacts [hm, hl0.1]
    have hden := sc.den p i h1 hi
    unfold hDen at hden
    rw [d3Fn_ideal k1 hi] at hden
    obtain ⟨v2, hU⟩ := hUpdate_exact k1 k2 hi hq w' v' e
      (qFn_ideal (h1.trans hi) sc.prev sc.curr sc.q hi) hden
    have hH' : (hStep idealFn st l).H p i = w'.der i (l.1 * l.2) / w'.val i (l.1 * l.2) := by
      rw [← hU]
      simp only [hStep]
      rw [d3Fn_ideal k1 hi, d3Fn_ideal k2 hi]
      rfl
    obtain ⟨out, ch, o1, o2⟩ := ih (hStep idealFn st l) w' hl0.1 hl0.2
      (fun l' h => hl l' (by simp [h])) hc v2 hH'
    exact ⟨out, ⟨w', c, ch⟩, o1, o2⟩

theorem runClear_final {D : ℂ → ℕ → ℂ} {n : ℕ} : ∀ (rest : List (ℂ × ℂ)) (st : HState), RunClear D n st rest →
    FinalClear D n (rest.foldl (hStep D) st) := by
  intro rest
  induction rest with
  | nil => intro st h; exact h
  | cons l rest ih => intro st h; exact ih _ h.2

/-- The solver with the exact kernel solves the interface problem. -/
theorem coefFn_solves {n i : ℕ} (p : Pol) (h1 : 1 ≤ i) (hi : i ≤ n) {l : ℂ × ℂ} {rest : List (ℂ × ℂ)}
    (hl : ∀ l' ∈ l :: rest, l'.1 ≠ 0 ∧ l'.2 ≠ 0) (hc : SolverClear idealFn n (l :: rest)) :
    Solves p i (l :: rest) (coefFn idealFn p (hFinal idealFn l rest) i) := by
  obtain ⟨c1, c2⟩ := hc
  have k1 := kernelClear_ideal c1 (h1.trans hi)
  have hl0 := hl l (by simp)
  have e1 : (⟨1, 0⟩ : Wave).val i (l.1 * l.2) = ricPsi i (l.1 * l.2) := by simp [Wave.val]
  have e2 : (⟨1, 0⟩ : Wave).der i (l.1 * l.2) = deriv (ricPsi i) (l.1 * l.2) := by simp [Wave.der]
  obtain ⟨out, ch, ov, oh⟩ := run_exact p h1 hi rest (hInit idealFn l) ⟨1, 0⟩ hl0.1 hl0.2
    (fun l' h => hl l' (by simp [h])) c2 (by
      show (⟨1, 0⟩ : Wave).val i (l.1 * l.2) ≠ 0
      rw [e1]; exact k1.psi i hi) (by
      show logD1 i (l.1 * l.2) = (⟨1, 0⟩ : Wave).der i (l.1 * l.2) / (⟨1, 0⟩ : Wave).val i (l.1 * l.2)
      rw [e1, e2]; rfl)
  have fc := runClear_final rest _ c2
  rw [show List.foldl (hStep idealFn) (hInit idealFn l) rest = hFinal idealFn l rest from rfl] at ov oh fc
  set st := hFinal idealFn l rest with hst
  have kx := kernelClear_ideal fc.host (h1.trans hi)
  have hx := kx.ne
  have hden := fc.den p i h1 hi
  rw [zetaFn_ideal kx i hi, zetaFn_ideal kx (i - 1) (by omega)] at hden
  obtain ⟨j, rfl⟩ : ∃ j, i = j + 1 := ⟨i - 1, by omega⟩
  have hsub : j + 1 - 1 = j := by omega
  rw [hsub] at hden
  set T := polOut p st.m (st.H p (j + 1)) with hT
  have z1 : (T + ((j + 1 : ℕ) : ℂ) / st.x) * ricZeta (j + 1) st.x - ricZeta j st.x =
      T * ricZeta (j + 1) st.x - deriv (ricZeta (j + 1)) st.x := by
    rw [deriv_ricZeta_lower j hx]; push_cast; ring
  have z2 : (T + ((j + 1 : ℕ) : ℂ) / st.x) * ricPsi (j + 1) st.x - ricPsi j st.x =
      T * ricPsi (j + 1) st.x - deriv (ricPsi (j + 1)) st.x := by
    rw [deriv_ricPsi_lower j hx]; push_cast; ring
  have hcoef : coefFn idealFn p st (j + 1) =
      (T * ricPsi (j + 1) st.x - deriv (ricPsi (j + 1)) st.x) /
        (T * ricZeta (j + 1) st.x - deriv (ricZeta (j + 1)) st.x) := by
    unfold coefFn finalCoef
    rw [hsub, zetaFn_ideal kx _ hi, zetaFn_ideal kx j (by omega), psiFn_ideal kx _ hi,
      psiFn_ideal kx j (by omega), guardAdd_of_le kx.arg, ← hT, guardAdd_of_le hden.le, z1, z2]
  have hne : T * ricZeta (j + 1) st.x - deriv (ricZeta (j + 1)) st.x ≠ 0 := by
    rw [z1] at hden
    intro h0; rw [h0] at hden; simp at hden; linarith [solverEps_pos]
  have hlin : out.d * (T * ricPsi (j + 1) st.x - deriv (ricPsi (j + 1)) st.x) =
      out.a * (T * ricZeta (j + 1) st.x - deriv (ricZeta (j + 1)) st.x) := by
    simp only [Wave.val, Wave.der] at oh
    linear_combination oh
  have hd : out.d ≠ 0 := by
    intro h0
    rw [h0, zero_mul] at hlin
    have ha : out.a = 0 := by
      rcases mul_eq_zero.1 hlin.symm with h | h
      · exact h
      · exact absurd h hne
    apply ov
    simp [Wave.val, h0, ha]
  have hca : coefFn idealFn p st (j + 1) = out.a / out.d := by
    rw [hcoef, div_eq_div_iff hne hd]; linear_combination hlin
  refine ⟨(⟨1, 0⟩ : Wave).smul (1 / out.d), by simp [Wave.smul], ?_⟩
  have := ch.smul (1 / out.d)
  rw [hca]
  have e3 : out.smul (1 / out.d) = ⟨1, out.a / out.d⟩ := by
    simp only [Wave.smul, Wave.mk.injEq]
    constructor <;> field_simp
  rw [e3] at this
  exact this

end MieDiff
