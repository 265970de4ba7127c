import Verif.Proofs.Backward
import Verif.Proofs.RoundedLimit

/-!
# Every operation is differentiable when no guard fires

`Node.Good x c`: the node holds the value `c` and every operation of its history was differentiable.  If no guard fires the whole program
is good.
-/

namespace MieDiff

set_option linter.unusedSectionVars false

open Complex Spec

variable {V : Type*} [AddCommGroup V]

namespace Node

structure Good (x : Node V) (c : ℂ) : Prop where
  val : x.val = c
  ok : x.ok

variable {x y : Node V} {a b : ℂ}

theorem Good.const (c : ℂ) : Good (Node.const c : Node V) c := ⟨rfl, trivial⟩

theorem Good.add (h : Good x a) (k : Good y b) : Good (Node.add x y) (a + b) := ⟨by simp [Node.add, h.val, k.val], h.ok, k.ok⟩

theorem Good.sub (h : Good x a) (k : Good y b) : Good (Node.sub x y) (a - b) := ⟨by simp [Node.sub, h.val, k.val], h.ok, k.ok⟩

theorem Good.mul (h : Good x a) (k : Good y b) : Good (Node.mul x y) (a * b) := ⟨by simp [Node.mul, h.val, k.val], h.ok, k.ok⟩

theorem Good.div (h : Good x a) (k : Good y b) (hb : b ≠ 0) : Good (Node.div x y) (a / b) :=
  ⟨by simp [Node.div, h.val, k.val], h.ok, k.ok, by rwa [k.val]⟩

theorem Good.rdiv (c : ℂ) (h : Good x a) (ha : a ≠ 0) : Good (Node.rdiv c x) (c / a) := by
  refine ⟨?_, ⟨h.ok, by rwa [h.val]⟩, trivial⟩
  simp only [Node.rdiv, Node.mul, Node.recip, Node.const, h.val]
  rw [div_eq_mul_inv, mul_comm]

theorem Good.exp (h : Good x a) : Good (Node.exp x) (Complex.exp a) := ⟨by simp [Node.exp, h.val], h.ok⟩

theorem Good.sin (h : Good x a) : Good (Node.sin x) (Complex.sin a) := ⟨by simp [Node.sin, h.val], h.ok⟩

theorem Good.cos (h : Good x a) : Good (Node.cos x) (Complex.cos a) := ⟨by simp [Node.cos, h.val], h.ok⟩

theorem Good.sqrt (h : Good x a) (ha : x.req = true → a ∈ slitPlane) : Good (Node.sqrt x) (csqrt a) :=
  ⟨by simp [Node.sqrt, h.val], h.ok, fun hr => by rw [h.val]; exact ha hr⟩

theorem Good.powHalf (h : Good x a) (ha : x.req = true → a ∈ slitPlane) : Good (Node.powHalf x) (csqrt a) :=
  ⟨by simp [Node.powHalf, h.val], h.ok, fun hr => by rw [h.val]; exact ha hr⟩

theorem Good.sq (h : Good x a) : Good (Node.sq x) (a ^ 2) := ⟨by simp [Node.sq, h.val], h.ok⟩

theorem Good.absSq (h : Good x a) : Good (Node.absSq x) ((‖a‖ ^ 2 : ℝ) : ℂ) := ⟨by simp [Node.absSq, h.val], h.ok⟩

theorem Good.re (h : Good x a) : Good (Node.re x) (a.re : ℂ) := ⟨by simp [Node.re, h.val], h.ok⟩

theorem Good.im (h : Good x a) : Good (Node.im x) (a.im : ℂ) := ⟨by simp [Node.im, h.val], h.ok⟩

theorem Good.guard (h : Good x a) (ha : solverEps < ‖a‖) : Good (Node.guard x) a := by
  refine ⟨?_, h.ok, by rw [h.val]; exact ha.ne'⟩
  simp only [Node.guard, Node.where', h.val, if_neg (not_lt.2 ha.le)]

theorem Good.sum_ok {l : List (Node V)} (h : ∀ x ∈ l, x.ok) : (Node.sum l).ok := h

variable {n N : ℕ} {E : ℂ → ℕ → ℂ}

theorem d1_good {z : ℂ} (h : DepthClear (n + N) z) (hx : Good x z) : ∀ j ≤ n, Good (Node.d1 n N x j) (depthFn n N z j) := by
  have hz : z ≠ 0 := ne_of_clear h.arg
  have hzs := hx.guard h.arg
  have all : ∀ i p, p + i = n + N → Good (Node.d1Down (Node.guard x) (n + N) (n + N - p)) (d1Val z solverEps (n + N) p) := by
    intro i
    induction i with
    | zero =>
      intro p hp
      rw [show p = n + N by omega]
      simp only [Nat.sub_self, Node.d1Down, d1Val_top]
      exact Good.const 0
    | succ i ih =>
      intro p hp
      have hc := h.den p (by omega)
      have hnum := hzs.rdiv ((p + 1 : ℕ) : ℂ) hz
      have hq := hnum.sub ((((ih (p + 1) (by omega)).add hnum).guard hc).rdiv 1 (ne_of_clear hc))
      rw [d1Val_step z solverEps (by omega), guardAdd_of_le hc.le]
      have e : n + N - p = (n + N - (p + 1)) + 1 := by omega
      rw [e, Node.d1Down, show n + N - (n + N - (p + 1)) = p + 1 by omega]
      exact hq
  intro j hj
  unfold depthFn
  rw [guardAdd_of_le h.arg.le]
  exact all (n + N - j) j (by omega)

theorem pzD3_good {z : ℂ} (h : KernelClear E n z) (hx : Good x z) {D : ℕ → Node V} (hD : ∀ j ≤ n, Good (D j) (E z j)) :
    ∀ j ≤ n, Good (Node.pzD3 x D j).1 (MieDiff.pzD3 z z solverEps (E z) j).1 ∧
      Good (Node.pzD3 x D j).2 (MieDiff.pzD3 z z solverEps (E z) j).2 := by
  have hz : z ≠ 0 := ne_of_clear h.arg
  have hzs := hx.guard h.arg
  intro j
  induction j with
  | zero => intro _; exact ⟨(Good.const _).mul ((Good.const 1).sub ((Good.const _).mul hx).exp), Good.const I⟩
  | succ j ih =>
    intro hj
    obtain ⟨i1, i2⟩ := ih (by omega)
    have hq := hzs.rdiv ((j + 1 : ℕ) : ℂ) hz
    have h1 : Good (Node.pzD3 x D (j + 1)).1 (MieDiff.pzD3 z z solverEps (E z) (j + 1)).1 :=
      (i1.mul (hq.sub (hD j (by omega)))).mul (hq.sub i2)
    refine ⟨h1, ?_⟩
    have hc := h.prod (j + 1) (by omega) hj
    have e : (MieDiff.pzD3 z z solverEps (E z) (j + 1)).2 = E z (j + 1) + I / (MieDiff.pzD3 z z solverEps (E z) (j + 1)).1 := by
      conv_rhs => rw [← guardAdd_of_le hc.le]
      rfl
    rw [e]
    exact (hD (j + 1) hj).add ((h1.guard hc).rdiv I (ne_of_clear hc))

theorem d3_good {z : ℂ} (h : KernelClear E n z) (hx : Good x z) {D : ℕ → Node V} (hD : ∀ j ≤ n, Good (D j) (E z j))
    {j : ℕ} (hj : j ≤ n) : Good (Node.d3 x D j) (d3Fn E z j) := by
  unfold d3Fn d3Val
  rw [guardAdd_of_le h.arg.le]
  exact (pzD3_good h hx hD j hj).2

theorem prodSeq_good {z f0 : ℂ} (hz : solverEps < ‖z‖) {f : Node V} (hx : Good x z) (hf : Good f f0) {D : ℕ → Node V} {G : ℕ → ℂ}
    (hD : ∀ j ≤ n, Good (D j) (G j)) :
    ∀ j ≤ n, Good (Node.prodSeq f x D j) (MieDiff.prodSeq f0 (guardAdd solverEps z) G j) := by
  rw [guardAdd_of_le hz.le]
  intro j
  induction j with
  | zero => intro _; exact hf
  | succ j ih =>
    intro hj
    exact (ih (by omega)).mul (((hx.guard hz).rdiv _ (ne_of_clear hz)).sub (hD j (by omega)))

theorem q_good {z1 z2 x1 x2 : ℂ} {u1 u2 w1 w2 : Node V} (c1 : KernelClear E n z1) (c2 : KernelClear E n z2)
    (h : QClear E n z1 z2 x2) (hz1 : Good u1 z1) (hz2 : Good u2 z2) (hx1 : Good w1 x1) (hx2 : Good w2 x2) {D1 D2 : ℕ → Node V}
    (h1 : ∀ j ≤ n, Good (D1 j) (E z1 j)) (h2 : ∀ j ≤ n, Good (D2 j) (E z2 j)) :
    ∀ j ≤ n, Good (Node.q u1 u2 w1 w2 D1 D2 (Node.d3 u1 D1) (Node.d3 u2 D2) j) (qFn E z1 z2 x1 x2 j) := by
  intro j
  induction j with
  | zero =>
    intro _
    simp only [qFn, qVal, Node.q]
    rw [guardAdd_of_le h.den0.le]
    have e : ∀ {u : Node V} {z : ℂ}, Good u z →
        Good (Node.sub (Node.exp (Node.mul (Node.const (-2 * I)) (Node.re u))) (Node.exp (Node.mul (Node.const (-2)) (Node.im u))))
          (Complex.exp (-2 * I * z.re) - Complex.exp ((-2 * z.im : ℝ) : ℂ)) := by
      intro u z hz
      have := ((Good.const (-2 * I)).mul hz.re).exp.sub ((Good.const (-2)).mul hz.im).exp
      simpa using this
    have e2 : ((-2 * (z2.im - z1.im) : ℝ) : ℂ) = -2 * ((z2.im : ℂ) - z1.im) := by push_cast; ring
    rw [e2]
    exact ((e hz1).div ((e hz2).guard h.den0) (ne_of_clear h.den0)).mul ((Good.const _).mul (hz2.im.sub hz1.im)).exp
  | succ j ih =>
    intro hj
    have hd := h.den j hj
    have hi := ih (by omega)
    simp only [qFn, qVal, Node.q] at hi ⊢
    rw [guardAdd_of_le hd.le, guardAdd_of_le h.outer.le]
    have hr := (hx1.div (hx2.guard h.outer) (ne_of_clear h.outer)).sq
    have hn : Good (Node.const ((j + 1 : ℕ) : ℂ) : Node V) ((j + 1 : ℕ) : ℂ) := Good.const _
    have f : ∀ {u : Node V} {z : ℂ} {D : ℕ → Node V}, KernelClear E n z → Good u z → (∀ j ≤ n, Good (D j) (E z j)) →
        Good (Node.mul (Node.add (Node.mul u (D (j + 1))) (Node.const ((j + 1 : ℕ) : ℂ)))
          (Node.sub (Node.const ((j + 1 : ℕ) : ℂ)) (Node.mul u (Node.d3 u D j))))
          ((z * E z (j + 1) + (j + 1 : ℕ)) * ((j + 1 : ℕ) - z * d3Fn E z j)) := by
      intro u z D c hz hD
      exact ((hz.mul (hD _ hj)).add hn).mul (hn.sub (hz.mul (d3_good c hz hD (by omega))))
    exact (hi.mul hr).mul ((f c2 hz2 h2).div ((f c1 hz1 h1).guard hd) (ne_of_clear hd))

structure StGood (n : ℕ) (st : State V) (st' : HState) : Prop where
  m : Good st.m st'.m
  x : Good st.x st'.x
  H : ∀ p i, 1 ≤ i → i ≤ n → Good (st.H p i) (st'.H p i)

theorem step_good {st : State V} {st' : HState} {lk : Node V × Node V} {l : ℂ × ℂ} (hs : StGood n st st') (hl1 : Good lk.1 l.1)
    (hl2 : Good lk.2 l.2) (h1 : DepthClear (n + N) (l.1 * st'.x)) (h2 : DepthClear (n + N) (l.1 * l.2))
    (hc : StepClear (depthFn n N) n st' l) : StGood n (Node.step n N st lk) (hStep (depthFn n N) st' l) := by
  refine ⟨hl1, hl2, ?_⟩
  intro p i hi1 hi
  have hzp := hl1.mul hs.x
  have hzc := hl1.mul hl2
  have d1 := d1_good h1 hzp
  have d2 := d1_good h2 hzc
  have e1 := d3_good hc.prev hzp d1 hi
  have e2 := d3_good hc.curr hzc d2 hi
  have e3 := q_good hc.prev hc.curr hc.q hzp hzc hs.x hl2 d1 d2 i hi
  have hH := hs.H p i hi1 hi
  have hd := hc.den p i hi1 hi
  have key : ∀ {P Q : Node V}, Good P (polP p st'.m l.1) → Good Q (polQ p st'.m l.1) →
      Good (Node.update P Q (st.H p i) (Node.d1 n N (Node.mul lk.1 st.x) i)
        (Node.d3 (Node.mul lk.1 st.x) (Node.d1 n N (Node.mul lk.1 st.x)) i)
        (Node.d1 n N (Node.mul lk.1 lk.2) i) (Node.d3 (Node.mul lk.1 lk.2) (Node.d1 n N (Node.mul lk.1 lk.2)) i)
        (Node.q (Node.mul lk.1 st.x) (Node.mul lk.1 lk.2) st.x lk.2 (Node.d1 n N (Node.mul lk.1 st.x)) (Node.d1 n N (Node.mul lk.1 lk.2))
          (Node.d3 (Node.mul lk.1 st.x) (Node.d1 n N (Node.mul lk.1 st.x)))
          (Node.d3 (Node.mul lk.1 lk.2) (Node.d1 n N (Node.mul lk.1 lk.2))) i))
        ((hStep (depthFn n N) st' l).H p i) := by
    intro P Q hP hQ
    have g1 := (hP.mul hH).sub (hQ.mul (d1 i hi))
    have g2 := (hP.mul hH).sub (hQ.mul e1)
    unfold hDen at hd
    simp only [hStep, hUpdate]
    rw [guardAdd_of_le hd.le]
    exact ((g2.mul (d2 i hi)).sub ((e3.mul g1).mul e2)).div ((g2.sub (e3.mul g1)).guard hd) (ne_of_clear hd)
  cases p
  · exact key hl1 hs.m
  · exact key hs.m hl1

theorem coefs_good {st : State V} {st' : HState} (hs : StGood n st st') (hx : DepthClear (n + N) st'.x) (hm : st'.m ≠ 0)
    (hc : FinalClear (depthFn n N) n st') {i : ℕ} (h1 : 1 ≤ i) (hi : i ≤ n) :
    (Node.coefs n N st i).1.ok ∧ (Node.coefs n N st i).2.ok := by
  have ha := hc.host.arg
  have d1 := d1_good hx hs.x
  have hpsi := prodSeq_good ha hs.x hs.x.sin d1
  have hzeta := prodSeq_good ha hs.x (hs.x.sin.sub ((Good.const I).mul hs.x.cos)) (G := d3Fn (depthFn n N) st'.x)
    (fun j hj => d3_good hc.host hs.x d1 hj)
  have hix := (Good.const (i : ℂ)).div (hs.x.guard ha) (ne_of_clear ha)
  let psi := Node.prodSeq (Node.sin st.x) st.x (Node.d1 n N st.x)
  let zeta := Node.prodSeq (Node.sub (Node.sin st.x) (Node.mul (Node.const I) (Node.cos st.x))) st.x
    (Node.d3 st.x (Node.d1 n N st.x))
  have key : ∀ (p : Pol) {T : Node V}, Good T (polOut p st'.m (st'.H p i) + (i : ℂ) / st'.x) →
      (Node.final T (psi i) (psi (i - 1)) (zeta i) (zeta (i - 1))).ok := by
    intro p T hT
    have hd := hc.den p i h1 hi
    exact (((hT.mul (hpsi i hi)).sub (hpsi (i - 1) (by omega))).div
      (((hT.mul (hzeta i hi)).sub (hzeta (i - 1) (by omega))).guard hd) (ne_of_clear hd)).ok
  exact ⟨key .tm (((hs.H .tm i h1 hi).div hs.m hm).add hix), key .te ((hs.m.mul (hs.H .te i h1 hi)).add hix)⟩

theorem run_good {i : ℕ} (h1 : 1 ≤ i) (hi : i ≤ n) {ls : List (Node V × Node V)} {rest : List (ℂ × ℂ)}
    (hr : List.Forall₂ (fun a b => Good a.1 b.1 ∧ Good a.2 b.2) ls rest) : ∀ (st : State V) (st' : HState), StGood n st st' →
      (∀ z ∈ runArgs st'.x rest, DepthClear (n + N) z) → st'.m ≠ 0 → (∀ l ∈ rest, l.1 ≠ 0) →
      RunClear (depthFn n N) n st' rest →
      (Node.coefs n N (ls.foldl (Node.step n N) st) i).1.ok ∧ (Node.coefs n N (ls.foldl (Node.step n N) st) i).2.ok := by
  induction hr with
  | nil =>
    intro st st' hs ha hm _ hc
    exact coefs_good hs (ha _ (by simp [runArgs])) hm hc h1 hi
  | cons hl _ ih =>
    intro st st' hs ha hm hne hc
    obtain ⟨sc, hc⟩ := hc
    simp only [List.foldl_cons]
    exact ih _ _ (step_good hs hl.1 hl.2 (ha _ (by simp [runArgs])) (ha _ (by simp [runArgs])) sc)
      (fun z hz => ha z (by simp only [runArgs, List.mem_cons]; right; right; exact hz)) (hne _ (by simp))
      (fun l' hl' => hne l' (List.mem_cons_of_mem _ hl')) hc

/-- If no guard fires every operation behind the coefficients is differentiable. -/
theorem mie_good {p : Inputs V} {ls : List (ℂ × ℂ)} (hl : List.Forall₂ (fun a b => Good a.1 b.1 ∧ Good a.2 b.2) (Node.layers p) ls)
    (hne : ∀ l ∈ ls, l.1 ≠ 0) (ha : ∀ z ∈ kernelArgs ls, DepthClear (n + N) z) (hc : SolverClear (depthFn n N) n ls)
    {i : ℕ} (h1 : 1 ≤ i) (hi : i ≤ n) : (Node.mie n N p i).1.ok ∧ (Node.mie n N p i).2.ok := by
  unfold Node.mie
  generalize Node.layers p = L at hl ⊢
  cases hl with
  | nil => exact hc.elim
  | @cons a b la lb hab hrest =>
    refine run_good h1 hi hrest _ (hInit (depthFn n N) b) ⟨hab.1, hab.2, ?_⟩ ?_ (hne _ (by simp))
      (fun l' hl' => hne l' (List.mem_cons_of_mem _ hl')) hc.2
    · intro p i _ hi
      have := d1_good (ha (b.1 * b.2) (by simp [kernelArgs])) (hab.1.mul hab.2) i hi
      cases p <;> exact this
    · intro z hz
      exact ha z (by simp only [kernelArgs, List.mem_cons]; right; exact hz)

end Node

end MieDiff
