import Verif.Proofs.Pipeline

/-!
# Matched layers and layer splitting, for any log-derivative kernel
-/

namespace MieDiff

open Complex Spec

variable {D : ℂ → ℕ → ℂ} {n : ℕ}

/-! ## Matched layers -/

theorem hUpdate_matched {m D1 D3 E1 E3 Q : ℂ} (h : solverEps ≤ ‖m * (D1 - D3)‖) :
    hUpdate m m D1 D1 D3 E1 E3 Q = E1 := by
  unfold hUpdate
  simp only
  have e1 : m * D1 - m * D1 = 0 := by ring
  have e2 : m * D1 - m * D3 = m * (D1 - D3) := by ring
  rw [e1, mul_zero, zero_mul, sub_zero, sub_zero, e2, guardAdd_of_le h]
  have hne : m * (D1 - D3) ≠ 0 := by
    intro h0; rw [h0, norm_zero] at h; linarith [solverEps_pos]
  rw [mul_div_cancel_left₀ _ hne]

/-- `H` is the logarithmic derivative of the regular function. -/
def Regular (D : ℂ → ℕ → ℂ) (n : ℕ) (st : HState) : Prop :=
  ∀ p i, 1 ≤ i → i ≤ n → st.H p i = D (st.m * st.x) i

/-- Two states that agree on the orders `1..n`. -/
structure SameState (n : ℕ) (st st' : HState) : Prop where
  m : st.m = st'.m
  x : st.x = st'.x
  H : ∀ p i, 1 ≤ i → i ≤ n → st.H p i = st'.H p i

theorem SameState.step {st st' : HState} (h : SameState n st st') (l : ℂ × ℂ) :
    SameState n (hStep D st l) (hStep D st' l) := by
  refine ⟨rfl, rfl, ?_⟩
  intro p i h1 h2
  simp only [hStep]
  rw [h.m, h.x, h.H p i h1 h2]

theorem SameState.fold : ∀ (rest : List (ℂ × ℂ)) {st st' : HState}, SameState n st st' →
    SameState n (rest.foldl (hStep D) st) (rest.foldl (hStep D) st') := by
  intro rest
  induction rest with
  | nil => intro st st' h; exact h
  | cons l rest ih => intro st st' h; exact ih (h.step l)

theorem SameState.coef {st st' : HState} (h : SameState n st st') (p : Pol) {i : ℕ} (h1 : 1 ≤ i) (hi : i ≤ n) :
    coefFn D p st i = coefFn D p st' i := by
  unfold coefFn
  rw [h.m, h.x, h.H p i h1 hi]

theorem hStep_matched {st : HState} (h : Regular D n st) (x : ℂ)
    (hc : ∀ i, 1 ≤ i → i ≤ n →
      solverEps ≤ ‖st.m * (D (st.m * st.x) i - d3Fn D (st.m * st.x) i)‖) :
    SameState n (hStep D st (st.m, x)) (hInit D (st.m, x)) := by
  refine ⟨rfl, rfl, ?_⟩
  intro p i h1 h2
  simp only [hStep, hInit]
  rw [h p i h1 h2]
  have hp : polP p st.m st.m = st.m := by cases p <;> rfl
  have hq : polQ p st.m st.m = st.m := by cases p <;> rfl
  rw [hp, hq]
  exact hUpdate_matched (hc i h1 h2)

/-- Index-matched layers leave the recursion in the state of the last one. -/
theorem hFinal_matched {x : ℂ} {xs : List ℂ}
    (hc : ∀ y ∈ (x :: xs).dropLast, ∀ i, 1 ≤ i → i ≤ n → solverEps ≤ ‖D y i - d3Fn D y i‖) :
    SameState n (hFinal D (1, x) (xs.map fun y => (1, y))) (hInit D (1, (x :: xs).getLast (by simp))) := by
  unfold hFinal
  induction xs generalizing x with
  | nil => exact ⟨rfl, rfl, fun _ _ _ _ => rfl⟩
  | cons y xs ih =>
    have h1 : SameState n (hStep D (hInit D (1, x)) (1, y)) (hInit D (1, y)) := by
      refine hStep_matched (st := hInit D (1, x)) (fun _ _ _ _ => rfl) y ?_
      intro i h1 h2
      have := hc x (by simp) i h1 h2
      simpa [hInit] using this
    have h2 := ih (x := y) (fun z hz i h1 h2 => hc z (by
      rw [List.dropLast_cons_of_ne_nil (by simp)]; exact List.mem_cons_of_mem _ hz) i h1 h2)
    have h3 := SameState.fold (D := D) (xs.map fun y => ((1 : ℂ), y)) h1
    rw [List.map_cons, List.foldl_cons, List.getLast_cons (by simp)]
    exact ⟨h3.m.trans h2.m, h3.x.trans h2.x, fun p i a b => (h3.H p i a b).trans (h2.H p i a b)⟩

/-- The numerator of the scattering coefficient vanishes for an index-matched sphere. -/
theorem coef_matched {x : ℂ} {i : ℕ} (h1 : 1 ≤ i) (hx : solverEps ≤ ‖x‖)
    (hrec : D x (i - 1) = (i : ℂ) / x - 1 / (D x i + (i : ℂ) / x)) (hne : D x i + (i : ℂ) / x ≠ 0) (p : Pol) :
    coefFn D p (hInit D (1, x)) i = 0 := by
  obtain ⟨j, rfl⟩ : ∃ j, i = j + 1 := ⟨i - 1, by omega⟩
  unfold coefFn finalCoef
  have ho : polOut p (hInit D (1, x)).m ((hInit D (1, x)).H p (j + 1)) = D x (j + 1) := by
    cases p <;> simp [polOut, hInit]
  have hxx : (hInit D (1, x)).x = x := rfl
  rw [ho, hxx, guardAdd_of_le hx]
  simp only [Nat.add_sub_cancel] at hrec ⊢
  have e : psiFn D x (j + 1) = psiFn D x j * (((j + 1 : ℕ) : ℂ) / x - D x j) := by
    simp only [psiFn, prodSeq, guardAdd_of_le hx]
  rw [e, hrec]
  have : (D x (j + 1) + ((j + 1 : ℕ) : ℂ) / x) * (psiFn D x j * (((j + 1 : ℕ) : ℂ) / x -
      (((j + 1 : ℕ) : ℂ) / x - 1 / (D x (j + 1) + ((j + 1 : ℕ) : ℂ) / x)))) - psiFn D x j = 0 := by
    have : (((j + 1 : ℕ) : ℂ) / x - (((j + 1 : ℕ) : ℂ) / x - 1 / (D x (j + 1) + ((j + 1 : ℕ) : ℂ) / x))) =
      1 / (D x (j + 1) + ((j + 1 : ℕ) : ℂ) / x) := by ring
    rw [this]
    field_simp
    ring
  rw [this, zero_div]

/-! ## Splitting -/

/-- The interface ratios multiply. -/
theorem qFn_mul {z0 z1 z2 x0 x1 x2 : ℂ} (h1 : QClear D n z0 z1 x1) (h2 : QClear D n z1 z2 x2) :
    ∀ k ≤ n, qFn D z0 z1 x0 x1 k * qFn D z1 z2 x1 x2 k = qFn D z0 z2 x0 x2 k := by
  have ne : ∀ {v : ℂ}, solverEps < ‖v‖ → v ≠ 0 := by
    intro v hv h0; rw [h0, norm_zero] at hv; linarith [solverEps_pos]
  intro k
  induction k with
  | zero =>
    intro _
    simp only [qFn, qVal]
    rw [guardAdd_of_le h1.den0.le, guardAdd_of_le h2.den0.le]
    have n1 := ne h1.den0
    have n2 := ne h2.den0
    have e : (exp ((-2 * (z1.im - z0.im) : ℝ) : ℂ)) * exp ((-2 * (z2.im - z1.im) : ℝ) : ℂ) =
        exp ((-2 * (z2.im - z0.im) : ℝ) : ℂ) := by
      rw [← exp_add]; congr 1; push_cast; ring
    rw [← e]
    generalize exp (-2 * I * z1.re) - exp (-2 * z1.im : ℝ) = A at *
    generalize exp (-2 * I * z2.re) - exp (-2 * z2.im : ℝ) = B at *
    field_simp
  | succ k ih =>
    intro hk
    have ih := ih (by omega)
    have d0 := h1.den k hk
    have d1 := h2.den k hk
    have n0 := ne d0
    have n1 := ne d1
    have nx1 := ne h1.outer
    have nx2 := ne h2.outer
    simp only [qFn, qVal] at ih ⊢
    rw [← ih, guardAdd_of_le d0.le, guardAdd_of_le d1.le, guardAdd_of_le h1.outer.le,
      guardAdd_of_le h2.outer.le]
    generalize qVal z0 z1 x0 x1 solverEps (D z0) (D z1) (d3Fn D z0) (d3Fn D z1) k = A
    generalize qVal z1 z2 x1 x2 solverEps (D z1) (D z2) (d3Fn D z1) (d3Fn D z2) k = B
    generalize (z1 * D z1 (k + 1) + ((k + 1 : ℕ) : ℂ)) * (((k + 1 : ℕ) : ℂ) - z1 * d3Fn D z1 k) = C at *
    generalize (z0 * D z0 (k + 1) + ((k + 1 : ℕ) : ℂ)) * (((k + 1 : ℕ) : ℂ) - z0 * d3Fn D z0 k) = E at *
    field_simp

theorem hUpdate_split {p q m H d1 d3 e1 e3 f1 f3 Q1 Q2 : ℂ}
    (h1 : solverEps < ‖(p * H - q * d3) - Q1 * (p * H - q * d1)‖)
    (h2 : solverEps < ‖(m * hUpdate p q H d1 d3 e1 e3 Q1 - m * e3) - Q2 * (m * hUpdate p q H d1 d3 e1 e3 Q1 - m * e1)‖)
    (h3 : solverEps < ‖(p * H - q * d3) - Q1 * Q2 * (p * H - q * d1)‖) :
    hUpdate m m (hUpdate p q H d1 d3 e1 e3 Q1) e1 e3 f1 f3 Q2 = hUpdate p q H d1 d3 f1 f3 (Q1 * Q2) := by
  have ne : ∀ {v : ℂ}, solverEps < ‖v‖ → v ≠ 0 := by
    intro v hv h0; rw [h0, norm_zero] at hv; linarith [solverEps_pos]
  have n1 := ne h1
  have n2 := ne h2
  have n3 := ne h3
  have hU : hUpdate p q H d1 d3 e1 e3 Q1 =
      ((p * H - q * d3) * e1 - Q1 * (p * H - q * d1) * e3) / ((p * H - q * d3) - Q1 * (p * H - q * d1)) := by
    unfold hUpdate; simp only; rw [guardAdd_of_le h1.le]
  generalize hUe : hUpdate p q H d1 d3 e1 e3 Q1 = U at *
  unfold hUpdate
  simp only
  rw [guardAdd_of_le h2.le, guardAdd_of_le h3.le, div_eq_div_iff n2 n3]
  generalize p * H - q * d3 = G2 at *
  generalize p * H - q * d1 = G1 at *
  have a1 : (m * U - m * e1) * (G2 - Q1 * G1) = m * (Q1 * G1) * (e1 - e3) := by
    rw [hU]; field_simp; ring
  have a2 : (m * U - m * e3) * (G2 - Q1 * G1) = m * G2 * (e1 - e3) := by
    rw [hU]; field_simp; ring
  have key : ((m * U - m * e3) * f1 - Q2 * (m * U - m * e1) * f3) * (G2 - Q1 * Q2 * G1) * (G2 - Q1 * G1) =
      (G2 * f1 - Q1 * Q2 * G1 * f3) * ((m * U - m * e3) - Q2 * (m * U - m * e1)) * (G2 - Q1 * G1) := by
    linear_combination (G2 - Q1 * Q2 * G1) * f1 * a2 - (G2 - Q1 * Q2 * G1) * Q2 * f3 * a1 -
      (G2 * f1 - Q1 * Q2 * G1 * f3) * a2 + (G2 * f1 - Q1 * Q2 * G1 * f3) * Q2 * a1
  exact mul_right_cancel₀ n1 key

/-- Two steps through the same medium equal one. -/
theorem hStep_split {st : HState} {m x1 x2 : ℂ} (c1 : StepClear D n st (m, x1))
    (c2 : StepClear D n (hStep D st (m, x1)) (m, x2)) (c3 : StepClear D n st (m, x2)) :
    SameState n (hStep D (hStep D st (m, x1)) (m, x2)) (hStep D st (m, x2)) := by
  refine ⟨rfl, rfl, ?_⟩
  intro p i h1 hi
  have q := qFn_mul (x0 := st.x) c1.q c2.q i hi
  have hp : polP p m m = m := by cases p <;> rfl
  have hq : polQ p m m = m := by cases p <;> rfl
  have d1 := c1.den p i h1 hi
  have d2 := c2.den p i h1 hi
  have d3 := c3.den p i h1 hi
  simp only [hDen, hStep, hp, hq] at d1 d2 d3 q ⊢
  rw [← q] at d3 ⊢
  exact hUpdate_split d1 d2 d3

/-- The same inside the core. -/
theorem core_split {rest : List (ℂ × ℂ)} {m x1 x2 : ℂ} (c : RunClear D n (hInit D (m, x1)) ((m, x2) :: rest)) :
    SameState n (hStep D (hInit D (m, x1)) (m, x2)) (hInit D (m, x2)) := by
  refine hStep_matched (st := hInit D (m, x1)) (fun _ _ _ _ => rfl) x2 ?_
  intro i h1 hi
  have := c.1.den .tm i h1 hi
  simp only [hDen, hInit, polP, polQ, sub_self, mul_zero, sub_zero] at this
  rw [mul_sub]
  exact this.le

theorem runClear_append {st : HState} : ∀ (pre rest : List (ℂ × ℂ)), RunClear D n st (pre ++ rest) →
    RunClear D n (pre.foldl (hStep D) st) rest := by
  intro pre
  induction pre generalizing st with
  | nil => intro rest h; exact h
  | cons l pre ih => intro rest h; exact ih rest h.2

/-- Splitting a layer of the list. -/
theorem split_coef {pre post : List (ℂ × ℂ)} {m x1 x2 : ℂ} {l l' : ℂ × ℂ} {rest rest' : List (ℂ × ℂ)}
    (e : pre ++ (m, x2) :: post = l :: rest) (e' : pre ++ (m, x1) :: (m, x2) :: post = l' :: rest')
    (c : SolverClear D n (pre ++ (m, x2) :: post)) (c' : SolverClear D n (pre ++ (m, x1) :: (m, x2) :: post))
    (p : Pol) {i : ℕ} (h1 : 1 ≤ i) (hi : i ≤ n) :
    coefFn D p (hFinal D l' rest') i = coefFn D p (hFinal D l rest) i := by
  refine SameState.coef ?_ p h1 hi
  cases pre with
  | nil =>
    simp only [List.nil_append, List.cons.injEq] at e e'
    obtain ⟨rfl, rfl⟩ := e
    obtain ⟨rfl, rfl⟩ := e'
    exact SameState.fold post (core_split c'.2)
  | cons a pre =>
    simp only [List.cons_append, List.cons.injEq] at e e'
    obtain ⟨rfl, rfl⟩ := e
    obtain ⟨rfl, rfl⟩ := e'
    unfold hFinal
    rw [List.foldl_append, List.foldl_append]
    have r := runClear_append pre _ c.2
    have r' := runClear_append pre _ c'.2
    exact SameState.fold post (hStep_split r'.1 r'.2.1 r.1)

end MieDiff
