import Verif.Spec.CoreShell
import Verif.Props.Solver
import Verif.Props.Invariance

/-!
# Property theorems C12, C13, C49: core-shell closed form, agreement of the backends, dispatch
-/

namespace MieDiff

open Complex Spec

/-! ## C12 -/

/-- The inputs of the closed form at one order, as data of the specification. -/
def CoreShellIn.data (p : CoreShellIn) : CoatedData :=
  { m1 := p.m1, m2 := p.m2
    psi1x := ⟨p.psi_m1x, p.dpsi_m1x⟩
    psi2x := ⟨p.psi_m2x, p.dpsi_m2x⟩
    chi2x := ⟨p.chi_m2x, p.dchi_m2x⟩
    psi2y := ⟨p.psi_m2y, p.dpsi_m2y⟩
    chi2y := ⟨p.chi_m2y, p.dchi_m2y⟩
    psiy := ⟨p.psi_y, p.dpsi_y⟩
    xiy := ⟨p.xi_y, p.dxi_y⟩ }

theorem CoatedTM.of_order (p : CoreShellIn) (hTM : coatedDetTM p.data ≠ 0) :
    CoatedTM p.data (miecoefOrder p).a (miecoefOrder p).d (miecoefOrder p).g (miecoefOrder p).w := by
  obtain ⟨m1, m2, py, p1, p2, q2, c2, e2, xy, py', p1', p2', q2', c2', e2', xy'⟩ := p
  simp only [coatedDetTM, CoreShellIn.data] at hTM
  set E := m2 * xy' * ((m1 * c2' * p1 - m2 * c2 * p1') * q2 - (m1 * p2' * p1 - m2 * p2 * p1') * e2) -
      xy * ((m1 * c2' * p1 - m2 * c2 * p1') * q2' - (m1 * p2' * p1 - m2 * p2 * p1') * e2') with hE
  have inv : ∀ E', E' = E → (1 : ℂ) / E' = 1 / E := fun E' h => by rw [h]
  constructor <;> simp only [miecoefOrder, CoreShellIn.data] <;> rw [inv _ (by rw [hE]; ring)] <;> field_simp <;>
    (try rw [hE]) <;> ring

theorem CoatedTE.of_order (p : CoreShellIn) (hTE : coatedDetTE p.data ≠ 0) :
    CoatedTE p.data (miecoefOrder p).b (miecoefOrder p).c (miecoefOrder p).f (miecoefOrder p).v := by
  obtain ⟨m1, m2, py, p1, p2, q2, c2, e2, xy, py', p1', p2', q2', c2', e2', xy'⟩ := p
  simp only [coatedDetTE, CoreShellIn.data] at hTE
  set E := xy' * ((m2 * c2' * p1 - m1 * c2 * p1') * q2 - (m2 * p2' * p1 - m1 * p2 * p1') * e2) -
      m2 * xy * ((m2 * c2' * p1 - m1 * c2 * p1') * q2' - (m2 * p2' * p1 - m1 * p2 * p1') * e2') with hE
  have inv : ∀ E', E' = E → (1 : ℂ) / E' = 1 / E := fun E' h => by rw [h]
  constructor <;> simp only [miecoefOrder, CoreShellIn.data] <;> rw [inv _ (by rw [hE]; ring)] <;> field_simp <;>
    (try rw [hE]) <;> ring

/-- C12: for arbitrary values of the special functions and indices with nonzero determinants, the eight coefficients
satisfy all eight boundary equations. -/
theorem C12_boundary_equations (p : CoreShellIn) (hTM : coatedDetTM p.data ≠ 0) (hTE : coatedDetTE p.data ≠ 0) :
    CoatedTE p.data (miecoefOrder p).b (miecoefOrder p).c (miecoefOrder p).f (miecoefOrder p).v ∧
    CoatedTM p.data (miecoefOrder p).a (miecoefOrder p).d (miecoefOrder p).g (miecoefOrder p).w :=
  ⟨CoatedTE.of_order p hTE, CoatedTM.of_order p hTM⟩

theorem CoatedTM.unique {p : CoatedData} {a d g w a' d' g' w' : ℂ} (hD : coatedDetTM p ≠ 0) (h : CoatedTM p a d g w)
    (h' : CoatedTM p a' d' g' w') : a = a' ∧ d = d' ∧ g = g' ∧ w = w' := by
  obtain ⟨m1, m2, ⟨p1, p1'⟩, ⟨P, P'⟩, ⟨C, C'⟩, ⟨q, q'⟩, ⟨e, e'⟩, ⟨py, py'⟩, ⟨xy, xy'⟩⟩ := p
  obtain ⟨r1, r2, r3, r4⟩ := h
  obtain ⟨s1, s2, s3, s4⟩ := h'
  simp only [coatedDetTM] at *
  refine ⟨?_, ?_, ?_, ?_⟩ <;> refine mul_left_cancel₀ hD ?_
  · linear_combination (-(q * e' - q' * e) * p1) * (r1 - s1) + (q * e' - q' * e) * m2 * p1' * (r2 - s2) +
      ((m1 * C' * p1 - m2 * C * p1') * q - (m1 * P' * p1 - m2 * P * p1') * e) * (r3 - s3) -
      ((m1 * C' * p1 - m2 * C * p1') * q' - (m1 * P' * p1 - m2 * P * p1') * e') * (r4 - s4)
  · linear_combination -(m2 * xy' * (e * P - q * C) + xy * (q' * C - e' * P)) * (r1 - s1) -
      m1 * (m2 * xy' * (q * C' - e * P') - xy * (q' * C' - e' * P')) * (r2 - s2) -
      m1 * xy * (P * C' - C * P') * (r3 - s3) + m1 * m2 * xy' * (P * C' - C * P') * (r4 - s4)
  · linear_combination (xy * e' - m2 * xy' * e) * p1 * (r1 - s1) - (xy * e' - m2 * xy' * e) * m2 * p1' * (r2 - s2) -
      (m1 * C' * p1 - m2 * C * p1') * xy * (r3 - s3) + (m1 * C' * p1 - m2 * C * p1') * m2 * xy' * (r4 - s4)
  · linear_combination (xy * q' - m2 * xy' * q) * p1 * (r1 - s1) - (xy * q' - m2 * xy' * q) * m2 * p1' * (r2 - s2) -
      (m1 * P' * p1 - m2 * P * p1') * xy * (r3 - s3) + (m1 * P' * p1 - m2 * P * p1') * m2 * xy' * (r4 - s4)

def swapJet (j : Jet) : Jet := ⟨j.der, j.val⟩

def swapData (p : CoatedData) : CoatedData :=
  { m1 := p.m1, m2 := p.m2, psi1x := swapJet p.psi1x, psi2x := swapJet p.psi2x, chi2x := swapJet p.chi2x
    psi2y := swapJet p.psi2y, chi2y := swapJet p.chi2y, psiy := swapJet p.psiy, xiy := swapJet p.xiy }

theorem CoatedTE.unique {p : CoatedData} {b c f v b' c' f' v' : ℂ} (hD : coatedDetTE p ≠ 0) (h : CoatedTE p b c f v)
    (h' : CoatedTE p b' c' f' v') : b = b' ∧ c = c' ∧ f = f' ∧ v = v' := by
  have e : coatedDetTM (swapData p) = coatedDetTE p := by
    simp only [coatedDetTM, coatedDetTE, swapData, swapJet]; ring
  exact CoatedTM.unique (p := swapData p) (by rw [e]; exact hD) ⟨h.1, h.2, h.3, h.4⟩ ⟨h'.1, h'.2, h'.3, h'.4⟩

/-- C12: they are the only solution. -/
theorem C12_unique (p : CoreShellIn) (hTM : coatedDetTM p.data ≠ 0) (hTE : coatedDetTE p.data ≠ 0)
    {a b c d f g v w : ℂ} (h1 : CoatedTE p.data b c f v) (h2 : CoatedTM p.data a d g w) :
    miecoefOrder p = ⟨a, b, c, d, f, g, v, w⟩ := by
  obtain ⟨e1, e2, e3, e4⟩ := CoatedTE.unique hTE (CoatedTE.of_order p hTE) h1
  obtain ⟨e5, e6, e7, e8⟩ := CoatedTM.unique hTM (CoatedTM.of_order p hTM) h2
  cases hh : miecoefOrder p
  rw [hh] at e1 e2 e3 e4 e5 e6 e7 e8
  simp only at *
  subst_vars
  rfl

/-- Both determinants are nonzero for some data with two different indices. -/
example : ∃ p : CoreShellIn, p.m1 = 2 ∧ p.m2 = 3 ∧ coatedDetTM p.data ≠ 0 ∧ coatedDetTE p.data ≠ 0 := by
  refine ⟨⟨2, 3, 1, 1, 2, 5, 1, 1, 1, 0, 1, 1, 1, 2, 3, 7⟩, rfl, rfl, ?_, ?_⟩ <;>
    norm_num [coatedDetTM, coatedDetTE, CoreShellIn.data]

/-! ### Exact special functions -/

/-- The backend returns the spherical Bessel functions at `z`. -/
structure ExactAt (S : BesselBackend) (n : ℕ) (z : ℂ) : Prop where
  ne : z ≠ 0
  j : S.jn n z = .ok (tab n fun k => sphJ k z)
  y : S.yn n z = .ok (tab n fun k => sphY k z)

/-- Value and derivative of the Riccati functions. -/
noncomputable def psiJet (n : ℕ) (z : ℂ) : Jet := ⟨ricPsi n z, deriv (ricPsi n) z⟩
noncomputable def chiJet (n : ℕ) (z : ℂ) : Jet := ⟨ricChi n z, deriv (ricChi n) z⟩
noncomputable def zetaJet (n : ℕ) (z : ℂ) : Jet := ⟨ricZeta n z, deriv (ricZeta n) z⟩

/-- The coated-sphere data with exact Riccati functions. -/
noncomputable def coatedData (n : ℕ) (m1 m2 x y : ℂ) : CoatedData :=
  { m1 := m1, m2 := m2
    psi1x := psiJet n (m1 * x), psi2x := psiJet n (m2 * x), chi2x := chiJet n (m2 * x)
    psi2y := psiJet n (m2 * y), chi2y := chiJet n (m2 * y), psiy := psiJet n y, xiy := zetaJet n y }

noncomputable def exactIn (n : ℕ) (m1 m2 x y : ℂ) : CoreShellIn :=
  { m1 := m1, m2 := m2, psi_y := ricPsi n y, psi_m1x := ricPsi n (m1 * x), psi_m2x := ricPsi n (m2 * x)
    psi_m2y := ricPsi n (m2 * y), chi_m2x := ricChi n (m2 * x), chi_m2y := ricChi n (m2 * y), xi_y := ricZeta n y
    dpsi_y := deriv (ricPsi n) y, dpsi_m1x := deriv (ricPsi n) (m1 * x), dpsi_m2x := deriv (ricPsi n) (m2 * x)
    dpsi_m2y := deriv (ricPsi n) (m2 * y), dchi_m2x := deriv (ricChi n) (m2 * x)
    dchi_m2y := deriv (ricChi n) (m2 * y), dxi_y := deriv (ricZeta n) y }

theorem deriv_ric_of {f : ℕ → ℂ → ℂ} (hf : BesselSeq f) (k : ℕ) {z : ℂ} (hz : z ≠ 0) :
    HasDerivAt (fun w => w * f k w) (f k z + z * deriv (f k) z) z :=
  ((hasDerivAt_id z).mul (hf.raise k z hz).differentiableAt.hasDerivAt).congr_deriv (by simp)

theorem deriv_psi_of (k : ℕ) {z : ℂ} (hz : z ≠ 0) : sphJ k z + z * deriv (sphJ k) z = deriv (ricPsi k) z :=
  (deriv_ric_of sphJ_seq k hz).deriv.symm

theorem deriv_zeta_of (k : ℕ) {z : ℂ} (hz : z ≠ 0) :
    sphH k z + z * (deriv (sphJ k) z + I * deriv (sphY k) z) = deriv (ricZeta k) z := by
  have h1 := (deriv_ric_of sphH_seq k hz).deriv
  have h2 : deriv (sphH k) z = deriv (sphJ k) z + I * deriv (sphY k) z :=
    ((sphJ_seq.raise k z hz).differentiableAt.hasDerivAt.add
      ((sphY_seq.raise k z hz).differentiableAt.hasDerivAt.const_mul I)).deriv
  rw [← h2]
  exact h1.symm

theorem hasDerivAt_chi (k : ℕ) {z : ℂ} (hz : z ≠ 0) :
    HasDerivAt (ricChi k) (-sphY k z - z * deriv (sphY k) z) z := by
  have h := (deriv_ric_of sphY_seq k hz).neg
  have e : ricChi k = fun w => -(w * sphY k w) := by funext w; unfold ricChi; ring
  rw [e]
  exact h.congr_deriv (by ring)

/-- `_miecoef` with exact special functions. -/
theorem miecoef4_exact {S S1 S2 S3 : BesselBackend} {n : ℕ} {x y m1 m2 : ℂ} (hy : ExactAt S (n + 1) y)
    (h1 : ExactAt S1 (n + 1) (m1 * x)) (h2 : ExactAt S2 (n + 1) (m2 * x)) (h3 : ExactAt S3 (n + 1) (m2 * y)) :
    miecoef4 S S1 S2 S3 x y ((n + 1 : ℕ) : ℤ) m1 m2 = .ok (tab n fun i => miecoefOrder (exactIn (i + 1) m1 m2 x y)) := by
  unfold miecoef4
  rw [hy.j, hy.y, h1.j, h2.j, h3.j, h2.y, h3.y]
  simp only [Bind.bind, Except.bind]
  rw [fDer_eq sphJ_seq n hy.ne, fDer_eq sphJ_seq n h1.ne, fDer_eq sphJ_seq n h2.ne, fDer_eq sphJ_seq n h3.ne,
    fDer_eq sphY_seq n hy.ne, fDer_eq sphY_seq n h2.ne, fDer_eq sphY_seq n h3.ne]
  simp only [h1Of, zipWith_tab, tab_length]
  congr 1
  rw [← tab_tail n (fun i => miecoefOrder (exactIn i m1 m2 x y))]
  congr 1
  refine List.map_congr_left fun i hi => ?_
  have hi' : i ≤ n + 1 := by have := List.mem_range.1 hi; omega
  simp only [tab_getD hi']
  congr 1
  have c2 := (hasDerivAt_chi i h2.ne).deriv
  have c3 := (hasDerivAt_chi i h3.ne).deriv
  have z1 := deriv_zeta_of i hy.ne
  simp only [sphH] at z1
  simp only [exactIn, ← c2, ← c3, ← z1, ← deriv_psi_of i hy.ne, ← deriv_psi_of i h1.ne, ← deriv_psi_of i h2.ne,
    ← deriv_psi_of i h3.ne]
  rfl

theorem miecoef_exact {S : BesselBackend} {n : ℕ} {x y m1 m2 : ℂ} (hy : ExactAt S (n + 1) y)
    (h1 : ExactAt S (n + 1) (m1 * x)) (h2 : ExactAt S (n + 1) (m2 * x)) (h3 : ExactAt S (n + 1) (m2 * y)) :
    miecoef S x y ((n + 1 : ℕ) : ℤ) m1 m2 = .ok (tab n fun i => miecoefOrder (exactIn (i + 1) m1 m2 x y)) :=
  miecoef4_exact hy h1 h2 h3

/-- The shell wave of the closed form, `g psi - w chi`, as a combination of `psi` and `zeta`. -/
noncomputable def shellWave (g w : ℂ) : Wave := ⟨g + I * w, I * w⟩

theorem ricChi_eq (n : ℕ) (z : ℂ) : ricChi n z = I * (ricZeta n z - ricPsi n z) := by
  simp only [ricChi, ricZeta, ricPsi, sphH]
  linear_combination (-z * sphY n z) * I_sq

theorem deriv_ricChi_eq (n : ℕ) {z : ℂ} (hz : z ≠ 0) :
    deriv (ricChi n) z = I * (deriv (ricZeta n) z - deriv (ricPsi n) z) := by
  rw [(hasDerivAt_chi n hz).deriv, ← deriv_zeta_of n hz, ← deriv_psi_of n hz]
  simp only [sphH]
  linear_combination (-(sphY n z + z * deriv (sphY n) z)) * I_sq

theorem shellWave_val (g w : ℂ) (n : ℕ) (z : ℂ) :
    (shellWave g w).val n z = g * ricPsi n z - w * ricChi n z := by
  rw [ricChi_eq]; simp only [shellWave, Wave.val]; ring

theorem shellWave_der (g w : ℂ) (n : ℕ) {z : ℂ} (hz : z ≠ 0) :
    (shellWave g w).der n z = g * deriv (ricPsi n) z - w * deriv (ricChi n) z := by
  rw [deriv_ricChi_eq n hz]; simp only [shellWave, Wave.der]; ring

/-- The boundary equations of a coated sphere are the interface problem of the specification. -/
theorem chain_of_TM {n : ℕ} {m1 m2 x y a d g w : ℂ} (h2 : m2 * x ≠ 0) (h3 : m2 * y ≠ 0)
    (h : CoatedTM (coatedData n m1 m2 x y) a d g w) :
    Chain .tm n ⟨d, 0⟩ [(m1, x), (m2, y)] ⟨1, a⟩ := by
  obtain ⟨r1, r2, r3, r4⟩ := h
  simp only [coatedData, psiJet, chiJet, zetaJet] at r1 r2 r3 r4
  refine ⟨shellWave g w, ⟨?_, ?_⟩, ?_, ?_⟩
  · rw [shellWave_val]; simp only [Wave.val]; linear_combination -r2
  · rw [shellWave_der _ _ _ h2]; simp only [Wave.der]; linear_combination -r1
  · rw [shellWave_val]; simp only [Wave.val, one_mul]; linear_combination r4
  · rw [shellWave_der _ _ _ h3]; simp only [Wave.der, one_mul]; linear_combination r3

theorem chain_of_TE {n : ℕ} {m1 m2 x y b c f v : ℂ} (h2 : m2 * x ≠ 0) (h3 : m2 * y ≠ 0)
    (h : CoatedTE (coatedData n m1 m2 x y) b c f v) :
    Chain .te n ⟨c, 0⟩ [(m1, x), (m2, y)] ⟨1, b⟩ := by
  obtain ⟨r1, r2, r3, r4⟩ := h
  simp only [coatedData, psiJet, chiJet, zetaJet] at r1 r2 r3 r4
  refine ⟨shellWave f v, ⟨?_, ?_⟩, ?_, ?_⟩
  · rw [shellWave_val]; simp only [Wave.val]; linear_combination -r1
  · rw [shellWave_der _ _ _ h2]; simp only [Wave.der]; linear_combination -r2
  · rw [shellWave_val]; simp only [Wave.val, one_mul]; linear_combination r3
  · rw [shellWave_der _ _ _ h3]; simp only [Wave.der, one_mul]; linear_combination r4

/-- C12 with exact special functions: every order `a_n`, `b_n` of `_miecoef` solves the two-layer interface problem. -/
theorem C12_solves {S : BesselBackend} {n : ℕ} {x y m1 m2 : ℂ} (hn : 1 ≤ n) (hy : ExactAt S n y)
    (h1 : ExactAt S n (m1 * x)) (h2 : ExactAt S n (m2 * x)) (h3 : ExactAt S n (m2 * y)) {out : List CoreShellOut}
    (h : miecoef S x y n m1 m2 = .ok out) :
    out.length = n ∧ ∀ i, 1 ≤ i → i ≤ n → ∃ o, out[i - 1]? = some o ∧
      (coatedDetTM (coatedData i m1 m2 x y) ≠ 0 → Solves .tm i [(m1, x), (m2, y)] o.a) ∧
      (coatedDetTE (coatedData i m1 m2 x y) ≠ 0 → Solves .te i [(m1, x), (m2, y)] o.b) := by
  obtain ⟨n, rfl⟩ : ∃ k, n = k + 1 := ⟨n - 1, by omega⟩
  rw [miecoef_exact hy h1 h2 h3] at h
  injection h with h
  subst h
  refine ⟨by simp, fun i hi1 hi => ⟨miecoefOrder (exactIn i m1 m2 x y), ?_, fun hd => ?_, fun hd => ?_⟩⟩
  · rw [tab_getElem?, if_pos (by omega), Nat.sub_add_cancel hi1]
  · exact ⟨⟨_, 0⟩, rfl, chain_of_TM h2.ne h3.ne (CoatedTM.of_order (exactIn i m1 m2 x y) hd)⟩
  · exact ⟨⟨_, 0⟩, rfl, chain_of_TE h2.ne h3.ne (CoatedTE.of_order (exactIn i m1 m2 x y) hd)⟩

/-! ## C13 -/

/-- A solvable interface problem has a nonzero determinant. -/
theorem det_ne_of_solves {n : ℕ} {m1 m2 x y : ℂ} (hm1 : m1 ≠ 0) (hm2 : m2 ≠ 0) (hx : x ≠ 0) (hy : y ≠ 0) :
    (∀ a, Solves .tm n [(m1, x), (m2, y)] a → coatedDetTM (coatedData n m1 m2 x y) ≠ 0) ∧
    (∀ b, Solves .te n [(m1, x), (m2, y)] b → coatedDetTE (coatedData n m1 m2 x y) ≠ 0) := by
  have hz := mul_ne_zero hm2 hx
  have hz' := mul_ne_zero hm2 hy
  have wy := ric_wronskian n hy
  have wc : ricPsi n (m2 * x) * deriv (ricChi n) (m2 * x) - ricChi n (m2 * x) * deriv (ricPsi n) (m2 * x) = -1 := by
    rw [ricChi_eq, deriv_ricChi_eq n hz]
    have := ric_wronskian n hz
    linear_combination I * this + I_sq
  have hmm := mul_ne_zero (mul_ne_zero hm1 hm2) I_ne_zero
  constructor
  · rintro a ⟨⟨d, c0⟩, rfl, ⟨⟨s, t⟩, ⟨r1, r2⟩, r3, r4⟩⟩ h0
    have e : (⟨s, t⟩ : Wave) = shellWave (s - t) (-I * t) := by
      simp only [shellWave, Wave.mk.injEq]
      constructor <;> linear_combination t * I_sq
    rw [e, shellWave_val] at r1 r3
    rw [e, shellWave_der _ _ _ hz] at r2
    rw [e, shellWave_der _ _ _ hz'] at r4
    generalize s - t = g at *
    generalize -I * t = w at *
    simp only [Wave.val, Wave.der, zero_mul, sub_zero, one_mul, mul_one] at r1 r2 r3 r4
    simp only [coatedDetTM, coatedData, psiJet, chiJet, zetaJet] at h0
    apply hmm
    clear e
    generalize ricPsi n (m1 * x) = p1 at *
    generalize deriv (ricPsi n) (m1 * x) = p1' at *
    generalize ricPsi n (m2 * x) = P at *
    generalize deriv (ricPsi n) (m2 * x) = P' at *
    generalize ricChi n (m2 * x) = C at *
    generalize deriv (ricChi n) (m2 * x) = C' at *
    generalize ricPsi n (m2 * y) = q at *
    generalize deriv (ricPsi n) (m2 * y) = q' at *
    generalize ricChi n (m2 * y) = e at *
    generalize deriv (ricChi n) (m2 * y) = e' at *
    generalize ricPsi n y = py at *
    generalize deriv (ricPsi n) y = py' at *
    generalize ricZeta n y = xy at *
    generalize deriv (ricZeta n) y = xy' at *
    linear_combination m1 * m2 * I * wc + m1 * m2 * (P * C' - C * P') * wy - d * h0 +
      m1 * (P * C' - C * P') * m2 * xy' * r3 - m1 * (P * C' - C * P') * xy * r4 +
      (m2 * xy' * m1 * (C' * q - P' * e) - xy * m1 * (C' * q' - P' * e')) * r1 +
      (m2 * xy' * (-C * q + P * e) - xy * (-C * q' + P * e')) * r2
  · rintro a ⟨⟨d, c0⟩, rfl, ⟨⟨s, t⟩, ⟨r1, r2⟩, r3, r4⟩⟩ h0
    have e : (⟨s, t⟩ : Wave) = shellWave (s - t) (-I * t) := by
      simp only [shellWave, Wave.mk.injEq]
      constructor <;> linear_combination t * I_sq
    rw [e, shellWave_val] at r1 r3
    rw [e, shellWave_der _ _ _ hz] at r2
    rw [e, shellWave_der _ _ _ hz'] at r4
    generalize s - t = g at *
    generalize -I * t = w at *
    simp only [Wave.val, Wave.der, zero_mul, sub_zero, one_mul, mul_one] at r1 r2 r3 r4
    simp only [coatedDetTE, coatedData, psiJet, chiJet, zetaJet] at h0
    apply hmm
    clear e
    generalize ricPsi n (m1 * x) = p1 at *
    generalize deriv (ricPsi n) (m1 * x) = p1' at *
    generalize ricPsi n (m2 * x) = P at *
    generalize deriv (ricPsi n) (m2 * x) = P' at *
    generalize ricChi n (m2 * x) = C at *
    generalize deriv (ricChi n) (m2 * x) = C' at *
    generalize ricPsi n (m2 * y) = q at *
    generalize deriv (ricPsi n) (m2 * y) = q' at *
    generalize ricChi n (m2 * y) = e at *
    generalize deriv (ricChi n) (m2 * y) = e' at *
    generalize ricPsi n y = py at *
    generalize deriv (ricPsi n) y = py' at *
    generalize ricZeta n y = xy at *
    generalize deriv (ricZeta n) y = xy' at *
    linear_combination m1 * m2 * I * wc + m1 * m2 * (P * C' - C * P') * wy - d * h0 +
      m1 * (P' * C - C' * P) * m2 * xy * r4 - m1 * (P' * C - C' * P) * xy' * r3 +
      (m2 * xy * m1 * (C * q' - P * e') - xy' * m1 * (C * q - P * e)) * r2 +
      (m2 * xy * (-C' * q' + P' * e') - xy' * (-C' * q + P' * e)) * r1

theorem cont_refl (q : Pol) (n : ℕ) (m x : ℂ) (w : Wave) : Cont q n m m x w w := by
  cases q <;> exact ⟨rfl, rfl⟩

/-- A layer listed twice is one layer. -/
theorem solves_twice {q : Pol} {n : ℕ} {m x a : ℂ} (hm : m ≠ 0) (hx : x ≠ 0) :
    Solves q n [(m, x), (m, x)] a ↔ Solves q n [(m, x)] a := by
  constructor
  · rintro ⟨c, hc, w', h1, h2⟩
    obtain rfl := Cont.unique hm (mul_ne_zero hm hx) (cont_refl q n m x c) h1
    exact ⟨c, hc, h2⟩
  · rintro ⟨c, hc, h⟩
    exact ⟨c, hc, c, cont_refl q n m x c, h⟩

/-- What a successful call of a core-shell backend did; a homogeneous sphere is treated as core and shell of the same
size and index. -/
structure CoreShellRun (B : Backends) (p : Particle1) (backend w : String) (nMax : Option ℤ) (ri : Bool) (o : MieOut)
    (m1 x m2 y : ℂ) : Prop where
  layers : p.layers = [(m1, x), (m2, y)] ∨ (p.layers = [(m1, x)] ∧ m1 = m2 ∧ x = y)
  order : orderChoice backend.toLower p nMax = .ok o.nMax
  nonneg : 0 ≤ o.nMax
  run : ∃ S out, selectBessel B backend w = .ok S ∧ miecoef S x y o.nMax m1 m2 = .ok out ∧
    o.a = out.map (·.a) ∧ o.b = out.map (·.b) ∧ o.internal = if ri then some out else none

theorem mieCoefficients_cs_inv {K : D1Kernel} {B : Backends} {p : Particle1} {backend w : String}
    {nMax : Option ℤ} {ri : Bool} {o : MieOut} (hb : backend.toLower ≠ "pena")
    (h : mieCoefficients K B p backend w nMax ri = .ok o) :
    ∃ m1 x m2 y, CoreShellRun B p backend w nMax ri o m1 x m2 y := by
  obtain ⟨k0, rs, es, ee⟩ := p
  unfold mieCoefficients at h
  simp only [hb, or_false, if_false] at h
  split at h
  · simp at h
  split at h
  · simp at h
  split at h
  · simp at h
  rename_i hlen
  simp only [not_not] at hlen
  simp only [Bind.bind, Except.bind] at h
  match rs, es, hlen with
  | [], [], _ => simp [pyIdx] at h
  | [r], [e], _ =>
    simp only [pyIdx, List.getElem?_cons_zero, List.length_cons, List.length_nil, zero_add, gt_iff_lt, lt_irrefl,
      if_false] at h
    cases hn : orderChoice backend.toLower ⟨k0, [r], [e], ee⟩ nMax with
    | error e' => rw [hn] at h; simp at h
    | ok n =>
      rw [hn] at h
      simp only [orderRange] at h
      split at h
      · simp at h
      rename_i v hv
      split at hv
      · simp at hv
      rename_i hpos
      rw [if_neg (by norm_num)] at h
      cases hS : selectBessel B backend w with
      | error e' => rw [hS] at h; simp at h
      | ok S =>
        rw [hS] at h
        simp only at h
        cases hm : miecoef S (k0 * csqrt ee * (r : ℂ)) (k0 * csqrt ee * (r : ℂ)) n (csqrt e / csqrt ee)
            (csqrt e / csqrt ee) with
        | error e' => rw [hm] at h; simp at h
        | ok out =>
          rw [hm] at h
          simp only [Except.ok.injEq] at h
          subst h
          exact ⟨_, _, _, _, Or.inr ⟨rfl, rfl, rfl⟩, hn, by simp only; omega, S, out, hS, hm, rfl, rfl, rfl⟩
  | [r, r'], [e, e'], _ =>
    simp only [pyIdx, List.getElem?_cons_zero, List.length_cons, List.length_nil, zero_add, gt_iff_lt] at h
    cases hn : orderChoice backend.toLower ⟨k0, [r, r'], [e, e'], ee⟩ nMax with
    | error e' => rw [hn] at h; simp at h
    | ok n =>
      rw [hn] at h
      simp only [orderRange] at h
      split at h
      · simp at h
      rename_i v hv
      split at hv
      · simp at hv
      rename_i hpos
      rw [if_neg (by norm_num), if_pos (by norm_num), if_pos (by norm_num)] at h
      cases hS : selectBessel B backend w with
      | error e' => rw [hS] at h; simp at h
      | ok S =>
        rw [hS] at h
        simp only [List.getLastD_cons, List.getLastD_nil] at h
        cases hm : miecoef S (k0 * csqrt ee * (r : ℂ)) (k0 * csqrt ee * (r' : ℂ)) n (csqrt e / csqrt ee)
            (csqrt e' / csqrt ee) with
        | error e' => rw [hm] at h; simp at h
        | ok out =>
          rw [hm] at h
          simp only [Except.ok.injEq] at h
          subst h
          exact ⟨_, _, _, _, Or.inl rfl, hn, by simp only; omega, S, out, hS, hm, rfl, rfl, rfl⟩
  | r :: r' :: r'' :: rs, es, hlen =>
    exfalso
    obtain ⟨e, es', rfl⟩ : ∃ e es', es = e :: es' := by
      cases es with
      | nil => simp at hlen
      | cons e es' => exact ⟨e, es', rfl⟩
    simp only [pyIdx, List.getElem?_cons_zero] at h
    split at h
    · simp at h
    split at h
    · simp at h
    rw [if_pos (by simp)] at h
    simp at h

/-- Arguments at which a core-shell backend evaluates its special functions. -/
def csArgs : List (ℂ × ℂ) → List ℂ
  | [(m, x)] => [x, m * x]
  | [(m1, x), (m2, y)] => [y, m1 * x, m2 * x, m2 * y]
  | _ => []

/-- C13: with exact special functions the pena and the torch/scipy backends return the same coefficients for homogeneous
and core-shell particles. -/
theorem C13_backends_agree {K : D1Kernel} {B : Backends} {p : Particle1} {pena w backend w' : String}
    {nMax nMax' : Option ℤ} {ri : Bool} {o o' : MieOut} (hb : pena.toLower = "pena") (hb' : backend.toLower ≠ "pena")
    (h : mieCoefficients idealD1 B p pena w nMax = .ok o) (h' : mieCoefficients K B p backend w' nMax' ri = .ok o')
    (hn : o'.nMax = o.nMax) (hc : SolverClear idealFn o.nMax.toNat p.layers)
    (hS : ∀ S, selectBessel B backend w' = .ok S → ∀ z ∈ csArgs p.layers, ExactAt S o.nMax.toNat z) :
    o'.a = o.a ∧ o'.b = o.b := by
  have hpos := (mieCoefficients_pena_inv hb h).pos
  obtain ⟨l1, l2, hsol⟩ := C11_interface_conditions hb h hc
  obtain ⟨m1, x, m2, y, run⟩ := mieCoefficients_cs_inv hb' h'
  obtain ⟨S, out, hsel, hm, ea, eb, -⟩ := run.run
  have hex := hS S hsel
  have hN : ((o.nMax.toNat : ℕ) : ℤ) = o.nMax := Int.toNat_of_nonneg (by omega)
  rw [hn, ← hN] at hm
  have hl := run.layers
  have hne := hc.ne
  obtain ⟨a1, a2, a3, a4, n1, n2, n3, n4, hiff⟩ : ExactAt S o.nMax.toNat y ∧ ExactAt S o.nMax.toNat (m1 * x) ∧
      ExactAt S o.nMax.toNat (m2 * x) ∧ ExactAt S o.nMax.toNat (m2 * y) ∧ m1 ≠ 0 ∧ m2 ≠ 0 ∧ x ≠ 0 ∧ y ≠ 0 ∧
      ∀ q i a, Solves q i [(m1, x), (m2, y)] a ↔ Solves q i p.layers a := by
    rcases hl with hl | ⟨hl, rfl, rfl⟩
    · rw [hl] at hex hne ⊢
      have e1 := hne (m1, x) (by simp)
      have e2 := hne (m2, y) (by simp)
      exact ⟨hex _ (by simp [csArgs]), hex _ (by simp [csArgs]), hex _ (by simp [csArgs]), hex _ (by simp [csArgs]),
        e1.1, e2.1, e1.2, e2.2, fun _ _ _ => Iff.rfl⟩
    · rw [hl] at hex hne ⊢
      have e1 := hne (m1, x) (by simp)
      have z := hex (m1 * x) (by simp [csArgs])
      exact ⟨hex _ (by simp [csArgs]), z, z, z, e1.1, e1.1, e1.2, e1.2, fun q i a => solves_twice e1.1 e1.2⟩
  obtain ⟨lo, hout⟩ := C12_solves (by omega) a1 a2 a3 a4 hm
  have key : ∀ i, 1 ≤ i → i ≤ o.nMax.toNat → ∃ c : CoreShellOut, out[i - 1]? = some c ∧ o.a[i - 1]? = some c.a ∧
      o.b[i - 1]? = some c.b := by
    intro i h1 hi
    obtain ⟨c, hc1, hc2, hc3⟩ := hout i h1 hi
    obtain ⟨a, b, ha, hb, sa, ua, sb, ub⟩ := hsol i h1 hi
    obtain ⟨d1, d2⟩ := det_ne_of_solves (n := i) n1 n2 n3 n4
    have s1 := (hiff .tm i c.a).1 (hc2 (d1 a ((hiff .tm i a).2 sa)))
    have s2 := (hiff .te i c.b).1 (hc3 (d2 b ((hiff .te i b).2 sb)))
    exact ⟨c, hc1, by rw [ha, ua _ s1], by rw [hb, ub _ s2]⟩
  have ext : ∀ (f : CoreShellOut → ℂ) (l : List ℂ), l.length = o.nMax.toNat →
      (∀ i, 1 ≤ i → i ≤ o.nMax.toNat → ∃ c : CoreShellOut, out[i - 1]? = some c ∧ l[i - 1]? = some (f c)) →
      out.map f = l := by
    intro f l hll hf
    apply List.ext_getElem?
    intro j
    rw [List.getElem?_map]
    by_cases hj : j < o.nMax.toNat
    · obtain ⟨c, e1, e2⟩ := hf (j + 1) (by omega) (by omega)
      rw [Nat.add_sub_cancel] at e1 e2
      rw [e1, e2]; rfl
    · rw [List.getElem?_eq_none (by omega), List.getElem?_eq_none (by omega)]; rfl
  refine ⟨?_, ?_⟩
  · rw [ea]
    exact ext _ _ l1 fun i h1 hi => let ⟨c, e1, e2, _⟩ := key i h1 hi; ⟨c, e1, e2⟩
  · rw [eb]
    exact ext _ _ l2 fun i h1 hi => let ⟨c, e1, _, e3⟩ := key i h1 hi; ⟨c, e1, e3⟩

/-- Special functions given by Rayleigh's formula. -/
noncomputable def exactBessel : BesselBackend where
  jn n z := .ok (tab n.toNat fun k => sphJ k z)
  yn n z := .ok (tab n.toNat fun k => sphY k z)

noncomputable def exactBackends : Backends := ⟨exactBessel, exactBessel, exactBessel⟩

theorem exactBessel_at {n : ℕ} {z : ℂ} (hz : z ≠ 0) : ExactAt exactBessel n z := ⟨hz, rfl, rfl⟩

/-- A core-shell call with well-formed layers and exact special functions succeeds. -/
theorem mieCoefficients_torch_ok {K : D1Kernel} {p : Particle1} {r r' : ℝ} {e e' : ℂ} {n : ℕ}
    (hr : p.rLayers = [r, r']) (he : p.epsLayers = [e, e']) (hlt : r < r')
    (h : ∀ z ∈ csArgs p.layers, z ≠ 0) (ri : Bool := false) :
    ∃ o, mieCoefficients K exactBackends p "torch" "recurrence" (some ((n + 1 : ℕ) : ℤ)) ri = .ok o ∧
      o.nMax = (n + 1 : ℕ) := by
  obtain ⟨k0, rs, es, ee⟩ := p
  simp only at hr he
  subst hr he
  have ht : "torch".toLower = "torch" := by decide +kernel
  have hw : "recurrence".toLower = "recurrence" := by decide +kernel
  have hl : (⟨k0, [r, r'], [e, e'], ee⟩ : Particle1).layers = [(csqrt e / csqrt ee, k0 * csqrt ee * (r : ℂ)),
      (csqrt e' / csqrt ee, k0 * csqrt ee * (r' : ℂ))] := rfl
  rw [hl] at h
  simp only [csArgs, List.mem_cons, List.not_mem_nil, or_false, forall_eq_or_imp, forall_eq] at h
  have hm := miecoef_exact (n := n) (exactBessel_at h.1) (exactBessel_at h.2.1) (exactBessel_at h.2.2.1)
    (exactBessel_at h.2.2.2)
  unfold mieCoefficients
  simp only [ht, true_or, not_true_eq_false, if_false]
  rw [if_neg (by simp [strictlyIncreasing, hlt]), if_neg (by simp)]
  simp only [Bind.bind, Except.bind, pyIdx, List.getElem?_cons_zero, orderChoice, orderRange, selectBessel, ht, hw,
    List.length_cons, List.length_nil]
  rw [if_neg (by push_cast; omega)]
  simp only [show ("torch" = "pena") = False by decide, if_false]
  rw [if_neg (by norm_num), if_neg (by decide), if_pos (by decide), if_pos (by norm_num), if_pos (by norm_num)]
  simp only [List.getLastD_cons, List.getLastD_nil, exactBackends]
  rw [hm]
  exact ⟨_, rfl, rfl⟩

/-- The hypotheses of C13 hold for a core-shell particle. -/
example : ∃ o o', mieCoefficients idealD1 exactBackends demoParticle "pena" "recurrence" (some 1) = .ok o ∧
    mieCoefficients idealD1 exactBackends demoParticle "torch" "recurrence" (some 1) = .ok o' ∧ o'.nMax = o.nMax ∧
    SolverClear idealFn o.nMax.toNat demoParticle.layers ∧
    ∀ S, selectBessel exactBackends "torch" "recurrence" = .ok S → ∀ z ∈ csArgs demoParticle.layers,
      ExactAt S o.nMax.toNat z := by
  obtain ⟨o, h, hn⟩ := demo_run exactBackends
  have hq := qp_odd.big
  have h1 : o.nMax.toNat = 1 := by rw [hn]; rfl
  have hz : ∀ z ∈ csArgs demoParticle.layers, z ≠ 0 := by
    have hqc : (qp : ℂ) ≠ 0 := by exact_mod_cast (by linarith : (qp : ℝ) ≠ 0)
    rw [demo_layers]
    intro z hz
    simp only [demoLayers, csArgs, List.mem_cons, List.not_mem_nil, or_false] at hz
    rcases hz with rfl | rfl | rfl | rfl <;> simp [hqc]
  obtain ⟨o', h', hn'⟩ := mieCoefficients_torch_ok (K := idealD1) (p := demoParticle) (n := 0) rfl rfl
    (by linarith) hz
  refine ⟨o, o', h, h', by rw [hn, hn']; rfl, by rw [h1, demo_layers]; exact demo_clear, ?_⟩
  intro S hS z hzm
  have : S = exactBessel := by
    have ht : "torch".toLower = "torch" := by decide +kernel
    have hw : "recurrence".toLower = "recurrence" := by decide +kernel
    simp only [selectBessel, ht, hw, exactBackends] at hS
    rw [if_neg (by decide), if_pos (by decide)] at hS
    exact (Except.ok.inj hS).symm
  rw [this]
  exact exactBessel_at (hz z hzm)

/-! ## C49 -/

/-- C49: letter case of the names does not matter. -/
theorem C49_case_insensitive (K : D1Kernel) (B : Backends) (p : Particle1) {b b' w w' : String} (nMax : Option ℤ)
    (ri : Bool) (hb : b.toLower = b'.toLower) (hw : w.toLower = w'.toLower) :
    mieCoefficients K B p b w nMax ri = mieCoefficients K B p b' w' nMax ri := by
  unfold mieCoefficients selectBessel
  rw [hb, hw]

example : "PeNa".toLower = "pena".toLower ∧ "Torch".toLower = "torch".toLower := by decide +kernel

/-- C49: unknown names are rejected before anything else is looked at. -/
theorem C49_unknown (K : D1Kernel) (B : Backends) (p : Particle1) {b : String} (w : String) (nMax : Option ℤ)
    (ri : Bool) (hb : b.toLower ≠ "torch" ∧ b.toLower ≠ "scipy" ∧ b.toLower ≠ "pena") :
    mieCoefficients K B p b w nMax ri = .error .valueError := by
  unfold mieCoefficients
  simp only [hb.1, hb.2.1, hb.2.2, or_self, not_false_eq_true, if_true]

example : "treams".toLower ≠ "torch" ∧ "treams".toLower ≠ "scipy" ∧ "treams".toLower ≠ "pena" := by decide +kernel

/-- Layer lists accepted by the input normalisation. -/
structure ValidLayers (p : Particle1) : Prop where
  inc : strictlyIncreasing p.rLayers
  len : p.epsLayers.length = p.rLayers.length
  ne : p.rLayers ≠ []

theorem le_torchRound (x : ℝ) : ⌊x⌋ ≤ torchRound x := by
  unfold torchRound
  simp only
  split_ifs <;> omega

theorem one_le_wiscombe1 {x : ℝ} (hx : 0 ≤ x) : 1 ≤ wiscombe1 x := by
  have h3 : 0 ≤ x ^ (1 / 3 : ℝ) := Real.rpow_nonneg hx _
  unfold wiscombe1
  split_ifs <;> refine le_trans ?_ (le_torchRound _) <;> rw [Int.le_floor] <;> push_cast <;> nlinarith

/-- The automatic order exists and is at least 1. -/
theorem orderChoice_none {p : Particle1} (hp : ValidLayers p) (b : String) :
    ∃ n, orderChoice b p none = .ok n ∧ 1 ≤ n := by
  unfold orderChoice
  simp only
  split
  · obtain ⟨r, rs, hr⟩ := List.exists_cons_of_ne_nil hp.ne
    obtain ⟨e, es, he⟩ : ∃ e es, p.epsLayers = e :: es := by
      have := hp.len
      cases hh : p.epsLayers with
      | nil => rw [hr, hh] at this; simp at this
      | cons e es => exact ⟨e, es, rfl⟩
    have hl : p.trunc.layers = (r, e) :: rs.zip es := by simp [Particle1.trunc, hr, he]
    obtain ⟨M1, e1, m1⟩ := maxAbs_spec (l := p.trunc.mx) (by simp [TruncEntry.mx, hl])
    obtain ⟨M2, e2, m2⟩ := maxAbs_spec (l := p.trunc.mxPrev) (by simp [TruncEntry.mxPrev, hl])
    have e0 : maxAbs [p.trunc.xOuter] = .ok ‖p.trunc.xOuter‖ := rfl
    refine ⟨torchRound (max (penaNStop ‖p.trunc.xOuter‖ : ℝ) (max M1 M2) + 15), ?_, ?_⟩
    · unfold penaNmax
      simp only [List.map_cons, List.map_nil, List.flatMap_cons, List.flatMap_nil, List.append_nil, e0, e1, e2,
        Bind.bind, Except.bind]
    · refine le_trans ?_ (le_torchRound _)
      rw [Int.le_floor]
      have hM : 0 ≤ M1 := by obtain ⟨⟨z, _, rfl⟩, _⟩ := m1; exact norm_nonneg z
      have := (le_max_left M1 M2).trans (le_max_right (penaNStop ‖p.trunc.xOuter‖ : ℝ) (max M1 M2))
      push_cast
      linarith
  · exact ⟨_, rfl, one_le_wiscombe1 (norm_nonneg _)⟩

/-- Everything before the solver succeeds. -/
theorem mieCoefficients_prefix {K : D1Kernel} {B : Backends} {p : Particle1} {b w : String} {nMax : Option ℤ}
    {ri : Bool} {n : ℤ} (hb : b.toLower = "torch" ∨ b.toLower = "scipy" ∨ b.toLower = "pena") (hp : ValidLayers p)
    (hn : orderChoice b.toLower p nMax = .ok n) (err : PyErr)
    (hneg : n < 0 → err = .runtimeError)
    (hpena : 0 ≤ n → b.toLower = "pena" →
      miecoefPenaK K (p.k0 * csqrt p.epsEnv) p.rLayers p.epsLayers (csqrt p.epsEnv) n ri = .error err)
    (hcs : 0 ≤ n → b.toLower ≠ "pena" → p.rLayers.length > 2 ∧ err = .valueError) :
    mieCoefficients K B p b w nMax ri = .error err := by
  obtain ⟨r, rs, hr⟩ := List.exists_cons_of_ne_nil hp.ne
  obtain ⟨e, es, he⟩ : ∃ e es, p.epsLayers = e :: es := by
    have := hp.len
    cases hh : p.epsLayers with
    | nil => rw [hr, hh] at this; simp at this
    | cons e es => exact ⟨e, es, rfl⟩
  have h1 : pyIdx p.rLayers 0 = .ok r := by rw [hr]; rfl
  have h2 : pyIdx p.epsLayers 0 = .ok e := by rw [he]; rfl
  unfold mieCoefficients
  simp only [hb, not_true_eq_false, if_false, hp.inc, hp.len, ne_eq, h1, h2, hn, Bind.bind, Except.bind]
  by_cases h0 : n < 0
  · rw [orderRange, if_pos (by omega), hneg h0]
  · rw [orderRange, if_neg (by omega)]
    simp only
    by_cases hpe : b.toLower = "pena"
    · simp only [hpe, if_true, hpena (by omega) hpe]
    · obtain ⟨h3, rfl⟩ := hcs (by omega) hpe
      simp only [hpe, if_false, h3, if_true]

/-- C49: the core-shell backends reject three or more layers with `ValueError`, whatever order is asked for. -/
theorem C49_too_many_layers (K : D1Kernel) (B : Backends) {p : Particle1} {b : String} (w : String) {nMax : Option ℤ}
    (ri : Bool) (hb : b.toLower = "torch" ∨ b.toLower = "scipy") (hp : ValidLayers p) (hL : 3 ≤ p.rLayers.length)
    (hn : ∀ n, nMax = some n → 0 ≤ n) : mieCoefficients K B p b w nMax ri = .error .valueError := by
  have hne : b.toLower ≠ "pena" := by rcases hb with h | h <;> rw [h] <;> decide
  obtain ⟨n, h1, h2⟩ : ∃ n, orderChoice b.toLower p nMax = .ok n ∧ 0 ≤ n := by
    cases nMax with
    | none => obtain ⟨n, h1, h2⟩ := orderChoice_none hp b.toLower; exact ⟨n, h1, by omega⟩
    | some n => exact ⟨n, rfl, hn n rfl⟩
  exact mieCoefficients_prefix (by tauto) hp h1 _ (by omega) (fun _ h => absurd h hne) (fun _ _ => ⟨hL, rfl⟩)

/-- C49: `return_internal` is not available with the pena backend. -/
theorem C49_internal (K : D1Kernel) (B : Backends) {p : Particle1} {b : String} (w : String) {nMax : Option ℤ}
    (hb : b.toLower = "pena") (hp : ValidLayers p)
    (hn : ∀ n, nMax = some n → 0 ≤ n) : mieCoefficients K B p b w nMax true = .error .notImplementedError := by
  obtain ⟨n, h1, h2⟩ : ∃ n, orderChoice b.toLower p nMax = .ok n ∧ 0 ≤ n := by
    cases nMax with
    | none => obtain ⟨n, h1, h2⟩ := orderChoice_none hp b.toLower; exact ⟨n, h1, by omega⟩
    | some n => exact ⟨n, rfl, hn n rfl⟩
  exact mieCoefficients_prefix (by tauto) hp h1 _ (by omega) (fun _ _ => rfl) (fun _ h => absurd hb h)

/-- C49: order 0 is rejected by the pena backend with `ValueError`, a negative order by every backend with
`RuntimeError`. -/
theorem C49_bad_order (K : D1Kernel) (B : Backends) {p : Particle1} {b : String} (w : String) (hp : ValidLayers p) :
    (b.toLower = "pena" → mieCoefficients K B p b w (some 0) = .error .valueError) ∧
    (∀ n < 0, ∀ ri, b.toLower = "torch" ∨ b.toLower = "scipy" ∨ b.toLower = "pena" →
      mieCoefficients K B p b w (some n) ri = .error .runtimeError) := by
  refine ⟨fun hb => ?_, fun n hn ri hb => ?_⟩
  · exact mieCoefficients_prefix (by tauto) hp rfl _ (by omega)
      (fun _ _ => by simp [miecoefPenaK]) (fun _ h => absurd hb h)
  · exact mieCoefficients_prefix hb hp rfl _ (fun _ => rfl) (by omega) (by omega)

example : ValidLayers ⟨1, [1, 2, 3], [2, 3, 4], 1⟩ :=
  ⟨by norm_num [strictlyIncreasing], rfl, by simp⟩

/-- C49: `which_jn` selects the torch implementation: every value other than "recurrence" (in any case) uses only the ratio
algorithm, "recurrence" only the recurrence; the scipy and pena backends ignore it. -/
theorem C49_which_jn (K : D1Kernel) (B : Backends) (p : Particle1) {b w : String} (nMax : Option ℤ) (ri : Bool)
    (X Y : BesselBackend) :
    (b.toLower = "torch" → w.toLower ≠ "recurrence" →
      mieCoefficients K ⟨X, B.torchRatio, Y⟩ p b w nMax ri = mieCoefficients K B p b w nMax ri) ∧
    (b.toLower = "torch" → w.toLower = "recurrence" →
      mieCoefficients K ⟨B.torchRec, X, Y⟩ p b w nMax ri = mieCoefficients K B p b w nMax ri) ∧
    (b.toLower = "scipy" → ∀ w', mieCoefficients K ⟨X, Y, B.scipy⟩ p b w' nMax ri = mieCoefficients K B p b w nMax ri) ∧
    (b.toLower = "pena" → ∀ w' B', mieCoefficients K B' p b w' nMax ri = mieCoefficients K B p b w nMax ri) := by
  refine ⟨fun hb hw => ?_, fun hb hw => ?_, fun hb w' => ?_, fun hb w' B' => ?_⟩
  · unfold mieCoefficients selectBessel
    simp [hb, hw]
  · unfold mieCoefficients selectBessel
    simp [hb, hw]
  · unfold mieCoefficients selectBessel
    simp [hb]
  · unfold mieCoefficients selectBessel
    simp [hb]

example : "Torch".toLower = "torch" ∧ "ratios".toLower ≠ "recurrence" ∧ "Recurrence".toLower = "recurrence" := by
  decide +kernel

end MieDiff
