import Verif.Spec.RoundingBessel
import Verif.Proofs.RoundedLimit
import Verif.Props.BackwardShell

/-!
# The core-shell solver as the rounding error tends to zero
-/

namespace MieDiff

open Complex Spec Filter Topology

/-- `f` tends to `a` in arithmetics whose rounding error tends to zero. -/
structure Rnd (A : ℕ → Arith) (f : ℕ → ℂ) (a : ℂ) : Prop where
  ref : Refining A
  lim : Tendsto f atTop (𝓝 a)

namespace Rnd

variable {A : ℕ → Arith} {f g : ℕ → ℂ} {a b : ℂ}

theorem const (hA : Refining A) (a : ℂ) : Rnd A (fun _ => a) a := ⟨hA, tendsto_const_nhds⟩

theorem add (hf : Rnd A f a) (hg : Rnd A g b) : Rnd A (fun k => (A k).add (f k) (g k)) (a + b) := ⟨hf.ref, hf.ref.add hf.lim hg.lim⟩

theorem sub (hf : Rnd A f a) (hg : Rnd A g b) : Rnd A (fun k => (A k).sub (f k) (g k)) (a - b) := ⟨hf.ref, hf.ref.sub hf.lim hg.lim⟩

theorem mul (hf : Rnd A f a) (hg : Rnd A g b) : Rnd A (fun k => (A k).mul (f k) (g k)) (a * b) := ⟨hf.ref, hf.ref.mul hf.lim hg.lim⟩

theorem div (hf : Rnd A f a) (hg : Rnd A g b) (hb : b ≠ 0) : Rnd A (fun k => (A k).div (f k) (g k)) (a / b) :=
  ⟨hf.ref, hf.ref.div hf.lim hg.lim hb⟩

theorem rdiv (hf : Rnd A f a) (c : ℂ) (ha : a ≠ 0) : Rnd A (fun k => (A k).div c (f k)) (c / a) := (const hf.ref c).div hf ha

theorem sin (hf : Rnd A f a) : Rnd A (fun k => (A k).sin (f k)) (Complex.sin a) := ⟨hf.ref, hf.ref.sin hf.lim⟩

theorem cos (hf : Rnd A f a) : Rnd A (fun k => (A k).cos (f k)) (Complex.cos a) := ⟨hf.ref, hf.ref.cos hf.lim⟩

theorem neg (hf : Rnd A f a) : Rnd A (fun k => -f k) (-a) := ⟨hf.ref, hf.lim.neg⟩

theorem congr' (hf : Rnd A f a) (h : ∀ᶠ k in atTop, f k = g k) : Rnd A g a := ⟨hf.ref, hf.lim.congr' h⟩

theorem safe (hf : Rnd A f a) (ha : 1e-10 < ‖a‖) : Rnd A (fun k => (A k).safe (f k)) a := by
  refine hf.congr' ?_
  filter_upwards [(hf.ref.abs hf.lim).eventually_const_lt ha] with k hk
  simp only [Arith.safe, if_neg (not_lt.2 hk.le)]

theorem nonzero (hf : Rnd A f a) (ha : a ≠ 0) : Rnd A (fun k => (A k).nonzero (f k)) a := by
  refine hf.congr' ?_
  filter_upwards [(hf.ref.abs hf.lim).eventually_const_lt (norm_pos_iff.2 ha)] with k hk
  simp only [Arith.nonzero, if_neg hk.ne']

theorem sinc (hf : Rnd A f a) (ha : a ≠ 0) : Rnd A (fun k => (A k).sinc (f k)) (Complex.sin a / a) := by
  refine (hf.sin.div hf ha).congr' ?_
  filter_upwards [hf.lim.eventually_ne ha] with k hk
  simp only [Arith.sinc, if_neg hk]

end Rnd

section

variable {A : ℕ → Arith} {z : ℕ → ℂ} {a : ℂ}

theorem jRec_refines (h : Rnd A z a) (ha : a ≠ 0) (N : ℕ) : ∀ j,
    Rnd A (fun t => ((A t).jRec (z t) N j).1) (jDown a N j).1 ∧ Rnd A (fun t => ((A t).jRec (z t) N j).2) (jDown a N j).2
  | 0 => ⟨.const h.ref 0, .const h.ref 1e-25⟩
  | j + 1 => ⟨((h.rdiv _ ha).mul (jRec_refines h ha N j).1).sub (jRec_refines h ha N j).2, (jRec_refines h ha N j).1⟩

theorem viaRec_refines (h : Rnd A z a) (ha : 1e-10 < ‖a‖) (n d : ℕ) (h0 : (jDown a (n + d) (n + d)).1 ≠ 0) (k : ℕ) :
    Rnd A (fun t => (A t).viaRec n d (z t) k) (viaRecFn n d a k) := by
  have hne : a ≠ 0 := by rintro rfl; norm_num at ha
  have hs := h.safe ha
  unfold viaRecFn
  rw [guardSet_of_le ha.le]
  exact (jRec_refines hs hne _ _).1.mul ((hs.sin.div hs hne).div (jRec_refines hs hne _ _).1 h0)

theorem ratioDown_refines (h : Rnd A z a) (ha : a ≠ 0) {N : ℕ} (hc : Node.CfClear a N) :
    ∀ j ≤ N, Rnd A (fun t => (A t).ratioDown (z t) N j) (cfDown a N j)
  | 0, _ => .const h.ref 0
  | j + 1, hj => by
    have h0 := hc j (by omega)
    have := (((h.rdiv (2 * ((N - j : ℕ) : ℂ) + 1) ha).sub (ratioDown_refines h ha hc j (by omega))).nonzero h0).rdiv 1 h0
    rw [cfDown, recip0_of_ne h0]
    exact this

theorem ratioProd_refines (h : Rnd A z a) (ha : a ≠ 0) {N : ℕ} (hc : Node.CfClear a N) :
    ∀ k, Rnd A (fun t => (A t).ratioProd (z t) N k) (cfProd a N k)
  | 0 => .const h.ref 1
  | k + 1 => (ratioProd_refines h ha hc k).mul (ratioDown_refines h ha hc _ (by omega))

theorem ratio_refines (h : Rnd A z a) (ha : a ≠ 0) {n d : ℕ} (hc : Node.CfClear a (n + d)) :
    ∀ k, Rnd A (fun t => (A t).ratio n d (z t) k) (ratioFn n d a k)
  | 0 => by
    have := h.sinc ha
    rw [ratioFn, if_neg ha]
    exact this
  | k + 1 => by
    have := (h.sinc ha).mul (ratioProd_refines h ha hc (k + 1))
    rw [ratioFn, if_neg ha]
    exact this

theorem yRec_refines (h : Rnd A z a) (ha : a ≠ 0) : ∀ k, Rnd A (fun t => (A t).yRec (z t) k) (yUp a k)
  | 0 => (Rnd.const h.ref (-1)).mul (h.cos.div h ha)
  | 1 => by
    have := (Rnd.const h.ref (-1)).mul ((h.cos.div (h.mul h) (mul_ne_zero ha ha)).add (h.sin.div h ha))
    rw [← sq] at this
    exact this
  | k + 2 => ((h.rdiv _ ha).mul (yRec_refines h ha (k + 1))).sub (yRec_refines h ha k)

theorem yRec_safe_refines (h : Rnd A z a) (ha : 1e-10 < ‖a‖) (k : ℕ) :
    Rnd A (fun t => (A t).yRec ((A t).safe (z t)) k) (yUp (guardSet 1e-10 a) k) := by
  have hne : a ≠ 0 := by rintro rfl; norm_num at ha
  rw [guardSet_of_le ha.le]
  exact yRec_refines (h.safe ha) hne k

/-! ## Depths -/

theorem floor_eventually {s : ℕ → ℝ} {t : ℝ} (h : Tendsto s atTop (𝓝 t)) (hk : ∀ k : ℤ, t ≠ k) : ∀ᶠ n in atTop, ⌊s n⌋ = ⌊t⌋ := by
  have h1 : (⌊t⌋ : ℝ) < t := lt_of_le_of_ne (Int.floor_le _) (hk _).symm
  have h2 : t < ⌊t⌋ + 1 := Int.lt_floor_add_one _
  filter_upwards [h.eventually_const_lt h1, h.eventually_lt_const h2] with e g1 g2
  exact Int.floor_eq_iff.2 ⟨g1.le, g2⟩

theorem recDepth_refines (h : Rnd A z a) (hs : ShellKind.recurrence.Stable a) : ∀ᶠ t in atTop, (A t).recDepth (z t) = Node.recDepth a := by
  have ht : Tendsto (fun t => ((A t).mul ((3 / 2 : ℝ) : ℂ) ((A t).abs (z t))).re) atTop (𝓝 (3 / 2 * ‖a‖)) := by
    have h1 : Tendsto (fun t => ((A t).abs (z t) : ℂ)) atTop (𝓝 (‖a‖ : ℂ)) := (continuous_ofReal.tendsto _).comp (h.ref.abs h.lim)
    have := (continuous_re.tendsto _).comp (h.ref.mul (tendsto_const_nhds (x := ((3 / 2 : ℝ) : ℂ))) h1)
    rwa [← ofReal_mul, ofReal_re] at this
  have low : ∀ s : ℝ, s < 11 → (if max 10 ⌊s⌋ > 35 then 35 else max 10 ⌊s⌋).toNat = 10 := by
    intro s hs
    have : ⌊s⌋ < 11 := Int.floor_lt.2 (by exact_mod_cast hs)
    rw [max_eq_left (by omega)]
    rfl
  have high : ∀ s : ℝ, 35 < s → (if max 10 ⌊s⌋ > 35 then 35 else max 10 ⌊s⌋).toNat = 35 := by
    intro s hs
    have : 35 ≤ ⌊s⌋ := Int.le_floor.2 (by exact_mod_cast hs.le)
    split <;> omega
  unfold Arith.recDepth Node.recDepth
  simp only
  rcases hs with hs | hs | hs
  · filter_upwards [ht.eventually_lt_const hs] with t he
    rw [low _ he, low _ hs]
  · filter_upwards [ht.eventually_const_lt hs] with t he
    rw [high _ he, high _ hs]
  · filter_upwards [floor_eventually ht hs] with t he
    rw [he]

theorem ratioDepth_refines (h : Rnd A z a) (hs : ShellKind.ratios.Stable a) : ∀ᶠ t in atTop, (A t).ratioDepth (z t) = Node.ratioDepth a := by
  have ht : Tendsto (fun t => ((A t).mul ((A t).abs (z t)) ((2 : ℝ) : ℂ)).re) atTop (𝓝 (‖a‖ * 2)) := by
    have h1 : Tendsto (fun t => ((A t).abs (z t) : ℂ)) atTop (𝓝 (‖a‖ : ℂ)) := (continuous_ofReal.tendsto _).comp (h.ref.abs h.lim)
    have := (continuous_re.tendsto _).comp (h.ref.mul h1 (tendsto_const_nhds (x := ((2 : ℝ) : ℂ))))
    rwa [← ofReal_mul, ofReal_re] at this
  have low : ∀ s : ℝ, s < 11 → (min (max 20 (⌊s⌋ + 10)) 50).toNat = 20 := by
    intro s hs
    have : ⌊s⌋ < 11 := Int.floor_lt.2 (by exact_mod_cast hs)
    omega
  have high : ∀ s : ℝ, 40 < s → (min (max 20 (⌊s⌋ + 10)) 50).toNat = 50 := by
    intro s hs
    have : 40 ≤ ⌊s⌋ := Int.le_floor.2 (by exact_mod_cast hs.le)
    omega
  unfold Arith.ratioDepth Node.ratioDepth
  rcases hs with hs | hs | hs
  · filter_upwards [ht.eventually_lt_const hs] with t he
    rw [low _ he, low _ hs]
  · filter_upwards [ht.eventually_const_lt hs] with t he
    rw [high _ he, high _ hs]
  · filter_upwards [floor_eventually ht hs] with t he
    rw [he]

end

/-! ## Special functions -/

/-- The functions of a backend in the arithmetic `A`; `S` are SciPy's. -/
noncomputable def ShellKind.rounded (A : Arith) (S : Arith.Bess) (n : ℕ) : ShellKind → Arith.Bess
  | scipy => S
  | recurrence => A.bessRec n
  | ratios => A.bessRatio n

/-- SciPy's functions with an error that tends to zero. -/
def BessRefining (S : ℕ → Arith.Bess) : Prop := ∃ u : ℕ → ℝ, Tendsto u atTop (𝓝 0) ∧ ∀ t, (S t).Within (u t)

/-- The functions `B` at `z` tend to `F` at `a`. -/
structure BessLim (A : ℕ → Arith) (B : ℕ → Arith.Bess) (z : ℕ → ℂ) (a : ℂ) (F : BessFn) : Prop where
  ne : a ≠ 0
  arg : Rnd A z a
  j : ∀ k, Rnd A (fun t => (B t).jn (z t) k) (F.j a k)
  y : ∀ k, Rnd A (fun t => (B t).yn (z t) k) (F.y a k)

theorem near_limit {f g : ℕ → ℂ} {u : ℕ → ℝ} {l : ℂ} (hu : Tendsto u atTop (𝓝 0)) (hg : Tendsto g atTop (𝓝 l))
    (h : ∀ᶠ k in atTop, ‖f k - g k‖ ≤ u k * (1 + ‖g k‖)) : Tendsto f atTop (𝓝 l) := by
  have h1 : Tendsto (fun k => u k * (1 + ‖g k‖)) atTop (𝓝 0) := by
    simpa using hu.mul (tendsto_const_nhds (x := (1 : ℝ)).add hg.norm)
  have h2 := squeeze_zero_norm' h h1
  simpa using h2.add hg

theorem ShellKind.bessLim {k : ShellKind} {A : ℕ → Arith} {S : ℕ → Arith.Bess} (hS : BessRefining S) {z : ℕ → ℂ} {a : ℂ} (h : Rnd A z a)
    {n : ℕ} (hs : k.Stable a) (hc : k.Clear n a) : BessLim A (fun t => k.rounded (A t) (S t) n) z a (k.fn n a) := by
  cases k with
  | scipy =>
    have hc : a ≠ 0 := hc
    obtain ⟨u, hu, hw⟩ := hS
    have hz := h.lim.eventually_ne hc
    refine ⟨hc, h, fun k => ⟨h.ref, ?_⟩, fun k => ⟨h.ref, ?_⟩⟩
    · exact near_limit hu ((sphJ_seq.raise k a hc).continuousAt.tendsto.comp h.lim) (hz.mono fun t ht => (hw t).j _ ht k)
    · exact near_limit hu ((sphY_seq.raise k a hc).continuousAt.tendsto.comp h.lim) (hz.mono fun t ht => (hw t).y _ ht k)
  | recurrence =>
    obtain ⟨h1, h2⟩ := hc
    refine ⟨by rintro rfl; norm_num at h1, h, fun k => ?_, yRec_safe_refines h h1⟩
    refine (viaRec_refines h h1 n _ h2 k).congr' ((recDepth_refines h hs).mono fun t ht => ?_)
    simp only [ShellKind.rounded, Arith.bessRec, ht]
  | ratios =>
    obtain ⟨h1, h2⟩ := hc
    have hne : a ≠ 0 := by rintro rfl; norm_num at h1
    refine ⟨hne, h, fun k => ?_, yRec_safe_refines h h1⟩
    refine (ratio_refines h hne h2 k).congr' ((ratioDepth_refines h hs).mono fun t ht => ?_)
    simp only [ShellKind.rounded, Arith.bessRatio, ht]

/-! ## One order -/

section

variable {A : ℕ → Arith}

theorem fDer_refines {z : ℕ → ℂ} {a : ℂ} {F : ℕ → ℕ → ℂ} {φ : ℕ → ℂ} (h : Rnd A z a) (ha : a ≠ 0)
    (hF : ∀ k, Rnd A (fun t => F t k) (φ k)) : ∀ k, Rnd A (fun t => (A t).fDer (z t) (F t) k) (derFn a φ k)
  | 0 => (hF 1).neg
  | k + 1 => (hF k).sub ((h.rdiv _ ha).mul (hF (k + 1)))

structure InRnd (A : ℕ → Arith) (p : ℕ → CoreShellIn) (q : CoreShellIn) : Prop where
  m1 : Rnd A (fun t => (p t).m1) q.m1
  m2 : Rnd A (fun t => (p t).m2) q.m2
  psi_y : Rnd A (fun t => (p t).psi_y) q.psi_y
  psi_m1x : Rnd A (fun t => (p t).psi_m1x) q.psi_m1x
  psi_m2x : Rnd A (fun t => (p t).psi_m2x) q.psi_m2x
  psi_m2y : Rnd A (fun t => (p t).psi_m2y) q.psi_m2y
  chi_m2x : Rnd A (fun t => (p t).chi_m2x) q.chi_m2x
  chi_m2y : Rnd A (fun t => (p t).chi_m2y) q.chi_m2y
  xi_y : Rnd A (fun t => (p t).xi_y) q.xi_y
  dpsi_y : Rnd A (fun t => (p t).dpsi_y) q.dpsi_y
  dpsi_m1x : Rnd A (fun t => (p t).dpsi_m1x) q.dpsi_m1x
  dpsi_m2x : Rnd A (fun t => (p t).dpsi_m2x) q.dpsi_m2x
  dpsi_m2y : Rnd A (fun t => (p t).dpsi_m2y) q.dpsi_m2y
  dchi_m2x : Rnd A (fun t => (p t).dchi_m2x) q.dchi_m2x
  dchi_m2y : Rnd A (fun t => (p t).dchi_m2y) q.dchi_m2y
  dxi_y : Rnd A (fun t => (p t).dxi_y) q.dxi_y

structure OutRnd (A : ℕ → Arith) (p : ℕ → CoreShellOut) (q : CoreShellOut) : Prop where
  a : Rnd A (fun t => (p t).a) q.a
  b : Rnd A (fun t => (p t).b) q.b
  c : Rnd A (fun t => (p t).c) q.c
  d : Rnd A (fun t => (p t).d) q.d
  f : Rnd A (fun t => (p t).f) q.f
  g : Rnd A (fun t => (p t).g) q.g
  v : Rnd A (fun t => (p t).v) q.v
  w : Rnd A (fun t => (p t).w) q.w

theorem shellOrder_refines (hA : Refining A) {p : ℕ → CoreShellIn} {q : CoreShellIn} (h : InRnd A p q) (hTM : coatedDetTM q.data ≠ 0)
    (hTE : coatedDetTE q.data ≠ 0) : OutRnd A (fun t => (A t).shellOrder (p t)) (miecoefOrder q) := by
  have mu : Rnd A (fun _ => 1) 1 := .const hA 1
  have mu1 := mu
  have mu2 := mu
  have x0 := h.dpsi_m2y.mul h.psi_y
  have x1 := h.chi_m2x.mul h.dpsi_m1x
  have x2 := h.m2.mul mu2
  have x3 := mu1.mul x2
  have x4 := x1.mul x3
  have x5 := h.m1.mul (.const hA (1 ^ 2))
  have x6 := h.dpsi_m2x.mul h.psi_m1x
  have x7 := h.dchi_m2y.mul h.psi_y
  have x8 := x6.mul x7
  have x9 := h.dpsi_m1x.mul h.psi_m2x
  have x10 := x3.mul x9
  have x11 := h.dchi_m2x.mul h.psi_m1x
  have x12 := h.psi_m2y.mul x11
  have x13 := h.m1.mul x2
  have x14 := mu.mul x13
  have x15 := x12.mul x14
  have x16 := x11.mul x5
  have m2sq : Rnd A (fun t => (A t).mul (p t).m2 (p t).m2) (q.m2 ^ 2) := by rw [sq]; exact h.m2.mul h.m2
  have x17 := m2sq.mul mu1
  have x18 := x17.mul x9
  have x19 := h.chi_m2y.mul h.dpsi_y
  have x20 := mu.mul x19
  have x21 := x13.mul x6
  have x22 := h.chi_m2x.mul h.psi_m2y
  have x23 := mu.mul x17
  have x24 := (h.dpsi_m1x.mul x22).mul x23
  have x25 := h.dpsi_m2y.mul h.xi_y
  have x26 := h.dchi_m2y.mul h.xi_y
  have x27 := x26.mul x6
  have x28 := h.chi_m2y.mul h.dxi_y
  have x29 := mu.mul x28
  have x30 := (((((((((h.dxi_y.mul x15).sub (h.dxi_y.mul x24)).sub (x10.mul x26)).sub (x16.mul x25)).add (x18.mul x29)).sub
    (x21.mul x29)).add (x25.mul x4)).add (x27.mul x5))).rdiv 1 (fun h0 => hTM
    (by rw [← h0]; simp only [coatedDetTM, CoreShellIn.data]; ring))
  have x31 := x12.mul x3
  have x32 := h.dpsi_m1x.mul x5
  have x33 := h.psi_m2x.mul x32
  have x34 := x3.mul x6
  have x35 := x1.mul x14
  have x36 := x22.mul x32
  have x37 := x14.mul x9
  have x38 := x11.mul x23
  have x39 := (((((((((h.dxi_y.mul x31).sub (h.dxi_y.mul x36)).add (x23.mul x27)).add (x25.mul x35)).sub (x25.mul x38)).sub
    (x26.mul x37)).add (x28.mul x33)).sub (x28.mul x34))).rdiv 1 (fun h0 => hTE
    (by rw [← h0]; simp only [coatedDetTE, CoreShellIn.data]; ring))
  have an := x30.mul ((((((((h.dpsi_y.mul x15).sub (h.dpsi_y.mul x24)).sub (x0.mul x16)).add (x0.mul x4)).sub (x10.mul x7)).add
    (x18.mul x20)).sub (x20.mul x21)).add (x5.mul x8))
  have bn := x39.mul ((((((((h.dpsi_y.mul x31).sub (h.dpsi_y.mul x36)).add (x0.mul x35)).sub (x0.mul x38)).add (x19.mul x33)).sub
    (x19.mul x34)).add (x23.mul x8)).sub (x37.mul x7))
  have x40 := x2.mul x39
  have x41 := h.chi_m2x.mul h.dpsi_m2x
  have x42 := h.dpsi_y.mul h.xi_y
  have x43 := h.dxi_y.mul h.psi_y
  have x44 := h.dchi_m2x.mul h.psi_m2x
  have x45 := (h.m1.mul mu1).mul ((((x41.mul x42).sub (x41.mul x43)).sub (x42.mul x44)).add (x43.mul x44))
  have x46 := x2.mul x30
  have x47 := h.m1.mul mu2
  have x48 := x1.mul x42
  have x49 := h.m2.mul mu1
  have x50 := x11.mul x43
  have x51 := x1.mul x43
  have x52 := x11.mul x42
  have x53 := x42.mul x47
  have x54 := x49.mul x6
  have x55 := x43.mul x47
  have x56 := x49.mul x9
  exact ⟨an,
    bn,
    (x40.mul x45),
    (x45.mul x46),
    (x40.mul ((((x47.mul x48).sub (x47.mul x51)).add (x49.mul x50)).sub (x49.mul x52))),
    (x46.mul ((((x47.mul x50).sub (x47.mul x52)).add (x48.mul x49)).sub (x49.mul x51))),
    (x40.mul ((((x42.neg.mul x54).add (x43.mul x54)).add (x53.mul x9)).sub (x55.mul x9))),
    (x46.mul ((((x42.mul x56).sub (x43.mul x56)).sub (x53.mul x6)).add (x55.mul x6)))⟩

theorem shellIn_refines (hA : Refining A) {B : ℕ → Arith.Bess} {Fy F1x F2x F2y : BessFn} {cx cy c1 c2 : ℂ} {x y m1 m2 : ℕ → ℂ}
    (k1 : Rnd A m1 c1) (k2 : Rnd A m2 c2) (hy : BessLim A B y cy Fy) (h1 : BessLim A B (fun t => (A t).mul (m1 t) (x t)) (c1 * cx) F1x)
    (h2 : BessLim A B (fun t => (A t).mul (m2 t) (x t)) (c2 * cx) F2x)
    (h3 : BessLim A B (fun t => (A t).mul (m2 t) (y t)) (c2 * cy) F2y) (i : ℕ) :
    InRnd A (fun t => (A t).shellIn (B t) (x t) (y t) (m1 t) (m2 t) i) (fnIn Fy F1x F2x F2y cx cy c1 c2 i) := by
  have hh := (hy.j i).add ((Rnd.const hA I).mul (hy.y i))
  have dj := fun {z : ℕ → ℂ} {a : ℂ} {F : BessFn} (hz : BessLim A B z a F) => fDer_refines hz.arg hz.ne hz.j i
  have dy := fun {z : ℕ → ℂ} {a : ℂ} {F : BessFn} (hz : BessLim A B z a F) => fDer_refines hz.arg hz.ne hz.y i
  exact ⟨k1, k2, hy.arg.mul (hy.j i), h1.arg.mul (h1.j i), h2.arg.mul (h2.j i), h3.arg.mul (h3.j i), h2.arg.neg.mul (h2.y i),
    h3.arg.neg.mul (h3.y i), hy.arg.mul hh, (hy.j i).add (hy.arg.mul (dj hy)), (h1.j i).add (h1.arg.mul (dj h1)),
    (h2.j i).add (h2.arg.mul (dj h2)), (h3.j i).add (h3.arg.mul (dj h3)), (h2.y i).neg.sub (h2.arg.mul (dy h2)),
    (h3.y i).neg.sub (h3.arg.mul (dy h3)), hh.add (hy.arg.mul ((dj hy).add ((Rnd.const hA I).mul (dy hy))))⟩

/-- The coefficients of order `i` of a particle in arithmetics whose error tends to zero. -/
theorem shell_refines {k : ShellKind} (hA : Refining A) {S : ℕ → Arith.Bess} (hS : BessRefining S) {p : Particle1} {n : ℕ}
    (hlen : p.epsLayers.length = p.rLayers.length) (l1 : 1 ≤ p.rLayers.length) (l2 : p.rLayers.length ≤ 2)
    (h0 : csqrt p.epsEnv ≠ 0) (hz : ∀ z ∈ csArgs p.layers, k.Stable z ∧ k.Clear n z) {i : ℕ}
    (hTM : coatedDetTM (k.inputs n i p.layers).data ≠ 0) (hTE : coatedDetTE (k.inputs n i p.layers).data ≠ 0) :
    OutRnd A (fun t => (A t).shell (k.rounded (A t) (S t) n) p i) (miecoefOrder (k.inputs n i p.layers)) := by
  obtain ⟨e1, e2, -, a1, a2, a3, a4⟩ := layers_ends hlen l1 l2 rfl rfl rfl rfl
  simp only [ShellKind.inputs, e1, e2] at hTM hTE ⊢
  have hk : Rnd A (fun t => ((A t).host p).2) (p.k0 * csqrt p.epsEnv) := (Rnd.const hA p.k0).mul ⟨hA, hA.sqrt p.epsEnv⟩
  have hn : Rnd A (fun t => ((A t).host p).1) (csqrt p.epsEnv) := ⟨hA, hA.sqrt p.epsEnv⟩
  have hm : ∀ e, Rnd A (fun t => (A t).div ((A t).sqrt e) ((A t).host p).1) (csqrt e / csqrt p.epsEnv) := fun e =>
    Rnd.div ⟨hA, hA.sqrt e⟩ hn h0
  have hx : ∀ r : ℝ, Rnd A (fun t => (A t).mul ((A t).host p).2 r) (p.k0 * csqrt p.epsEnv * (r : ℂ)) := fun r => hk.mul (.const hA _)
  have b := fun {z : ℕ → ℂ} {a : ℂ} (h : Rnd A z a) (ha : a ∈ csArgs p.layers) => ShellKind.bessLim (n := n) hS h (hz a ha).1 (hz a ha).2
  exact shellOrder_refines hA (shellIn_refines hA (hm _) (hm _) (b (hx _) a1) (b ((hm _).mul (hx _)) a2) (b ((hm _).mul (hx _)) a3)
    (b ((hm _).mul (hx _)) a4) i) hTM hTE

end

end MieDiff
