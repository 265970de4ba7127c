import Verif.Proofs.Static
import Verif.Props.Convergence
import Verif.Props.FarField
import Verif.Props.Tg

/-!
# The long-wavelength limit (C70)

As the wavelength grows at fixed radii and permittivities, the returned coefficients approach the electrostatic response
of the layered sphere: `a_n / k^(2n+1)` tends to the static `2^n`-pole response, `b_n / k^(2n+1)` to zero.  For the
dipole this is the Clausius-Mossotti formula (homogeneous sphere) and the coated-sphere formula of Bohren & Huffman; the
cross sections obey Rayleigh's laws, and the polarizability handed to torchgdm tends to the static one.  Materials are
lossy or dielectric; a lossless negative permittivity can have a static resonance and is covered only by
`C70_coefficients`, which takes the absence of a resonance as a hypothesis.
-/

namespace MieDiff

open Complex Spec Filter Topology Nat

/-- The same particle at another vacuum wavenumber. -/
noncomputable def Particle1.atK (p : Particle1) (k0 : ℝ) : Particle1 := { p with k0 := (k0 : ℂ) }

/-- A transparent host with permittivity `e0` and positive radii. -/
structure HostOK (p : Particle1) (e0 : ℝ) : Prop where
  env_eq : p.epsEnv = e0
  env_pos : 0 < e0
  radii : ∀ r ∈ p.rLayers, 0 < r

theorem HostOK.real {p : Particle1} {e0 : ℝ} (h : HostOK p e0) {k0 : ℝ} (hk : 0 < k0) : RealHost (p.atK k0) k0 e0 :=
  ⟨rfl, hk, h.env_eq, h.env_pos, h.radii⟩

/-- Every layer is lossy or a dielectric. -/
def Materials (p : Particle1) : Prop := ∀ e ∈ p.epsLayers, 0 < e.im ∨ (e.im = 0 ∧ 0 < e.re)

theorem Materials.ne {p : Particle1} (h : Materials p) : ∀ e ∈ p.epsLayers, e ≠ 0 := by
  rintro e he rfl
  rcases h 0 he with h | ⟨-, h⟩ <;> simp at h

theorem Materials.passive {p : Particle1} (h : Materials p) : ∀ e ∈ p.epsLayers, 0 ≤ e.im := by
  intro e he
  rcases h e he with h | ⟨h, -⟩
  · exact h.le
  · exact h.ge

/-- Permittivities and radii of the static problem, from inside to outside. -/
noncomputable def Particle1.static (p : Particle1) : List (ℂ × ℂ) := cLayers (p.epsLayers.zip p.rLayers)

theorem atK_layers {p : Particle1} {e0 : ℝ} (h : HostOK p e0) (k0 : ℝ) :
    (p.atK k0).layers = scaledLayers ((k0 * Real.sqrt e0 : ℝ) : ℂ) (layersOf 1 p.rLayers p.epsLayers (csqrt p.epsEnv)) := by
  unfold Particle1.layers layersOf scaledLayers Particle1.atK
  simp only
  rw [h.env_eq, csqrt_ofReal h.env_pos.le]
  apply List.ext_getElem (by simp)
  intro i h1 h2
  simp
  ring

theorem static_tm {p : Particle1} :
    sLayers .tm (layersOf 1 p.rLayers p.epsLayers (csqrt p.epsEnv)) = p.static.map fun l => (l.1 / p.epsEnv, l.2) := by
  unfold sLayers layersOf Particle1.static cLayers
  apply List.ext_getElem (by simp)
  intro i h1 h2
  simp [sEps, div_pow, csqrt_sq]

theorem static_te {p : Particle1} {e0 : ℝ} (h : HostOK p e0) :
    ∀ l ∈ sLayers .te (layersOf 1 p.rLayers p.epsLayers (csqrt p.epsEnv)), l.1 = 1 ∧ l.2 ≠ 0 := by
  intro l hl
  obtain ⟨l0, h0, rfl⟩ := List.mem_map.1 hl
  obtain ⟨-, h2⟩ := List.of_mem_zip h0
  obtain ⟨r, hr, e⟩ := List.mem_map.1 h2
  refine ⟨rfl, ?_⟩
  show l0.2 ≠ 0
  rw [← e, one_mul]
  exact_mod_cast (h.radii r hr).ne'

theorem base_ne {p : Particle1} {e0 : ℝ} (h : HostOK p e0) (hz : ∀ e ∈ p.epsLayers, e ≠ 0) :
    ∀ l ∈ layersOf 1 p.rLayers p.epsLayers (csqrt p.epsEnv), l.1 ≠ 0 ∧ l.2 ≠ 0 := by
  intro l hl
  obtain ⟨h1, h2⟩ := List.of_mem_zip hl
  obtain ⟨e, he, h1⟩ := List.mem_map.1 h1
  obtain ⟨r, hr, h2⟩ := List.mem_map.1 h2
  have he0 : csqrt p.epsEnv ≠ 0 := by
    rw [h.env_eq, csqrt_ofReal h.env_pos.le]
    exact_mod_cast (Real.sqrt_pos.2 h.env_pos).ne'
  refine ⟨?_, ?_⟩
  · rw [← h1]
    refine div_ne_zero (fun h0 => hz e he ?_) he0
    rw [← csqrt_sq e, h0]; ring
  · rw [← h2, one_mul]
    exact_mod_cast (h.radii r hr).ne'

theorem incFrom_zip : ∀ (rs : List ℝ) (es : List ℂ) (r : ℝ), strictlyIncreasing (r :: rs) → IncFrom r (es.zip rs) := by
  intro rs
  induction rs with
  | nil => intro es r _; simp [IncFrom]
  | cons r' rs ih =>
    intro es r h
    cases es with
    | nil => simp [IncFrom]
    | cons e es => exact ⟨h.1.le, ih es r' h.2⟩

/-- Lossy and dielectric layers have no static resonance, at any order. -/
theorem C70_regular {p : Particle1} {e0 : ℝ} (h : HostOK p e0) (hm : Materials p) (hinc : strictlyIncreasing p.rLayers)
    (hlen : p.epsLayers.length = p.rLayers.length) (hne : p.rLayers ≠ []) {n : ℕ} (hn : 1 ≤ n) :
    StaticRegular n p.epsEnv p.static := by
  obtain ⟨r, rs, hr⟩ := List.exists_cons_of_ne_nil hne
  cases he : p.epsLayers with
  | nil => rw [he, hr] at hlen; simp at hlen
  | cons e es =>
    obtain ⟨d, hd, hd'⟩ := halfPlane_exists p.epsLayers hm
    have hu := hd' d hd le_rfl
    have : p.static = cLayers ((e, r) :: es.zip rs) := by unfold Particle1.static; rw [he, hr]; rfl
    rw [this]
    refine staticRegular_of_halfPlane (u := (d : ℂ) - I) hn ?_ (h.radii r (by rw [hr]; simp)) ?_ ?_
    · rw [h.env_eq, Complex.re_mul_ofReal]
      simp only [sub_re, ofReal_re, I_re, sub_zero]
      exact mul_pos hd h.env_pos
    · rw [hr] at hinc
      exact incFrom_zip rs es r hinc
    · intro l hl
      have : l.1 ∈ p.epsLayers := by
        rw [he]
        rcases List.mem_cons.1 hl with rfl | hl
        · simp
        · exact List.mem_cons_of_mem _ (List.of_mem_zip hl).1
      exact hu _ this

theorem tendsto_kappa {e0 : ℝ} (he : 0 < e0) :
    Tendsto (fun k0 : ℝ => ((k0 * Real.sqrt e0 : ℝ) : ℂ)) (𝓝[>] 0) (𝓝[≠] 0) := by
  have hs := Real.sqrt_pos.2 he
  refine tendsto_nhdsWithin_iff.2 ⟨?_, ?_⟩
  · have h1 : Tendsto (fun k0 : ℝ => k0 * Real.sqrt e0) (𝓝[>] 0) (𝓝 0) := by
      have := (tendsto_nhdsWithin_of_tendsto_nhds (s := Set.Ioi (0 : ℝ)) (tendsto_id (x := 𝓝 (0 : ℝ)))).mul_const (Real.sqrt e0)
      simpa using this
    have h2 := (Complex.continuous_ofReal.tendsto 0).comp h1
    rw [ofReal_zero] at h2
    exact h2
  · filter_upwards [self_mem_nhdsWithin] with k0 hk
    have : 0 < k0 * Real.sqrt e0 := mul_pos hk hs
    exact Set.mem_compl_singleton_iff.2 (by exact_mod_cast this.ne')

/-- C70, coefficients, for every backend and any number of layers: whenever the calls at small `k0` solve the interface
problem and the static problem of order `n` has no resonance, it has a response `beta` and
`a_n / k^(2n+1) -> i (n+1)(2n+1) / (n (2n+1)!!^2) beta`, `b_n / k^(2n+1) -> 0`. -/
theorem C70_coefficients {p : Particle1} {e0 : ℝ} (hp : HostOK p e0) (hz : ∀ e ∈ p.epsLayers, e ≠ 0) {n : ℕ} (hn : 1 ≤ n)
    (hreg : StaticRegular n p.epsEnv p.static) {o : ℝ → MieOut}
    (run : ∀ᶠ k0 in 𝓝[>] 0, ExactRun (p.atK k0) (o k0) ∧ n ≤ (o k0).nMax.toNat) :
    ∃ β, StaticSolves n p.epsEnv p.static β ∧
      Tendsto (fun k0 => (o k0).a.getD (n - 1) 0 / ((k0 * Real.sqrt e0 : ℝ) : ℂ) ^ (2 * n + 1)) (𝓝[>] 0)
        (𝓝 (I * (((n : ℂ) + 1) * (2 * n + 1) / (n * ((2 * n + 1)‼ : ℂ) ^ 2)) * β)) ∧
      Tendsto (fun k0 => (o k0).b.getD (n - 1) 0 / ((k0 * Real.sqrt e0 : ℝ) : ℂ) ^ (2 * n + 1)) (𝓝[>] 0) (𝓝 0) := by
  have hκ := tendsto_kappa hp.env_pos
  have hE : p.epsEnv ≠ 0 := by rw [hp.env_eq]; exact_mod_cast hp.env_pos.ne'
  have hne := base_ne hp hz
  have hex : ∀ᶠ k0 in 𝓝[>] 0,
      Solves .tm n (scaledLayers ((k0 * Real.sqrt e0 : ℝ) : ℂ) (layersOf 1 p.rLayers p.epsLayers (csqrt p.epsEnv)))
        ((o k0).a.getD (n - 1) 0) ∧
      Solves .te n (scaledLayers ((k0 * Real.sqrt e0 : ℝ) : ℂ) (layersOf 1 p.rLayers p.epsLayers (csqrt p.epsEnv)))
        ((o k0).b.getD (n - 1) 0) := by
    filter_upwards [run] with k0 h
    obtain ⟨a, b, ea, eb, sa, sb⟩ := h.1.coef n hn h.2
    rw [← atK_layers hp, List.getD_eq_getElem?_getD, List.getD_eq_getElem?_getD, ea, eb]
    exact ⟨sa, sb⟩
  have r1 : StaticRegular n 1 (sLayers .tm (layersOf 1 p.rLayers p.epsLayers (csqrt p.epsEnv))) := by
    intro core out hB h hA
    rw [static_tm, ← div_self hE, staticChain_scale _ hE] at h
    exact hreg core out hB h hA
  have r2 : StaticRegular n 1 (sLayers .te (layersOf 1 p.rLayers p.epsLayers (csqrt p.epsEnv))) := by
    intro core out hB h hA
    rw [staticChain_one hn (static_te hp) h]
    exact hA
  obtain ⟨β, ⟨c, hB, hc⟩, t1⟩ := solves_small hκ hn hne r1 (hex.mono fun k h => h.1)
  obtain ⟨β', ⟨c', hB', hc'⟩, t2⟩ := solves_small hκ hn hne r2 (hex.mono fun k h => h.2)
  have hc : StaticChain n (p.epsEnv / p.epsEnv) c (p.static.map fun l => (l.1 / p.epsEnv, l.2)) ⟨1, β⟩ := by
    rw [div_self hE, ← static_tm]; exact hc
  rw [staticChain_scale _ hE] at hc
  refine ⟨β, ⟨c, hB, hc⟩, t1, ?_⟩
  have h0 := staticChain_one hn (static_te hp) hc'
  have h1 : β' = 0 := by rw [h0] at hB'; exact hB'
  rw [h1, mul_zero] at t2
  exact t2

/-! ## Dipole -/

/-- The static dipole response of a homogeneous or coated sphere, divided by minus the volume radius cubed. -/
noncomputable def Particle1.mossotti (p : Particle1) : ℂ :=
  match p.epsLayers, p.rLayers with
  | [e], [_] => clausius e p.epsEnv
  | [e1, e2], [r1, r2] => clausiusCoated e1 e2 p.epsEnv (((r1 : ℂ) / (r2 : ℂ)) ^ 3)
  | _, _ => 0

theorem static_dipole {p : Particle1} {e0 : ℝ} (hp : HostOK p e0) (hz : ∀ e ∈ p.epsLayers, e ≠ 0)
    (hlen : p.epsLayers.length = p.rLayers.length) (hl : p.rLayers.length = 1 ∨ p.rLayers.length = 2) {β : ℂ}
    (h : StaticSolves 1 p.epsEnv p.static β) : β = -((p.rLayers.getLastD 0 : ℝ) : ℂ) ^ 3 * p.mossotti := by
  have hE : p.epsEnv ≠ 0 := by rw [hp.env_eq]; exact_mod_cast hp.env_pos.ne'
  have hr : ∀ r ∈ p.rLayers, (r : ℂ) ≠ 0 := fun r hr => by exact_mod_cast (hp.radii r hr).ne'
  obtain ⟨k0, rs, es, ee⟩ := p
  simp only [Particle1.static, Particle1.mossotti] at *
  rcases hl with hl | hl
  · obtain ⟨r, rfl⟩ := List.length_eq_one_iff.1 hl
    obtain ⟨e, rfl⟩ := List.length_eq_one_iff.1 (hlen.trans hl)
    exact dipole_one (hr r (by simp)) hE h
  · obtain ⟨r1, r2, rfl⟩ := List.length_eq_two.1 hl
    obtain ⟨e1, e2, rfl⟩ := List.length_eq_two.1 (hlen.trans hl)
    exact dipole_two (hr r1 (by simp)) (hr r2 (by simp)) (hz e2 (by simp)) hE h

/-- Calls of the torch or scipy backend with exact special functions, at every wavenumber. -/
structure SmallRuns (p : Particle1) (e0 : ℝ) (N : ℕ) (o : ℝ → MieOut) : Prop where
  host : HostOK p e0
  mat : Materials p
  pos : 1 ≤ N
  call : ∃ K B backend w ri, (backend.toLower = "torch" ∨ backend.toLower = "scipy") ∧
    (∀ k0, 0 < k0 → mieCoefficients K B (p.atK k0) backend w (some (N : ℤ)) ri = .ok (o k0)) ∧
    ∀ S, selectBessel B backend w = .ok S → ∀ z : ℂ, z ≠ 0 → ExactAt S N z

theorem SmallRuns.basic {p : Particle1} {e0 : ℝ} {N : ℕ} {o : ℝ → MieOut} (h : SmallRuns p e0 N o) :
    strictlyIncreasing p.rLayers ∧ p.epsLayers.length = p.rLayers.length ∧
    (p.rLayers.length = 1 ∨ p.rLayers.length = 2) ∧
    ∀ k0, 0 < k0 → ExactRun (p.atK k0) (o k0) ∧ (o k0).nMax.toNat = N := by
  obtain ⟨K, B, backend, w, ri, hb, hcall, hS⟩ := h.call
  have hp : backend.toLower ≠ "pena" := by rcases hb with h | h <;> rw [h] <;> decide
  obtain ⟨h1, h2, h3, -⟩ := mieCoefficients_cs_meta hb (hcall 1 one_pos)
  refine ⟨h1, h2, h3, fun k0 hk => ?_⟩
  obtain ⟨m1, x, m2, y, run⟩ := mieCoefficients_cs_inv hp (hcall k0 hk)
  have hn : (o k0).nMax = (N : ℤ) := (Except.ok.inj run.order).symm
  refine ⟨?_, by rw [hn]; rfl⟩
  have hN := h.pos
  have hrh := h.host.real hk
  refine ExactRun.of_passive hp (hcall k0 hk) (by rw [hn]; exact_mod_cast hN) (fun S hsel z hz => ?_) hrh
    h.mat.passive h.mat.ne
  rw [hn]
  refine hS S hsel z ?_
  have hne := layers_ne hrh h.mat.ne
  rcases run.layers with hl | ⟨hl, -, -⟩
  · rw [hl] at hz hne
    have a1 := hne (m1, x) (by simp)
    have a2 := hne (m2, y) (by simp)
    simp only [csArgs, List.mem_cons, List.not_mem_nil, or_false] at hz
    rcases hz with rfl | rfl | rfl | rfl
    · exact a2.2
    · exact mul_ne_zero a1.1 a1.2
    · exact mul_ne_zero a2.1 a1.2
    · exact mul_ne_zero a2.1 a2.2
  · rw [hl] at hz hne
    have a1 := hne (m1, x) (by simp)
    simp only [csArgs, List.mem_cons, List.not_mem_nil, or_false] at hz
    rcases hz with rfl | rfl
    · exact a1.2
    · exact mul_ne_zero a1.1 a1.2

theorem SmallRuns.lim {p : Particle1} {e0 : ℝ} {N : ℕ} {o : ℝ → MieOut} (h : SmallRuns p e0 N o) {n : ℕ} (hn : 1 ≤ n)
    (hN : n ≤ N) :
    ∃ β, StaticSolves n p.epsEnv p.static β ∧
      Tendsto (fun k0 => (o k0).a.getD (n - 1) 0 / ((k0 * Real.sqrt e0 : ℝ) : ℂ) ^ (2 * n + 1)) (𝓝[>] 0)
        (𝓝 (I * (((n : ℂ) + 1) * (2 * n + 1) / (n * ((2 * n + 1)‼ : ℂ) ^ 2)) * β)) ∧
      Tendsto (fun k0 => (o k0).b.getD (n - 1) 0 / ((k0 * Real.sqrt e0 : ℝ) : ℂ) ^ (2 * n + 1)) (𝓝[>] 0) (𝓝 0) := by
  obtain ⟨h1, h2, h3, h4⟩ := h.basic
  have hne : p.rLayers ≠ [] := by rintro h0; rw [h0] at h3; simp at h3
  refine C70_coefficients h.host h.mat.ne hn (C70_regular h.host h.mat h1 h2 hne hn) ?_
  filter_upwards [self_mem_nhdsWithin] with k0 hk
  exact ⟨(h4 k0 hk).1, by rw [(h4 k0 hk).2]; exact hN⟩

/-- C70, all orders, for the torch and scipy backends with exact special functions and layers that are lossy or
dielectric. -/
theorem C70_core_shell {p : Particle1} {e0 : ℝ} {N : ℕ} {o : ℝ → MieOut} (h : SmallRuns p e0 N o) :
    ∀ n, 1 ≤ n → n ≤ N → ∃ β, StaticSolves n p.epsEnv p.static β ∧
      Tendsto (fun k0 => (o k0).a.getD (n - 1) 0 / ((k0 * Real.sqrt e0 : ℝ) : ℂ) ^ (2 * n + 1)) (𝓝[>] 0)
        (𝓝 (I * (((n : ℂ) + 1) * (2 * n + 1) / (n * ((2 * n + 1)‼ : ℂ) ^ 2)) * β)) ∧
      Tendsto (fun k0 => (o k0).b.getD (n - 1) 0 / ((k0 * Real.sqrt e0 : ℝ) : ℂ) ^ (2 * n + 1)) (𝓝[>] 0) (𝓝 0) :=
  fun _ hn hN => h.lim hn hN

/-- C70, dipole: `a_1 / k^3 -> -(2i/3) R^3 (eps - eps_host)/(eps + 2 eps_host)` for a homogeneous sphere, with the
coated-sphere factor for two layers. -/
theorem C70_dipole {p : Particle1} {e0 : ℝ} {N : ℕ} {o : ℝ → MieOut} (h : SmallRuns p e0 N o) :
    Tendsto (fun k0 => (o k0).a.getD 0 0 / ((k0 * Real.sqrt e0 : ℝ) : ℂ) ^ 3) (𝓝[>] 0)
      (𝓝 (-(2 * I / 3) * ((p.rLayers.getLastD 0 : ℝ) : ℂ) ^ 3 * p.mossotti)) ∧
    Tendsto (fun k0 => (o k0).b.getD 0 0 / ((k0 * Real.sqrt e0 : ℝ) : ℂ) ^ 3) (𝓝[>] 0) (𝓝 0) := by
  obtain ⟨-, h2, h3, -⟩ := h.basic
  obtain ⟨β, hs, t1, t2⟩ := h.lim le_rfl h.pos
  rw [static_dipole h.host h.mat.ne h2 h3 hs] at t1
  refine ⟨?_, t2⟩
  convert t1 using 2
  norm_num [Nat.doubleFactorial]
  ring

theorem tendsto_kpow {e0 : ℝ} (he : 0 < e0) (i : ℕ) :
    Tendsto (fun k0 : ℝ => ((k0 * Real.sqrt e0 : ℝ) : ℂ) ^ (2 * i)) (𝓝[>] 0) (𝓝 (0 ^ (2 * i))) :=
  ((tendsto_nhdsWithin_iff.1 (tendsto_kappa he)).1).pow _

/-- Coefficients of every order over `k^3`: only the electric dipole survives. -/
theorem SmallRuns.cube {p : Particle1} {e0 : ℝ} {N : ℕ} {o : ℝ → MieOut} (h : SmallRuns p e0 N o) {i : ℕ} (hi : i < N) :
    Tendsto (fun k0 => (o k0).a.getD i 0 / ((k0 * Real.sqrt e0 : ℝ) : ℂ) ^ 3) (𝓝[>] 0)
      (𝓝 (if i = 0 then -(2 * I / 3) * ((p.rLayers.getLastD 0 : ℝ) : ℂ) ^ 3 * p.mossotti else 0)) ∧
    Tendsto (fun k0 => (o k0).b.getD i 0 / ((k0 * Real.sqrt e0 : ℝ) : ℂ) ^ 3) (𝓝[>] 0) (𝓝 0) := by
  rcases Nat.eq_zero_or_pos i with rfl | hpos
  · simpa using C70_dipole h
  · rw [if_neg (by omega)]
    obtain ⟨β, -, t1, t2⟩ := h.lim (n := i + 1) (by omega) (by omega)
    have hk := tendsto_kpow h.host.env_pos i
    rw [zero_pow (by omega)] at hk
    have e : ∀ c : ℝ → ℂ, ∀ᶠ k0 in 𝓝[>] (0 : ℝ),
        c k0 / ((k0 * Real.sqrt e0 : ℝ) : ℂ) ^ (2 * (i + 1) + 1) * ((k0 * Real.sqrt e0 : ℝ) : ℂ) ^ (2 * i) =
        c k0 / ((k0 * Real.sqrt e0 : ℝ) : ℂ) ^ 3 := by
      intro c
      filter_upwards [kappa_ne (tendsto_kappa h.host.env_pos)] with k0 hk0
      rw [show 2 * (i + 1) + 1 = 2 * i + 3 by ring, pow_add]
      have : ((k0 * Real.sqrt e0 : ℝ) : ℂ) ^ (2 * i) ≠ 0 := pow_ne_zero _ hk0
      field_simp
    constructor
    · have := t1.mul hk
      rw [mul_zero] at this
      exact this.congr' (e _)
    · have := t2.mul hk
      rw [mul_zero] at this
      exact this.congr' (e _)

/-- C70, cross sections: `C_sca / k^4 -> (8 pi / 3) R^6 |F|^2` and `C_ext / k`, `C_abs / k -> 4 pi R^3 Im F` with the
Clausius-Mossotti factor `F`, whatever the truncation order. -/
theorem C70_cross_sections {p : Particle1} {e0 : ℝ} {N : ℕ} {o : ℝ → MieOut} (h : SmallRuns p e0 N o) :
    let c := fun k0 => crossSections (o k0).k (o k0).rS (o k0).a (o k0).b
    let R := p.rLayers.getLastD 0
    Tendsto (fun k0 => (c k0).csSca / (k0 * Real.sqrt e0) ^ 4) (𝓝[>] 0)
      (𝓝 (8 * Real.pi / 3 * R ^ 6 * ‖p.mossotti‖ ^ 2)) ∧
    Tendsto (fun k0 => (c k0).csExt / (k0 * Real.sqrt e0)) (𝓝[>] 0) (𝓝 (4 * Real.pi * R ^ 3 * p.mossotti.im)) ∧
    Tendsto (fun k0 => (c k0).csAbs / (k0 * Real.sqrt e0)) (𝓝[>] 0) (𝓝 (4 * Real.pi * R ^ 3 * p.mossotti.im)) := by
  intro c R
  obtain ⟨h1, h2, h3, h4⟩ := h.basic
  have hs := Real.sqrt_pos.2 h.host.env_pos
  have hkr : Tendsto (fun k0 : ℝ => k0 * Real.sqrt e0) (𝓝[>] 0) (𝓝 0) := by
    have := (tendsto_nhdsWithin_of_tendsto_nhds (s := Set.Ioi (0 : ℝ)) (tendsto_id (x := 𝓝 (0 : ℝ)))).mul_const (Real.sqrt e0)
    simpa using this
  set L : ℕ → ℂ := fun i => if i = 0 then -(2 * I / 3) * ((R : ℝ) : ℂ) ^ 3 * p.mossotti else 0 with hL
  have hterm : ∀ k0, 0 < k0 → (c k0).csExt / (k0 * Real.sqrt e0) =
      ∑ i ∈ Finset.range N, 2 * Real.pi * (2 * ((i : ℝ) + 1) + 1) *
        (((o k0).a.getD i 0 / ((k0 * Real.sqrt e0 : ℝ) : ℂ) ^ 3).re +
          ((o k0).b.getD i 0 / ((k0 * Real.sqrt e0 : ℝ) : ℂ) ^ 3).re) ∧
      (c k0).csSca / (k0 * Real.sqrt e0) ^ 4 =
      ∑ i ∈ Finset.range N, 2 * Real.pi * (2 * ((i : ℝ) + 1) + 1) *
        (‖(o k0).a.getD i 0 / ((k0 * Real.sqrt e0 : ℝ) : ℂ) ^ 3‖ ^ 2 +
          ‖(o k0).b.getD i 0 / ((k0 * Real.sqrt e0 : ℝ) : ℂ) ^ 3‖ ^ 2) := by
    intro k0 hk
    obtain ⟨run, hN⟩ := h4 k0 hk
    have hrh := h.host.real hk
    have hne := layers_ne hrh h.mat.ne
    obtain ⟨s1, s2⟩ := exactRun_sums run hrh hne
    have hκ : 0 < k0 * Real.sqrt e0 := mul_pos hk hs
    have hcoef : ∀ i, i < N → coef .tm (i + 1) (p.atK k0).layers = (o k0).a.getD i 0 ∧
        coef .te (i + 1) (p.atK k0).layers = (o k0).b.getD i 0 := by
      intro i hi
      obtain ⟨a, b, ea, eb, sa, sb⟩ := run.coef (i + 1) (by omega) (by omega)
      rw [Nat.add_sub_cancel] at ea eb
      rw [List.getD_eq_getElem?_getD, List.getD_eq_getElem?_getD, ea, eb]
      exact ⟨coef_eq hne sa, coef_eq hne sb⟩
    rw [hN] at s1 s2
    show (crossSections (o k0).k (o k0).rS (o k0).a (o k0).b).csExt / _ = _ ∧
      (crossSections (o k0).k (o k0).rS (o k0).a (o k0).b).csSca / _ = _
    rw [s1, s2, Finset.sum_div, Finset.sum_div]
    refine ⟨Finset.sum_congr rfl fun i hi => ?_, Finset.sum_congr rfl fun i hi => ?_⟩
    · obtain ⟨c1, c2⟩ := hcoef i (Finset.mem_range.1 hi)
      rw [extTerm, c1, c2, ← ofReal_pow, div_ofReal_re, div_ofReal_re]
      field_simp
    · obtain ⟨c1, c2⟩ := hcoef i (Finset.mem_range.1 hi)
      rw [scaTerm, c1, c2, norm_div, norm_div, norm_pow, norm_real, Real.norm_of_nonneg hκ.le]
      field_simp
  have hlimE : Tendsto (fun k0 => (c k0).csExt / (k0 * Real.sqrt e0)) (𝓝[>] 0)
      (𝓝 (∑ i ∈ Finset.range N, 2 * Real.pi * (2 * ((i : ℝ) + 1) + 1) * ((L i).re + 0))) := by
    refine Tendsto.congr' ?_ (tendsto_finsetSum _ fun i hi => Tendsto.const_mul _
      (((Complex.continuous_re.tendsto _).comp (h.cube (Finset.mem_range.1 hi)).1).add
        ((Complex.continuous_re.tendsto _).comp (h.cube (Finset.mem_range.1 hi)).2)))
    filter_upwards [self_mem_nhdsWithin] with k0 hk
    exact (hterm k0 hk).1.symm
  have hlimS : Tendsto (fun k0 => (c k0).csSca / (k0 * Real.sqrt e0) ^ 4) (𝓝[>] 0)
      (𝓝 (∑ i ∈ Finset.range N, 2 * Real.pi * (2 * ((i : ℝ) + 1) + 1) * (‖L i‖ ^ 2 + ‖(0 : ℂ)‖ ^ 2))) := by
    refine Tendsto.congr' ?_ (tendsto_finsetSum _ fun i hi => Tendsto.const_mul _
      (((h.cube (Finset.mem_range.1 hi)).1.norm.pow 2).add ((h.cube (Finset.mem_range.1 hi)).2.norm.pow 2)))
    filter_upwards [self_mem_nhdsWithin] with k0 hk
    exact (hterm k0 hk).2.symm
  have h0 : 0 ∈ Finset.range N := Finset.mem_range.2 h.pos
  rw [Finset.sum_eq_single_of_mem 0 h0 (by intro i _ hi; simp [hL, hi])] at hlimE hlimS
  have eE : 2 * Real.pi * (2 * (((0 : ℕ) : ℝ) + 1) + 1) * ((L 0).re + 0) = 4 * Real.pi * R ^ 3 * p.mossotti.im := by
    simp only [hL, if_true]
    rw [show -(2 * I / 3) * ((R : ℝ) : ℂ) ^ 3 * p.mossotti = ((-(2 / 3) * R ^ 3 : ℝ) : ℂ) * (I * p.mossotti) by
      push_cast; ring, re_ofReal_mul, I_mul_re]
    push_cast
    ring
  have eS : 2 * Real.pi * (2 * (((0 : ℕ) : ℝ) + 1) + 1) * (‖L 0‖ ^ 2 + ‖(0 : ℂ)‖ ^ 2) =
      8 * Real.pi / 3 * R ^ 6 * ‖p.mossotti‖ ^ 2 := by
    simp only [hL, if_true]
    rw [show -(2 * I / 3) * ((R : ℝ) : ℂ) ^ 3 * p.mossotti = ((-(2 / 3) * R ^ 3 : ℝ) : ℂ) * (I * p.mossotti) by
      push_cast; ring, norm_mul, norm_mul, norm_real, Complex.norm_I, one_mul, mul_pow, Real.norm_eq_abs, sq_abs,
      norm_zero]
    push_cast
    ring
  rw [eE] at hlimE
  rw [eS] at hlimS
  refine ⟨hlimS, hlimE, ?_⟩
  have := hlimE.sub (hlimS.mul (hkr.pow 3))
  simp only [ne_eq, OfNat.ofNat_ne_zero, not_false_eq_true, zero_pow, mul_zero, sub_zero] at this
  refine this.congr' ?_
  filter_upwards [self_mem_nhdsWithin] with k0 hk
  have hκ : k0 * Real.sqrt e0 ≠ 0 := (mul_pos hk hs).ne'
  have e3 := C05_ext_eq_sca_add_abs (o k0).k (o k0).rS (o k0).a (o k0).b
  have e4 : (c k0).csExt = (c k0).csSca + (c k0).csAbs := e3
  rw [e4]
  generalize k0 * Real.sqrt e0 = q at *
  field_simp
  ring

/-- C70, polarizability: the tensor of `StructAutodiffMieEffPola3D` at long wavelengths.  The electric diagonal tends
to `eps_host R^3 F`, the magnetic diagonal to zero. -/
theorem C70_polarizability {p : Particle1} {e0 : ℝ} {o : ℝ → MieOut} (h : SmallRuns p e0 2 o)
    {cf : ℝ → Ten ℝ → ℤ → Py (Ten ℂ × Ten ℂ)} {env : ℝ → Ten ℝ → Py (Ten ℂ)} {A B : ℝ → Ten ℂ} {alpha : ℝ → Ten ℂ}
    (hs : ∀ wl, 0 < wl → SphereRun (cf wl) (env wl) ⟨[1], fun _ => wl⟩ 2 1 (A wl) (B wl) (e0 : ℂ))
    (hA : ∀ wl, 0 < wl → (A wl).get [0, 0, 0] = (o (2 * Real.pi / wl)).a.getD 0 0 ∧
      (B wl).get [0, 0, 0] = (o (2 * Real.pi / wl)).b.getD 0 0)
    (ha : ∀ wl, 0 < wl → effPola (cf wl) (env wl) p.rLayers ⟨[1], fun _ => wl⟩ = .ok (alpha wl)) :
    ∀ r < 3,
      Tendsto (fun wl => (alpha wl).get [0, r, r]) atTop (𝓝 (e0 * ((p.rLayers.getLastD 0 : ℝ) : ℂ) ^ 3 * p.mossotti)) ∧
      Tendsto (fun wl => (alpha wl).get [0, r + 3, r + 3]) atTop (𝓝 0) := by
  intro r hr3
  obtain ⟨-, -, h3, -⟩ := h.basic
  have hne : p.rLayers ≠ [] := by rintro h0; rw [h0] at h3; simp at h3
  have hpi := Real.pi_pos
  have hsq := Real.sqrt_pos.2 h.host.env_pos
  have hsc : ((Real.sqrt e0 : ℝ) : ℂ) ≠ 0 := by exact_mod_cast hsq.ne'
  have hse : ((Real.sqrt e0 : ℝ) : ℂ) ^ 2 = (e0 : ℂ) := by
    rw [← ofReal_pow, Real.sq_sqrt h.host.env_pos.le]
  have hk : Tendsto (fun wl : ℝ => 2 * Real.pi / wl) atTop (𝓝[>] 0) := by
    refine tendsto_nhdsWithin_iff.2 ⟨tendsto_const_nhds.div_atTop tendsto_id, ?_⟩
    filter_upwards [eventually_gt_atTop 0] with wl hwl
    show 0 < 2 * Real.pi / wl
    positivity
  obtain ⟨t1, t2⟩ := C70_dipole h
  have u1 := (t1.comp hk).const_mul (3 * I / 2 * (e0 : ℂ))
  have u2 := (t2.comp hk).const_mul (3 * I / 2)
  rw [mul_zero] at u2
  have val : ∀ wl : ℝ, 0 < wl → (alpha wl).get [0, r, r] =
        3 * I / 2 * (A wl).get [0, 0, 0] / (((2 * Real.pi / wl : ℝ) : ℂ) ^ 3 * ((Real.sqrt e0 : ℝ) : ℂ)) ∧
      (alpha wl).get [0, r + 3, r + 3] =
        3 * I / 2 * (B wl).get [0, 0, 0] / (((2 * Real.pi / wl : ℝ) : ℂ) ^ 3 * ((Real.sqrt e0 : ℝ) : ℂ) ^ 3) := by
    intro wl hwl
    obtain ⟨al, e1, -, e3⟩ := C50_entries (hs wl hwl) hne
    rw [ha wl hwl] at e1
    injection e1 with e1
    subst e1
    rw [e3 0 one_pos r (by omega) r (by omega), e3 0 one_pos (r + 3) (by omega) (r + 3) (by omega)]
    simp only [ne_eq, not_true_eq_false, if_false, hr3, if_true, show ¬ r + 3 < 3 by omega,
      csqrt_ofReal h.host.env_pos.le, and_self]
  constructor
  · have e : 3 * I / 2 * (e0 : ℂ) * (-(2 * I / 3) * ((p.rLayers.getLastD 0 : ℝ) : ℂ) ^ 3 * p.mossotti) =
        e0 * ((p.rLayers.getLastD 0 : ℝ) : ℂ) ^ 3 * p.mossotti := by
      linear_combination (-(e0 : ℂ) * ((p.rLayers.getLastD 0 : ℝ) : ℂ) ^ 3 * p.mossotti) * I_sq
    rw [e] at u1
    refine u1.congr' ?_
    filter_upwards [eventually_gt_atTop 0] with wl hwl
    have hq : ((2 * Real.pi / wl : ℝ) : ℂ) ≠ 0 := by
      have : 0 < 2 * Real.pi / wl := by positivity
      exact_mod_cast this.ne'
    rw [(val wl hwl).1, (hA wl hwl).1]
    simp only [Function.comp_apply]
    rw [← hse, ofReal_mul]
    generalize ((2 * Real.pi / wl : ℝ) : ℂ) = q at *
    field_simp
  · refine u2.congr' ?_
    filter_upwards [eventually_gt_atTop 0] with wl hwl
    have hq : ((2 * Real.pi / wl : ℝ) : ℂ) ≠ 0 := by
      have : 0 < 2 * Real.pi / wl := by positivity
      exact_mod_cast this.ne'
    rw [(val wl hwl).2, (hA wl hwl).2]
    simp only [Function.comp_apply]
    rw [ofReal_mul]
    generalize ((2 * Real.pi / wl : ℝ) : ℂ) = q at *
    field_simp

/-! ## Examples -/

/-- A coated sphere, core and coat with permittivities `e1`, `e2` and radii 1, 2, in vacuum. -/
noncomputable def coatedDemo (e1 e2 : ℂ) : Particle1 := { k0 := 1, rLayers := [1, 2], epsLayers := [e1, e2], epsEnv := 1 }

/-- The hypotheses of C70 hold for it, with lossy or dielectric materials. -/
theorem coatedDemo_runs {e1 e2 : ℂ} (h : Materials (coatedDemo e1 e2)) (n : ℕ) : ∃ o, SmallRuns (coatedDemo e1 e2) 1 (n + 1) o := by
  have host : HostOK (coatedDemo e1 e2) 1 := ⟨by simp [coatedDemo], one_pos, by
    intro r hr
    simp only [coatedDemo, List.mem_cons, List.not_mem_nil, or_false] at hr
    rcases hr with rfl | rfl <;> norm_num⟩
  have hex : ∀ k0 : ℝ, ∃ o, 0 < k0 → mieCoefficients idealD1 exactBackends ((coatedDemo e1 e2).atK k0) "torch" "recurrence"
      (some ((n + 1 : ℕ) : ℤ)) = .ok o := by
    intro k0
    by_cases hk : 0 < k0
    · have hne := layers_ne (host.real hk) h.ne
      obtain ⟨o, ho, -⟩ := mieCoefficients_torch_ok (K := idealD1) (p := (coatedDemo e1 e2).atK k0) (r := 1) (r' := 2) (n := n)
        rfl rfl (by norm_num) (by
          intro z hz
          have hl : ((coatedDemo e1 e2).atK k0).layers =
            [(csqrt e1 / csqrt 1, (k0 : ℂ) * csqrt 1 * ((1 : ℝ) : ℂ)), (csqrt e2 / csqrt 1, (k0 : ℂ) * csqrt 1 * ((2 : ℝ) : ℂ))] := rfl
          rw [hl] at hz hne
          have a1 := hne _ (List.mem_cons_self ..)
          have a2 := hne _ (List.mem_cons_of_mem _ (List.mem_cons_self ..))
          simp only [csArgs, List.mem_cons, List.not_mem_nil, or_false] at hz
          rcases hz with rfl | rfl | rfl | rfl
          · exact a2.2
          · exact mul_ne_zero a1.1 a1.2
          · exact mul_ne_zero a2.1 a1.2
          · exact mul_ne_zero a2.1 a2.2)
      exact ⟨o, fun _ => ho⟩
    · exact ⟨⟨0, 0, 0, 0, 0, 0, 0, [], [], [], none⟩, fun h' => absurd h' hk⟩
  choose o ho using hex
  refine ⟨o, host, h, by omega, idealD1, exactBackends, "torch", "recurrence", false, Or.inl (by decide +kernel), ho, ?_⟩
  intro S hS z hz
  have hsel : selectBessel exactBackends "torch" "recurrence" = .ok exactBessel := by
    have hw : "recurrence".toLower = "recurrence" := by decide +kernel
    have ht : "torch".toLower = "torch" := by decide +kernel
    simp only [selectBessel, ht, hw, exactBackends]
    rw [if_neg (by decide), if_pos (by decide)]
  rw [hsel] at hS
  injection hS with hS
  subst hS
  exact exactBessel_at hz

/-- A dielectric core-shell sphere scatters like a dipole with Clausius-Mossotti factor 7/22 at long wavelengths. -/
example : ∃ o : ℝ → MieOut, SmallRuns (coatedDemo 8 2) 1 3 o ∧
    Tendsto (fun k0 => (crossSections (o k0).k (o k0).rS (o k0).a (o k0).b).csSca / (k0 * Real.sqrt 1) ^ 4) (𝓝[>] 0)
      (𝓝 (8 * Real.pi / 3 * 2 ^ 6 * (7 / 22) ^ 2)) := by
  obtain ⟨o, h⟩ := coatedDemo_runs (e1 := 8) (e2 := 2) (by
    intro e he
    simp only [coatedDemo, List.mem_cons, List.not_mem_nil, or_false] at he
    rcases he with rfl | rfl <;> exact Or.inr (by norm_num)) 2
  refine ⟨o, h, ?_⟩
  have := (C70_cross_sections h).1
  have e : (coatedDemo 8 2).mossotti = ((7 / 22 : ℝ) : ℂ) := by
    simp only [Particle1.mossotti, coatedDemo, clausiusCoated]
    norm_num
  rw [e, norm_real, Real.norm_of_nonneg (by norm_num)] at this
  simpa [coatedDemo] using this

/-- A lossy metal core in a dielectric coat meets the hypotheses as well. -/
example : ∃ o : ℝ → MieOut, SmallRuns (coatedDemo (-10 + 2 * I) 2) 1 2 o :=
  coatedDemo_runs (by
    intro e he
    simp only [coatedDemo, List.mem_cons, List.not_mem_nil, or_false] at he
    rcases he with rfl | rfl
    · exact Or.inl (by simp)
    · exact Or.inr (by norm_num)) 1

/-- The hypotheses of `C70_polarizability` are met. -/
example : ∃ (o : ℝ → MieOut) (cf : ℝ → Ten ℝ → ℤ → Py (Ten ℂ × Ten ℂ)) (env : ℝ → Ten ℝ → Py (Ten ℂ)) (A B alpha : ℝ → Ten ℂ),
    SmallRuns (coatedDemo 8 2) 1 2 o ∧
    (∀ wl, 0 < wl → SphereRun (cf wl) (env wl) ⟨[1], fun _ => wl⟩ 2 1 (A wl) (B wl) ((1 : ℝ) : ℂ)) ∧
    (∀ wl, 0 < wl → (A wl).get [0, 0, 0] = (o (2 * Real.pi / wl)).a.getD 0 0 ∧
      (B wl).get [0, 0, 0] = (o (2 * Real.pi / wl)).b.getD 0 0) ∧
    ∀ wl, 0 < wl → effPola (cf wl) (env wl) (coatedDemo 8 2).rLayers ⟨[1], fun _ => wl⟩ = .ok (alpha wl) := by
  obtain ⟨o, h⟩ := coatedDemo_runs (e1 := 8) (e2 := 2) (by
    intro e he
    simp only [coatedDemo, List.mem_cons, List.not_mem_nil, or_false] at he
    rcases he with rfl | rfl <;> exact Or.inr (by norm_num)) 1
  let A : ℝ → Ten ℂ := fun wl => ⟨[2, 1, 1], fun idx => (o (2 * Real.pi / wl)).a.getD (idx.headD 0) 0⟩
  let B : ℝ → Ten ℂ := fun wl => ⟨[2, 1, 1], fun idx => (o (2 * Real.pi / wl)).b.getD (idx.headD 0) 0⟩
  have run : ∀ wl : ℝ, SphereRun (fun _ _ => .ok ((A wl).squeeze, (B wl).squeeze)) (fun _ => .ok ⟨[1], fun _ => ((1 : ℝ) : ℂ)⟩)
      ⟨[1], fun _ => wl⟩ 2 1 (A wl) (B wl) ((1 : ℝ) : ℂ) := fun wl =>
    ⟨rfl, le_rfl, rfl, rfl, rfl, _, rfl, Or.inl rfl, fun _ => rfl⟩
  have hex := fun wl => C50_entries (run wl) (rs := (coatedDemo 8 2).rLayers) (by simp [coatedDemo])
  choose alpha halpha using hex
  exact ⟨o, _, _, A, B, alpha, h, fun wl _ => run wl, fun wl _ => ⟨rfl, rfl⟩, fun wl _ => (halpha wl).1⟩

end MieDiff
