import Verif.Proofs.Split
import Verif.Proofs.SolverExample

/-!
# Invariances of the layered solver: matched index (C08), split layers (C09), scaling (C10)

C08 and C09 hold for the code's truncated recurrence (`depthD1 N`, the code has `N = 15`); C10 for every kernel and every
backend.
-/

namespace MieDiff

open Complex Spec

/-! ## C08 -/

theorem codeD1_eq_depth : codeD1 = depthD1 15 := rfl

/-- The size parameters `k0 sqrt(eps_env) r_l`. -/
noncomputable def Particle1.sizes (p : Particle1) : List ℂ := p.rLayers.map fun (r : ℝ) => p.k0 * csqrt p.epsEnv * (r : ℂ)

/-- None of the guards that matter for matched layers fires: `D1 - D3` at the inner interfaces, and `x` and
`D1_i + i/x` at the outer one (`D1 = pena_D1_n`, `D3 = pena_D3_n`). -/
structure MatchClear (n N : ℕ) (xs : List ℂ) : Prop where
  inner : ∀ y ∈ xs.dropLast, ∀ i, 1 ≤ i → i ≤ n →
    solverEps ≤ ‖depthFn n N y i - d3Fn (depthFn n N) y i‖
  outer : ∀ x, xs.getLast? = some x → solverEps ≤ ‖x‖ ∧
    ∀ i, 1 ≤ i → i ≤ n → solverEps ≤ ‖depthFn n N x i + (i : ℂ) / x‖

theorem csqrt_ne_zero {e : ℂ} (h : e ≠ 0) : csqrt e ≠ 0 := by
  intro h0
  have := csqrt_sq e
  rw [h0] at this
  exact h (by rw [← this]; ring)

theorem layersOf_matched {k ne : ℂ} (hne : ne ≠ 0) : ∀ (rs : List ℝ) (es : List ℂ), es.length = rs.length →
    (∀ e ∈ es, csqrt e = ne) → layersOf k rs es ne = (rs.map fun (r : ℝ) => k * (r : ℂ)).map fun y => (1, y) := by
  intro rs
  induction rs with
  | nil => intro es _ _; simp [layersOf]
  | cons r rs ih =>
    intro es hl he
    cases es with
    | nil => simp at hl
    | cons e es =>
      have := ih es (by simpa using hl) (fun e' h' => he e' (by simp [h']))
      unfold layersOf at this ⊢
      simp only [List.map_cons, List.zip_cons_cons]
      rw [this, he e (by simp), div_self hne]

/-- C08: if every layer permittivity equals the host permittivity, the code returns `a_n = b_n = 0` exactly, for every
number of layers, every order and every recurrence depth. -/
theorem C08_matched_invisible {B : Backends} {p : Particle1} {backend w : String} {nMax : Option ℤ}
    {ri : Bool} {o : MieOut} {N : ℕ} (hN : 1 ≤ N) (hb : backend.toLower = "pena")
    (h : mieCoefficients (depthD1 N) B p backend w nMax ri = .ok o) (henv : p.epsEnv ≠ 0)
    (hmatch : ∀ e ∈ p.epsLayers, e = p.epsEnv) (hc : MatchClear o.nMax.toNat N p.sizes) :
    o.a = List.replicate o.nMax.toNat 0 ∧ o.b = List.replicate o.nMax.toNat 0 := by
  have run := mieCoefficients_pena_inv hb h
  have hl := layersOf_matched (k := p.k0 * csqrt p.epsEnv) (csqrt_ne_zero henv) p.rLayers p.epsLayers run.len
    (fun e he => by rw [hmatch e he])
  obtain ⟨x, xs, hxs⟩ : ∃ x xs, p.sizes = x :: xs := by
    obtain ⟨r, rs, hr⟩ := List.exists_cons_of_ne_nil run.ne
    exact ⟨_, _, by unfold Particle1.sizes; rw [hr, List.map_cons]⟩
  have hl' : p.layers = (1, x) :: xs.map fun y => (1, y) := by
    unfold Particle1.layers
    rw [hl]
    show List.map _ p.sizes = _
    rw [hxs, List.map_cons]
  obtain ⟨ea, eb⟩ := run.coefs (depthD1_fun _ N hN) hl'
  rw [hxs] at hc
  have hs := hFinal_matched hc.inner
  obtain ⟨hx, hd⟩ := hc.outer _ (List.getLast?_eq_some_getLast (by simp))
  have zero : ∀ q i, 1 ≤ i → i ≤ o.nMax.toNat →
      coefFn (depthFn o.nMax.toNat N) q (hFinal (depthFn o.nMax.toNat N) (1, x) (xs.map fun y => (1, y))) i = 0 := by
    intro q i h1 hi
    rw [hs.coef q h1 hi]
    have hdi := hd i h1 hi
    refine coef_matched h1 hx ?_ ?_ q
    · have hh := d1Val_step ((x :: xs).getLast (by simp)) solverEps (N := o.nMax.toNat + N) (n := i - 1) (by omega)
      have hi' : i - 1 + 1 = i := by omega
      rw [hi'] at hh
      unfold depthFn at hdi ⊢
      rw [guardAdd_of_le hx] at hdi ⊢
      rw [guardAdd_of_le hdi] at hh
      exact hh
    · intro h0; rw [h0, norm_zero] at hdi; linarith [solverEps_pos]
  constructor
  · rw [ea, List.eq_replicate_iff]
    refine ⟨by simp, ?_⟩
    intro z hz
    obtain ⟨i, hi, rfl⟩ := List.mem_map.1 hz
    exact zero _ _ (by omega) (by simpa using hi)
  · rw [eb, List.eq_replicate_iff]
    refine ⟨by simp, ?_⟩
    intro z hz
    obtain ⟨i, hi, rfl⟩ := List.mem_map.1 hz
    exact zero _ _ (by omega) (by simpa using hi)

theorem matchClear_small {n N : ℕ} (hN : 1 ≤ N) {x : ℂ} (h1 : solverEps ≤ ‖x‖) (h2 : ‖x‖ ≤ 1 / 2) :
    ∀ i, 1 ≤ i → i ≤ n → 2 ≤ ‖depthFn n N x i + (i : ℂ) / x‖ := by
  intro i hi1 hi
  have hx : x ≠ 0 := by rintro rfl; rw [norm_zero] at h1; linarith [solverEps_pos]
  obtain ⟨j, rfl⟩ : ∃ j, i = j + 1 := ⟨i - 1, by omega⟩
  unfold depthFn
  rw [guardAdd_of_le h1]
  have := (d1Val_near (z := x) (eps := solverEps) hx (by unfold solverEps; norm_num) (n + N) (n + N - j - 1) j
    (by omega) (by have : (0 : ℝ) ≤ j := Nat.cast_nonneg j; linarith)).2
  push_cast
  exact this

/-- C08, no guard hypothesis: a homogeneous sphere of the host material with size parameter at most 1/2 is invisible to
the code at every order. -/
theorem C08_small_sphere {B : Backends} {k0 env : ℂ} {r : ℝ} {backend w : String} {nMax : Option ℤ} {ri : Bool}
    {o : MieOut} (hb : backend.toLower = "pena")
    (h : mieCoefficients codeD1 B ⟨k0, [r], [env], env⟩ backend w nMax ri = .ok o) (henv : env ≠ 0)
    (h1 : 1e-30 ≤ ‖k0 * csqrt env * (r : ℂ)‖) (h2 : ‖k0 * csqrt env * (r : ℂ)‖ ≤ 1 / 2) :
    o.a = List.replicate o.nMax.toNat 0 ∧ o.b = List.replicate o.nMax.toNat 0 := by
  rw [codeD1_eq_depth] at h
  refine C08_matched_invisible (N := 15) (by norm_num) hb h henv (by simp) ⟨by simp [Particle1.sizes], ?_⟩
  intro x hx
  simp only [Particle1.sizes, List.map_cons, List.map_nil, List.getLast?_singleton, Option.some.injEq] at hx
  subst hx
  refine ⟨h1, fun i hi1 hi => ?_⟩
  have := matchClear_small (N := 15) (by norm_num) h1 h2 i hi1 hi
  have : solverEps ≤ 2 := by unfold solverEps; norm_num
  linarith

/-- A two-layer particle (size parameters 1/4 and 1/2) meets the hypotheses of C08 with the code's depth. -/
example (B : Backends) : ∃ o, mieCoefficients codeD1 B ⟨1, [1 / 4, 1 / 2], [1, 1], 1⟩ "Pena" "recurrence" (some 1) = .ok o ∧
    o.nMax.toNat = 1 ∧ MatchClear 1 15 (Particle1.sizes ⟨1, [1 / 4, 1 / 2], [1, 1], 1⟩) := by
  obtain ⟨o, h, hn⟩ := mieCoefficients_pena_ok (K := codeD1) (B := B) (p := ⟨1, [1 / 4, 1 / 2], [1, 1], 1⟩)
    (backend := "Pena") (w := "recurrence") (depthD1_fun 1 15 (by norm_num)) (by decide +kernel) le_rfl
    (by simp only [strictlyIncreasing]; norm_num) (by simp) (by simp)
  refine ⟨o, h, by rw [hn]; rfl, ?_⟩
  have c1 : csqrt 1 = 1 := by have := csqrt_nat_sq (r := 1) (by norm_num); simpa using this
  have hs : Particle1.sizes ⟨1, [1 / 4, 1 / 2], [1, 1], 1⟩ = [((1 / 4 : ℝ) : ℂ), ((1 / 2 : ℝ) : ℂ)] := by
    simp [Particle1.sizes, c1]
  rw [hs]
  have heps : solverEps ≤ 1 / 100 := by unfold solverEps; norm_num
  refine ⟨?_, ?_⟩
  · intro y hy i h1 h2
    obtain rfl : i = 1 := le_antisymm h2 h1
    simp only [List.dropLast_cons_cons, List.dropLast_singleton, List.mem_singleton] at hy
    subst hy
    have hny : ‖((1 / 4 : ℝ) : ℂ)‖ = 1 / 4 := by rw [norm_real]; norm_num
    have hne : ((1 / 4 : ℝ) : ℂ) ≠ 0 := by norm_num
    have hg : guardAdd solverEps ((1 / 4 : ℝ) : ℂ) = ((1 / 4 : ℝ) : ℂ) := guardAdd_of_le (by rw [hny]; linarith)
    generalize hP : (pzD3 ((1 / 4 : ℝ) : ℂ) ((1 / 4 : ℝ) : ℂ) solverEps (depthFn 1 15 ((1 / 4 : ℝ) : ℂ)) 1).1 = P
    have e : depthFn 1 15 ((1 / 4 : ℝ) : ℂ) 1 - d3Fn (depthFn 1 15) ((1 / 4 : ℝ) : ℂ) 1 = -(I / guardAdd solverEps P) := by
      unfold d3Fn d3Val
      rw [hg, ← hP, pzD3]
      simp only
      ring
    have hPn : ‖P‖ ≤ 3 := by
      rw [← hP, pzD3]
      simp only [pzD3]
      have hd := (d1Val_near (z := ((1 / 4 : ℝ) : ℂ)) (eps := solverEps) hne (by linarith) (1 + 15) 15 0 rfl
        (by rw [hny]; norm_num)).1
      have e0 : depthFn 1 15 ((1 / 4 : ℝ) : ℂ) 0 = d1Val ((1 / 4 : ℝ) : ℂ) solverEps (1 + 15) 0 := by
        unfold depthFn; rw [hg]
      rw [e0]
      rw [norm_mul, norm_mul, norm_mul]
      have b1 : ‖(1 - exp (2 * I * ((1 / 4 : ℝ) : ℂ)) : ℂ)‖ ≤ 2 := by
        refine (norm_sub_le _ _).trans ?_
        rw [norm_one, show 2 * I * ((1 / 4 : ℝ) : ℂ) = ((1 / 2 : ℝ) : ℂ) * I by push_cast; ring, norm_exp_ofReal_mul_I]
        norm_num
      have b2 : ‖((0 + 1 : ℕ) : ℂ) / ((1 / 4 : ℝ) : ℂ) - d1Val ((1 / 4 : ℝ) : ℂ) solverEps (1 + 15) 0‖ ≤ 1 / 2 := by
        rw [norm_sub_rev]; simpa using hd
      have b3 : ‖((0 + 1 : ℕ) : ℂ) / ((1 / 4 : ℝ) : ℂ) - I‖ ≤ 5 := by
        refine (norm_sub_le _ _).trans ?_
        rw [norm_I, norm_div, hny]
        norm_num
      have b4 : ‖(1 / 2 : ℂ)‖ = 1 / 2 := by norm_num
      rw [b4]
      have n1 := norm_nonneg (1 - exp (2 * I * ((1 / 4 : ℝ) : ℂ)) : ℂ)
      have n2 := norm_nonneg (((0 + 1 : ℕ) : ℂ) / ((1 / 4 : ℝ) : ℂ) - d1Val ((1 / 4 : ℝ) : ℂ) solverEps (1 + 15) 0)
      have n3 := norm_nonneg (((0 + 1 : ℕ) : ℂ) / ((1 / 4 : ℝ) : ℂ) - I)
      have s1 : 1 / 2 * ‖(1 - exp (2 * I * ((1 / 4 : ℝ) : ℂ)) : ℂ)‖ ≤ 1 := by linarith
      have s2 := mul_le_mul s1 b2 n2 zero_le_one
      have s3 := mul_le_mul s2 b3 n3 (by norm_num)
      linarith
    have hG : ‖guardAdd solverEps P‖ ≤ 4 := by
      unfold guardAdd
      split_ifs
      · refine (norm_add_le _ _).trans ?_
        rw [norm_real, Real.norm_eq_abs, abs_of_pos solverEps_pos]
        linarith
      · linarith
    have hG0 : 0 < ‖guardAdd solverEps P‖ := by
      rw [norm_pos_iff]
      unfold guardAdd
      split_ifs with hlt
      · intro h0
        have : P = -(solverEps : ℂ) := eq_neg_of_add_eq_zero_left h0
        rw [this, norm_neg, norm_real, Real.norm_eq_abs, abs_of_pos solverEps_pos] at hlt
        exact lt_irrefl _ hlt
      · intro h0
        rw [h0, norm_zero] at hlt
        exact hlt solverEps_pos
    rw [e, norm_neg, norm_div, norm_I, le_div_iff₀ hG0]
    nlinarith [solverEps_pos]
  · intro x hx
    simp only [List.getLast?_cons_cons, List.getLast?_singleton, Option.some.injEq] at hx
    subst hx
    have hny : ‖((1 / 2 : ℝ) : ℂ)‖ = 1 / 2 := by rw [norm_real]; norm_num
    refine ⟨by rw [hny]; linarith, fun i hi1 hi => ?_⟩
    have := matchClear_small (n := 1) (N := 15) (x := ((1 / 2 : ℝ) : ℂ)) (by norm_num) (by rw [hny]; linarith) (by rw [hny]) i hi1 hi
    linarith

/-! ## C09 -/

/-- `M` is the largest modulus in the list. -/
def IsMaxNorm (l : List ℂ) (M : ℝ) : Prop := (∃ z ∈ l, ‖z‖ = M) ∧ ∀ z ∈ l, ‖z‖ ≤ M

theorem IsMaxNorm.unique {l : List ℂ} {M M' : ℝ} (h : IsMaxNorm l M) (h' : IsMaxNorm l M') : M = M' := by
  obtain ⟨⟨z, hz, rfl⟩, a⟩ := h
  obtain ⟨⟨w, hw, rfl⟩, b⟩ := h'
  exact le_antisymm (b z hz) (a w hw)

theorem foldl_max_spec : ∀ (l : List ℂ) (m : ℝ), m ≤ l.foldl (fun m w => max m ‖w‖) m ∧
    (∀ z ∈ l, ‖z‖ ≤ l.foldl (fun m w => max m ‖w‖) m) ∧
    (l.foldl (fun m w => max m ‖w‖) m = m ∨ ∃ z ∈ l, ‖z‖ = l.foldl (fun m w => max m ‖w‖) m) := by
  intro l
  induction l with
  | nil => intro m; simp
  | cons a l ih =>
    intro m
    obtain ⟨h1, h2, h3⟩ := ih (max m ‖a‖)
    simp only [List.foldl_cons]
    refine ⟨(le_max_left _ _).trans h1, ?_, ?_⟩
    · intro z hz
      rcases List.mem_cons.1 hz with rfl | hz
      · exact (le_max_right _ _).trans h1
      · exact h2 z hz
    · rcases h3 with h3 | ⟨z, hz, h3⟩
      · rcases max_choice m ‖a‖ with hm | hm
        · left; rw [h3, hm]
        · right; exact ⟨a, by simp, by rw [h3, hm]⟩
      · right; exact ⟨z, by simp [hz], h3⟩

theorem maxAbs_spec {l : List ℂ} (h : l ≠ []) : ∃ M, maxAbs l = .ok M ∧ IsMaxNorm l M := by
  obtain ⟨a, l, rfl⟩ := List.exists_cons_of_ne_nil h
  obtain ⟨h1, h2, h3⟩ := foldl_max_spec l ‖a‖
  refine ⟨_, rfl, ?_, ?_⟩
  · rcases h3 with h3 | ⟨z, hz, h3⟩
    · exact ⟨a, by simp, h3.symm⟩
    · exact ⟨z, by simp [hz], h3⟩
  · intro z hz
    rcases List.mem_cons.1 hz with rfl | hz
    · exact h1
    · exact h2 z hz

/-- Every `k0 n_l r_(l-1)` is dominated by `k0 n_l r_l`. -/
theorem mxPrev_le (k0 : ℂ) : ∀ (ls : List (ℝ × ℂ)) (rp : ℝ), 0 ≤ rp → strictlyIncreasing (rp :: ls.map Prod.fst) →
    ∀ z ∈ List.zipWith (fun (l : ℝ × ℂ) (rp : ℝ) => k0 * csqrt l.2 * (rp : ℂ)) ls (rp :: (ls.map Prod.fst).dropLast),
      ∃ w ∈ ls.map (fun l => k0 * csqrt l.2 * (l.1 : ℂ)), ‖z‖ ≤ ‖w‖ := by
  intro ls
  induction ls with
  | nil => intro rp _ _ z hz; simp at hz
  | cons l ls ih =>
    intro rp h0 hinc z hz
    have hinc1 : rp < l.1 := hinc.1
    rw [List.zipWith_cons_cons] at hz
    rcases List.mem_cons.1 hz with rfl | hz
    · refine ⟨k0 * csqrt l.2 * (l.1 : ℂ), by simp, ?_⟩
      rw [norm_mul, norm_mul _ ((l.1 : ℝ) : ℂ), norm_real, norm_real, Real.norm_eq_abs, Real.norm_eq_abs, abs_of_nonneg h0,
        abs_of_nonneg (by linarith)]
      exact mul_le_mul_of_nonneg_left hinc1.le (norm_nonneg _)
    · cases ls with
      | nil => simp at hz
      | cons l' ls =>
        have h3 : (List.map Prod.fst (l :: l' :: ls)).dropLast = l.1 :: (List.map Prod.fst (l' :: ls)).dropLast := by
          simp
        rw [h3] at hz
        obtain ⟨w, hw, h4⟩ := ih l.1 (by linarith) hinc.2 z hz
        exact ⟨w, List.mem_cons_of_mem _ hw, h4⟩

/-- The truncation rule of one particle with increasing positive radii. -/
theorem penaNmax_one {e : TruncEntry} (hne : e.layers ≠ []) (hpos : ∀ l ∈ e.layers, 0 < l.1)
    (hinc : strictlyIncreasing (e.layers.map Prod.fst)) :
    ∃ M, IsMaxNorm e.mx M ∧ penaNmax [e] = .ok (torchRound (max (penaNStop ‖e.xOuter‖ : ℝ) M + 15)) := by
  obtain ⟨l, ls, hl⟩ := List.exists_cons_of_ne_nil hne
  have h1 : e.mx ≠ [] := by simp [TruncEntry.mx, hl]
  have h2 : e.mxPrev ≠ [] := by simp [TruncEntry.mxPrev, hl]
  obtain ⟨M1, e1, m1⟩ := maxAbs_spec h1
  obtain ⟨M2, e2, m2⟩ := maxAbs_spec h2
  have hle : M2 ≤ M1 := by
    obtain ⟨⟨z, hz, rfl⟩, _⟩ := m2
    have hi : strictlyIncreasing ((0 : ℝ) :: e.layers.map Prod.fst) := by
      rw [hl, List.map_cons] at hinc ⊢
      exact ⟨hpos l (by rw [hl]; simp), hinc⟩
    obtain ⟨w, hw, hzw⟩ := mxPrev_le e.k0 e.layers 0 le_rfl hi z hz
    exact hzw.trans (m1.2 w hw)
  refine ⟨M1, m1, ?_⟩
  unfold penaNmax
  have e0 : maxAbs [e.xOuter] = .ok ‖e.xOuter‖ := rfl
  simp only [List.map_cons, List.map_nil, List.flatMap_cons, List.flatMap_nil, List.append_nil, e0, e1, e2, bind,
    Except.bind, max_eq_left hle]

/-- `p'` is `p` with an additional interface at radius `r1` inside the layer with permittivity `e` and outer radius `r2`. -/
structure IsSplit (p p' : Particle1) (rpre rpost : List ℝ) (epre epost : List ℂ) (r1 r2 : ℝ) (e : ℂ) : Prop where
  k0 : p'.k0 = p.k0
  env : p'.epsEnv = p.epsEnv
  len : rpre.length = epre.length
  r : p.rLayers = rpre ++ r2 :: rpost
  r' : p'.rLayers = rpre ++ r1 :: r2 :: rpost
  eps : p.epsLayers = epre ++ e :: epost
  eps' : p'.epsLayers = epre ++ e :: e :: epost

theorem zip_append_eq {α β : Type*} : ∀ (a : List α) (b : List β) (c : List α) (d : List β), a.length = b.length →
    (a ++ c).zip (b ++ d) = a.zip b ++ c.zip d := by
  intro a b c d h
  exact List.zip_append h

theorem strictlyIncreasing_append_cons : ∀ (pre : List ℝ) (r : ℝ) (post : List ℝ),
    strictlyIncreasing (pre ++ r :: post) → strictlyIncreasing (r :: post) := by
  intro pre
  induction pre with
  | nil => intro r post h; exact h
  | cons a pre ih =>
    intro r post h
    cases pre with
    | nil => exact h.2
    | cons b pre => exact ih r post h.2

theorem isSplit_trunc {p p' : Particle1} {rpre rpost : List ℝ} {epre epost : List ℂ} {r1 r2 : ℝ} {e : ℂ}
    (hs : IsSplit p p' rpre rpost epre epost r1 r2 e) (hlen : p.epsLayers.length = p.rLayers.length)
    (hpos : ∀ r ∈ p'.rLayers, 0 < r)
    (hi : strictlyIncreasing p.rLayers) (hi' : strictlyIncreasing p'.rLayers) :
    penaNmax [p.trunc] = penaNmax [p'.trunc] := by
  have hlr : rpost.length = epost.length := by
    rw [hs.r, hs.eps] at hlen
    simp only [List.length_append, List.length_cons] at hlen
    have := hs.len
    omega
  have hz : p.trunc.layers = rpre.zip epre ++ (r2, e) :: rpost.zip epost := by
    simp only [Particle1.trunc, hs.r, hs.eps]
    rw [zip_append_eq _ _ _ _ hs.len, List.zip_cons_cons]
  have hz' : p'.trunc.layers = rpre.zip epre ++ (r1, e) :: (r2, e) :: rpost.zip epost := by
    simp only [Particle1.trunc, hs.r', hs.eps']
    rw [zip_append_eq _ _ _ _ hs.len, List.zip_cons_cons, List.zip_cons_cons]
  have hfst : p.trunc.layers.map Prod.fst = p.rLayers := by
    simp only [Particle1.trunc]
    rw [← List.unzip_fst, List.unzip_zip_left (by omega)]
  have hfst' : p'.trunc.layers.map Prod.fst = p'.rLayers := by
    simp only [Particle1.trunc]
    rw [← List.unzip_fst, List.unzip_zip_left]
    rw [hs.r', hs.eps']
    simp only [List.length_append, List.length_cons]
    have := hs.len
    omega
  have hpos1 : ∀ l ∈ p'.trunc.layers, 0 < l.1 := by
    intro l hl
    refine hpos l.1 ?_
    rw [← hfst']
    exact List.mem_map_of_mem hl
  have hsub : ∀ l ∈ p.trunc.layers, l ∈ p'.trunc.layers := by
    intro l hl
    rw [hz] at hl
    rw [hz']
    rcases List.mem_append.1 hl with h | h
    · exact List.mem_append_left _ h
    · exact List.mem_append_right _ (List.mem_cons_of_mem _ h)
  obtain ⟨M, hM, eM⟩ := penaNmax_one (e := p.trunc) (by rw [hz]; simp) (fun l hl => hpos1 l (hsub l hl))
    (by rw [hfst]; exact hi)
  obtain ⟨M', hM', eM'⟩ := penaNmax_one (e := p'.trunc) (by rw [hz']; simp) hpos1 (by rw [hfst']; exact hi')
  have hx : p.trunc.xOuter = p'.trunc.xOuter := by
    unfold TruncEntry.xOuter
    have e1 : p.trunc.layers.getLastD (0, 0) = p'.trunc.layers.getLastD (0, 0) := by
      rw [hz, hz']
      simp [List.getLastD_eq_getLast?]
    rw [e1]
    simp only [Particle1.trunc, hs.k0, hs.env]
  have hk : p.trunc.k0 = p'.trunc.k0 := hs.k0.symm
  have hinc12 := (strictlyIncreasing_append_cons rpre r1 (r2 :: rpost) (by rw [← hs.r']; exact hi')).1
  have hr1 : 0 < r1 := hpos r1 (by rw [hs.r']; simp)
  have hMM : IsMaxNorm p'.trunc.mx M := by
    refine ⟨?_, ?_⟩
    · obtain ⟨⟨z, hz0, h0⟩, _⟩ := hM
      refine ⟨z, ?_, h0⟩
      obtain ⟨l, hl, rfl⟩ := List.mem_map.1 hz0
      refine List.mem_map.2 ⟨l, hsub l hl, ?_⟩
      rw [hk]
    · intro z hz0
      obtain ⟨l, hl, rfl⟩ := List.mem_map.1 hz0
      have key : ∀ l ∈ p.trunc.layers, ‖p'.trunc.k0 * csqrt l.2 * (l.1 : ℂ)‖ ≤ M := by
        intro l hl
        rw [← hk]
        exact hM.2 _ (List.mem_map_of_mem hl)
      rw [hz'] at hl
      rcases List.mem_append.1 hl with h | h
      · exact key l (by rw [hz]; exact List.mem_append_left _ h)
      · rcases List.mem_cons.1 h with rfl | h
        · refine le_trans ?_ (key (r2, e) (by rw [hz]; simp))
          rw [norm_mul, norm_mul _ ((r2 : ℝ) : ℂ), norm_real, norm_real, Real.norm_eq_abs, Real.norm_eq_abs,
            abs_of_pos hr1, abs_of_pos (by linarith)]
          exact mul_le_mul_of_nonneg_left hinc12.le (norm_nonneg _)
        · exact key l (by rw [hz]; exact List.mem_append_right _ h)
  rw [eM, eM', hx, hMM.unique hM']

theorem layersOf_append {k ne : ℂ} {rpre rpost : List ℝ} {epre epost : List ℂ} (h : rpre.length = epre.length) :
    layersOf k (rpre ++ rpost) (epre ++ epost) ne = layersOf k rpre epre ne ++ layersOf k rpost epost ne := by
  unfold layersOf
  rw [List.map_append, List.map_append, zip_append_eq _ _ _ _ (by simp [h])]

/-- C09: an extra interface inside a layer changes no coefficient, for every layer list, position of the split and
order; also when `n_max` is chosen automatically.  Any log-derivative kernel with values `D`, in particular the code's
(`depthD1_fun`) and the exact one (`idealD1_fun`). -/
theorem C09_split_layer {K : D1Kernel} {D : ℂ → ℕ → ℂ} {B : Backends} {p p' : Particle1} {backend w : String}
    {nMax : Option ℤ} {ri : Bool} {o o' : MieOut} {rpre rpost : List ℝ} {epre epost : List ℂ} {r1 r2 : ℝ} {e : ℂ}
    (hb : backend.toLower = "pena") (hs : IsSplit p p' rpre rpost epre epost r1 r2 e)
    (h : mieCoefficients K B p backend w nMax ri = .ok o) (h' : mieCoefficients K B p' backend w nMax ri = .ok o')
    (hpos : ∀ r ∈ p'.rLayers, 0 < r) (hK : KernelFun K o.nMax.toNat D)
    (hc : SolverClear D o.nMax.toNat p.layers) (hc' : SolverClear D o.nMax.toNat p'.layers) :
    o'.nMax = o.nMax ∧ o'.a = o.a ∧ o'.b = o.b := by
  obtain ⟨run, hn, _⟩ := mieCoefficients_pena_inv' hb h
  obtain ⟨run', hn', _⟩ := mieCoefficients_pena_inv' hb h'
  have hnn : o'.nMax = o.nMax := by
    cases nMax with
    | some n =>
      simp only [penaOrder, Except.ok.injEq] at hn hn'
      rw [← hn, ← hn']
    | none =>
      simp only [penaOrder] at hn hn'
      rw [isSplit_trunc hs run.len hpos run.inc run'.inc, hn'] at hn
      exact Except.ok.inj hn
  obtain ⟨l, rest, hl⟩ := run.layers_cons
  obtain ⟨l', rest', hl'⟩ := run'.layers_cons
  obtain ⟨ea, eb⟩ := run.coefs hK hl
  obtain ⟨ea', eb'⟩ := run'.coefs (by rw [hnn]; exact hK) hl'
  rw [hnn] at ea' eb'
  have s1 : p.layers = layersOf (p.k0 * csqrt p.epsEnv) rpre epre (csqrt p.epsEnv) ++
      (csqrt e / csqrt p.epsEnv, p.k0 * csqrt p.epsEnv * (r2 : ℂ)) ::
        layersOf (p.k0 * csqrt p.epsEnv) rpost epost (csqrt p.epsEnv) := by
    unfold Particle1.layers
    rw [hs.r, hs.eps, layersOf_append hs.len]
    rfl
  have s2 : p'.layers = layersOf (p.k0 * csqrt p.epsEnv) rpre epre (csqrt p.epsEnv) ++
      (csqrt e / csqrt p.epsEnv, p.k0 * csqrt p.epsEnv * (r1 : ℂ)) ::
      (csqrt e / csqrt p.epsEnv, p.k0 * csqrt p.epsEnv * (r2 : ℂ)) ::
        layersOf (p.k0 * csqrt p.epsEnv) rpost epost (csqrt p.epsEnv) := by
    unfold Particle1.layers
    rw [hs.r', hs.eps', hs.k0, hs.env, layersOf_append hs.len]
    rfl
  rw [s1] at hl hc
  rw [s2] at hl' hc'
  have key : ∀ q i, 1 ≤ i → i ≤ o.nMax.toNat →
      coefFn D q (hFinal D l' rest') i = coefFn D q (hFinal D l rest) i :=
    fun q i h1 hi => split_coef hl hl' hc hc' q h1 hi
  refine ⟨hnn, ?_, ?_⟩
  · rw [ea, ea']
    exact List.map_congr_left fun i hi => key _ _ (by omega) (by simpa using hi)
  · rw [eb, eb']
    exact List.map_congr_left fun i hi => key _ _ (by omega) (by simpa using hi)

/-- Homogeneous sphere of index 3 and radius `π/2`, and the same sphere with an interface at `π/6`. -/
noncomputable def splitDemo : Particle1 := { k0 := 1, rLayers := [qp], epsLayers := [9], epsEnv := 1 }

noncomputable def splitDemo' : Particle1 := { k0 := 1, rLayers := [qp / 3, qp], epsLayers := [9, 9], epsEnv := 1 }

theorem splitDemo_layers : splitDemo.layers = [(3, (qp : ℂ))] ∧
    splitDemo'.layers = [(3, ((qp / 3 : ℝ) : ℂ)), (3, (qp : ℂ))] := by
  have h1 : csqrt 1 = 1 := by have := csqrt_nat_sq (r := 1) (by norm_num); simpa using this
  have h3 : csqrt 9 = 3 := by
    have := csqrt_nat_sq (r := 3) (by norm_num); push_cast at this; norm_num at this; exact this
  constructor <;> simp [Particle1.layers, layersOf, splitDemo, splitDemo', h1, h3]

theorem splitDemo_final {st : HState} (hm : st.m = 3) (hx : st.x = (qp : ℂ))
    (hH : ∀ p, st.H p 1 = logD1 1 ((3 * qp : ℝ) : ℂ)) : FinalClear idealFn 1 st := by
  refine ⟨by rw [hx]; exact qp_odd.kernelClear, ?_⟩
  intro p i h1 h2
  obtain rfl : i = 1 := le_antisymm h2 h1
  rw [hH, hm, hx, zetaFn_ideal qp_odd.kernelOK 1 le_rfl, zetaFn_ideal qp_odd.kernelOK (1 - 1) (by omega), qp3_odd.d1]
  cases p
  · have := qp_odd.final_den ((3 * qp - 1 / (3 * qp)) / 3 + 1 / qp)
    push_cast at this
    simpa [polOut] using this
  · have := qp_odd.final_den (3 * (3 * qp - 1 / (3 * qp)) + 1 / qp)
    push_cast at this
    simpa [polOut] using this

theorem splitDemo_clear : SolverClear idealFn 1 splitDemo.layers ∧ SolverClear idealFn 1 splitDemo'.layers := by
  have a := demo_args
  rw [splitDemo_layers.1, splitDemo_layers.2]
  have hd : ∀ p, solverEps < ‖hDen idealFn (hInit idealFn (3, ((qp / 3 : ℝ) : ℂ))) (3, (qp : ℂ)) p 1‖ := by
    intro p
    have e : hDen idealFn (hInit idealFn (3, ((qp / 3 : ℝ) : ℂ))) (3, (qp : ℂ)) p 1 =
        (I * ((-3 * qp ^ 2 : ℝ) : ℂ)) / (1 - I * qp) := by
      have h1 := qp_odd.ne
      have h2 := qp_factor
      have hp : polP p (3 : ℂ) 3 = 3 := by cases p <;> rfl
      have hq : polQ p (3 : ℂ) 3 = 3 := by cases p <;> rfl
      unfold hDen
      simp only [hInit, hp, hq, a.2.1, a.2.2]
      rw [qp_odd.d3Fn]
      simp only [idealFn]
      rw [qp_odd.d1, sub_self, mul_zero, sub_zero]
      push_cast
      field_simp
      ring
    rw [e]
    obtain ⟨h1, h2⟩ := qp_bounds
    refine norm_lower ?_
    rw [abs_of_neg (by nlinarith)]
    nlinarith
  refine ⟨⟨?_, ?_⟩, ?_, ⟨?_, ?_, ?_, ?_⟩, ?_⟩
  · show KernelClear idealFn 1 (3 * (qp : ℂ))
    rw [a.2.2]; exact qp3_odd.kernelClear
  · refine splitDemo_final rfl rfl (fun p => ?_)
    simp only [hInit, a.2.2, idealFn]
  · show KernelClear idealFn 1 (3 * ((qp / 3 : ℝ) : ℂ))
    rw [a.2.1]; exact qp_odd.kernelClear
  · show KernelClear idealFn 1 (3 * ((qp / 3 : ℝ) : ℂ))
    rw [a.2.1]; exact qp_odd.kernelClear
  · show KernelClear idealFn 1 (3 * (qp : ℂ))
    rw [a.2.2]; exact qp3_odd.kernelClear
  · show QClear idealFn 1 (3 * ((qp / 3 : ℝ) : ℂ)) (3 * (qp : ℂ)) (qp : ℂ)
    rw [a.2.1, a.2.2]; exact demo_q
  · intro p i h1 h2
    obtain rfl : i = 1 := le_antisymm h2 h1
    exact hd p
  · refine splitDemo_final rfl rfl (fun p => ?_)
    have := (hStep_matched (D := idealFn) (n := 1) (st := hInit idealFn (3, ((qp / 3 : ℝ) : ℂ))) (fun _ _ _ _ => rfl)
      (qp : ℂ) (by
        intro i h1 h2
        obtain rfl : i = 1 := le_antisymm h2 h1
        have := hd .tm
        simp only [hDen, hInit, polP, polQ, sub_self, mul_zero, sub_zero] at this
        simp only [hInit, mul_sub]
        exact this.le)).H p 1 le_rfl le_rfl
    simp only [hInit, a.2.2, idealFn] at this ⊢
    exact this

/-- The hypotheses of C09 hold for that pair. -/
example (B : Backends) : ∃ o o', mieCoefficients idealD1 B splitDemo "pena" "recurrence" (some 1) = .ok o ∧
    mieCoefficients idealD1 B splitDemo' "pena" "recurrence" (some 1) = .ok o' ∧
    IsSplit splitDemo splitDemo' [] [] [] [] (qp / 3) qp 9 ∧ (∀ r ∈ splitDemo'.rLayers, 0 < r) ∧
    KernelFun idealD1 o.nMax.toNat idealFn ∧ SolverClear idealFn o.nMax.toNat splitDemo.layers ∧
    SolverClear idealFn o.nMax.toNat splitDemo'.layers := by
  have hq := qp_odd.big
  obtain ⟨o, h, hn⟩ := mieCoefficients_pena_ok (n := 1) (B := B) (p := splitDemo) (w := "recurrence") (idealD1_fun 1)
    (backend := "pena") (by decide +kernel) le_rfl (by simp [splitDemo, strictlyIncreasing]) (by simp [splitDemo])
    (by simp [splitDemo])
  obtain ⟨o', h', hn'⟩ := mieCoefficients_pena_ok (n := 1) (B := B) (p := splitDemo') (w := "recurrence") (idealD1_fun 1)
    (backend := "pena") (by decide +kernel) le_rfl
    (by simp only [splitDemo', strictlyIncreasing]; exact ⟨by linarith, trivial⟩) (by simp [splitDemo'])
    (by simp [splitDemo'])
  have hn1 : o.nMax.toNat = 1 := by rw [hn]; rfl
  refine ⟨o, o', h, h', ⟨rfl, rfl, rfl, rfl, rfl, rfl, rfl⟩, ?_, idealD1_fun _, ?_, ?_⟩
  · intro r hr
    simp only [splitDemo', List.mem_cons, List.not_mem_nil, or_false] at hr
    rcases hr with rfl | rfl <;> linarith
  · rw [hn1]; exact splitDemo_clear.1
  · rw [hn1]; exact splitDemo_clear.2

/-! ## C10 -/

/-- All lengths multiplied by `s`. -/
noncomputable def Particle1.scale (p : Particle1) (s : ℝ) : Particle1 :=
  { k0 := p.k0 / (s : ℂ), rLayers := p.rLayers.map (s * ·), epsLayers := p.epsLayers, epsEnv := p.epsEnv }

theorem strictlyIncreasing_scale {s : ℝ} (hs : 0 < s) : ∀ rs : List ℝ,
    strictlyIncreasing (rs.map (s * ·)) ↔ strictlyIncreasing rs := by
  intro rs
  induction rs with
  | nil => simp [strictlyIncreasing]
  | cons r rs ih =>
    cases rs with
    | nil => simp [strictlyIncreasing]
    | cons r' rs =>
      simp only [List.map_cons, strictlyIncreasing] at ih ⊢
      rw [ih]
      exact and_congr_left fun _ => mul_lt_mul_iff_right₀ hs

theorem scale_mul {s : ℝ} (hs : 0 < s) (k n : ℂ) (r : ℝ) : k / (s : ℂ) * n * ((s * r : ℝ) : ℂ) = k * n * (r : ℂ) := by
  have : (s : ℂ) ≠ 0 := by exact_mod_cast hs.ne'
  push_cast
  field_simp

theorem scale_xs {s : ℝ} (hs : 0 < s) (k n : ℂ) (rs : List ℝ) :
    ((rs.map (s * ·)).map fun (r : ℝ) => k / (s : ℂ) * n * (r : ℂ)) = rs.map fun (r : ℝ) => k * n * (r : ℂ) := by
  rw [List.map_map]
  exact List.map_congr_left fun r _ => scale_mul hs k n r

theorem getLastD_scale (s : ℝ) : ∀ rs : List ℝ, (rs.map (s * ·)).getLastD 0 = s * rs.getLastD 0 := by
  intro rs
  induction rs using List.reverseRecOn with
  | nil => simp
  | append_singleton l a ih => simp

theorem scale_trunc {s : ℝ} (hs : 0 < s) (p : Particle1) : penaNmax [(p.scale s).trunc] = penaNmax [p.trunc] := by
  have hz : (p.scale s).trunc.layers = p.trunc.layers.map fun l => (s * l.1, l.2) := by
    simp only [Particle1.trunc, Particle1.scale]
    rw [List.zip_map_left]
    rfl
  have h1 : (p.scale s).trunc.mx = p.trunc.mx := by
    unfold TruncEntry.mx
    rw [hz, List.map_map]
    exact List.map_congr_left fun l _ => scale_mul hs _ _ _
  have h2 : (p.scale s).trunc.mxPrev = p.trunc.mxPrev := by
    unfold TruncEntry.mxPrev
    rw [hz, List.map_map]
    have e : (0 :: (p.trunc.layers.map (Prod.fst ∘ fun l => (s * l.1, l.2))).dropLast) =
        (0 :: (p.trunc.layers.map Prod.fst).dropLast).map (s * ·) := by
      rw [List.map_cons, mul_zero, ← List.map_dropLast, ← List.map_dropLast, List.map_map]
      rfl
    rw [e, List.zipWith_map]
    congr 1
    funext l rp
    exact scale_mul hs _ _ _
  have h3 : (p.scale s).trunc.xOuter = p.trunc.xOuter := by
    unfold TruncEntry.xOuter
    rw [hz]
    have : (p.trunc.layers.map fun l => (s * l.1, l.2)).getLastD (0, 0) =
        (s * (p.trunc.layers.getLastD (0, 0)).1, (p.trunc.layers.getLastD (0, 0)).2) := by
      induction p.trunc.layers using List.reverseRecOn with
      | nil => simp
      | append_singleton l a ih => simp
    rw [this]
    exact scale_mul hs _ _ _
  unfold penaNmax
  simp only [List.map_cons, List.map_nil, List.flatMap_cons, List.flatMap_nil, h1, h2, h3]

/-- The output of the scaled particle. -/
noncomputable def MieOut.scale (o : MieOut) (s : ℝ) : MieOut :=
  { o with k := o.k / (s : ℂ), rC := s * o.rC, rS := s * o.rS }

/-- C10: multiplying all radii by `s > 0` and dividing `k0` by `s` gives the same outcome for every backend: the same
exception, or the same `n_max` (also when automatic), indices, `a_n`, `b_n` and internal coefficients, with `k` and the
radii rescaled. -/
theorem C10_scale_coefficients (K : D1Kernel) (B : Backends) (p : Particle1) (backend w : String)
    (nMax : Option ℤ) (ri : Bool) {s : ℝ} (hs : 0 < s) :
    mieCoefficients K B (p.scale s) backend w nMax ri =
      (mieCoefficients K B p backend w nMax ri).map (MieOut.scale · s) := by
  have htr := scale_trunc hs p
  have hxs := scale_xs hs p.k0 (csqrt p.epsEnv) p.rLayers
  have hlen : (p.scale s).rLayers.length = p.rLayers.length := by simp [Particle1.scale]
  have hinc : strictlyIncreasing (p.scale s).rLayers ↔ strictlyIncreasing p.rLayers :=
    strictlyIncreasing_scale hs p.rLayers
  have hgl : (p.scale s).rLayers.getLastD 0 = s * p.rLayers.getLastD 0 := getLastD_scale s p.rLayers
  have hidx : pyIdx (p.scale s).rLayers 0 = (pyIdx p.rLayers 0).map (s * ·) := by
    simp only [Particle1.scale]
    cases p.rLayers with
    | nil => rfl
    | cons r rs => rfl
  have hw : ((((p.scale s).rLayers.getLastD 0 : ℝ) : ℂ) * (p.scale s).k0 * csqrt (p.scale s).epsEnv) =
      ((p.rLayers.getLastD 0 : ℝ) : ℂ) * p.k0 * csqrt p.epsEnv := by
    rw [hgl]
    have : (s : ℂ) ≠ 0 := by exact_mod_cast hs.ne'
    simp only [Particle1.scale]
    push_cast
    field_simp
  have hch : orderChoice backend.toLower (p.scale s) nMax = orderChoice backend.toLower p nMax := by
    cases nMax with
    | some n => rfl
    | none => simp only [orderChoice, htr, hw]
  have hpena : ∀ n, miecoefPenaK K ((p.scale s).k0 * csqrt (p.scale s).epsEnv) (p.scale s).rLayers p.epsLayers
      (csqrt (p.scale s).epsEnv) n ri =
      miecoefPenaK K (p.k0 * csqrt p.epsEnv) p.rLayers p.epsLayers (csqrt p.epsEnv) n ri := by
    intro n
    unfold miecoefPenaK
    have : ((p.scale s).rLayers.map fun (r : ℝ) => (p.scale s).k0 * csqrt (p.scale s).epsEnv * (r : ℂ)) =
      p.rLayers.map fun (r : ℝ) => p.k0 * csqrt p.epsEnv * (r : ℂ) := hxs
    rw [this]
    rfl
  have hk : ∀ r : ℝ, (p.scale s).k0 * csqrt (p.scale s).epsEnv * ((s * r : ℝ) : ℂ) = p.k0 * csqrt p.epsEnv * (r : ℂ) :=
    fun r => scale_mul hs _ _ r
  have he1 : (p.scale s).epsEnv = p.epsEnv := rfl
  have he2 : (p.scale s).epsLayers = p.epsLayers := rfl
  have hkk : (p.scale s).k0 * csqrt (p.scale s).epsEnv = p.k0 * csqrt p.epsEnv / (s : ℂ) := by
    simp only [Particle1.scale]; ring
  unfold mieCoefficients
  simp only [hlen, hidx, he2, hpena]
  by_cases c1 : backend.toLower = "torch" ∨ backend.toLower = "scipy" ∨ backend.toLower = "pena"
  swap
  · simp only [c1, not_false_eq_true, if_true]; rfl
  by_cases c2 : strictlyIncreasing p.rLayers
  swap
  · have c2' : ¬strictlyIncreasing (p.scale s).rLayers := fun h => c2 (hinc.mp h)
    simp only [c1, c2, c2', not_true_eq_false, not_false_eq_true, if_true, if_false]; rfl
  have c2' := hinc.mpr c2
  by_cases c3 : p.epsLayers.length = p.rLayers.length
  swap
  · simp only [c1, c2, c2', c3, ne_eq, not_true_eq_false, not_false_eq_true, if_true, if_false]; rfl
  simp only [c1, c2, c2', c3, ne_eq, not_true_eq_false, if_false]
  cases h1 : pyIdx p.rLayers 0 with
  | error e => rfl
  | ok rC =>
  cases h2 : pyIdx p.epsLayers 0 with
  | error e => rfl
  | ok eC =>
  simp only [Except.map, bind, Except.bind]
  rw [hch]
  generalize orderChoice backend.toLower p nMax = N
  cases N with
  | error e => rfl
  | ok n =>
  dsimp only
  cases orderRange n with
  | error e => rfl
  | ok _ =>
  dsimp only
  have hrS : (if p.rLayers.length > 1 then (p.scale s).rLayers.getLastD 0 else s * rC) =
      s * (if p.rLayers.length > 1 then p.rLayers.getLastD 0 else rC) := by
    split
    · exact hgl
    · rfl
  by_cases c4 : backend.toLower = "pena"
  · simp only [c4, if_true]
    cases miecoefPenaK K (p.k0 * csqrt p.epsEnv) p.rLayers p.epsLayers (csqrt p.epsEnv) n ri with
    | error e => rfl
    | ok ab =>
      dsimp only
      rw [hrS, hkk, he1]
      rfl
  · simp only [c4, if_false]
    by_cases c5 : p.rLayers.length > 2
    · simp only [c5, if_true]
    · simp only [c5, if_false]
      rw [hrS]
      simp only [hk]
      cases selectBessel B backend w with
      | error e => rfl
      | ok S =>
        dsimp only
        rw [he1]
        cases miecoef S (p.k0 * csqrt p.epsEnv * (rC : ℂ))
          (p.k0 * csqrt p.epsEnv * ((if p.rLayers.length > 1 then p.rLayers.getLastD 0 else rC : ℝ) : ℂ)) n
          (csqrt eC / csqrt p.epsEnv)
          (csqrt (if p.rLayers.length > 1 then p.epsLayers.getLastD 0 else eC) / csqrt p.epsEnv) with
        | error e => rfl
        | ok out =>
          dsimp only
          rw [← he1, hkk]
          rfl

/-- C10: the cross sections multiply by `s²`. -/
theorem C10_scale_cross_sections (K : D1Kernel) (B : Backends) (p : Particle1) (backend w : String)
    (nMax : Option ℤ) {s : ℝ} (hs : 0 < s) {c c' : CrossSections}
    (h : crossSectionsOf K B p backend w nMax = .ok c)
    (h' : crossSectionsOf K B (p.scale s) backend w nMax = .ok c') :
    c'.csGeo = s ^ 2 * c.csGeo ∧ c'.csExt = s ^ 2 * c.csExt ∧ c'.csSca = s ^ 2 * c.csSca ∧
    c'.csAbs = s ^ 2 * c.csAbs ∧ c'.qExt = c.qExt ∧ c'.qSca = c.qSca ∧ c'.qAbs = c.qAbs := by
  have hs0 : s ≠ 0 := hs.ne'
  have hsc : (s : ℂ) ≠ 0 := by exact_mod_cast hs0
  obtain ⟨o, ho, rfl⟩ := crossSectionsOf_inv h
  obtain ⟨o', ho', rfl⟩ := crossSectionsOf_inv h'
  rw [C10_scale_coefficients K B p backend w nMax false hs, ho] at ho'
  obtain rfl : o.scale s = o' := Except.ok.inj ho'
  have hmp : ∀ v : List ℂ, mpTerms (o.k / (s : ℂ)) v = (mpTerms o.k v).map (((s ^ 2 : ℝ) : ℂ) * ·) := by
    intro v
    unfold mpTerms
    apply List.ext_getElem?
    intro i
    simp only [List.getElem?_map, List.getElem?_mapIdx, Option.map_map]
    congr 1
    funext vi
    simp only [Function.comp]
    push_cast
    rw [div_pow, div_div_eq_mul_div]
    ring
  have hsum : ∀ l : List ℂ, (l.map (((s ^ 2 : ℝ) : ℂ) * ·)).sum = ((s ^ 2 : ℝ) : ℂ) * l.sum := by
    intro l; simpa only [id, List.map_id] using List.sum_map_mul_left l id ((s ^ 2 : ℝ) : ℂ)
  have hzip : ∀ l l' : List ℂ, List.zipWith (· - ·) (l.map (((s ^ 2 : ℝ) : ℂ) * ·)) (l'.map (((s ^ 2 : ℝ) : ℂ) * ·)) =
      (List.zipWith (· - ·) l l').map (((s ^ 2 : ℝ) : ℂ) * ·) := by
    intro l l'
    rw [List.zipWith_map, List.map_zipWith]
    congr 1
    funext a b
    ring
  have hre : ∀ z w : ℂ, (((s ^ 2 : ℝ) : ℂ) * z + ((s ^ 2 : ℝ) : ℂ) * w).re = s ^ 2 * (z + w).re := by
    intro z w
    rw [← mul_add, Complex.re_ofReal_mul]
  have hg : Real.pi * (s * o.rS) ^ 2 = s ^ 2 * (Real.pi * o.rS ^ 2) := by ring
  have hq : ∀ x : ℝ, s ^ 2 * x / (s ^ 2 * (Real.pi * o.rS ^ 2)) = x / (Real.pi * o.rS ^ 2) := fun x =>
    mul_div_mul_left _ _ (pow_ne_zero 2 hs0)
  refine ⟨?_, ?_, ?_, ?_, ?_, ?_, ?_⟩ <;>
    simp only [crossSections, MieOut.scale, hmp, hzip, hsum, hre, hg, hq]

/-- `p.scale` rescales every length. -/
example (s : ℝ) : (splitDemo'.scale s).rLayers = [s * (qp / 3), s * qp] ∧ (splitDemo'.scale s).k0 = 1 / (s : ℂ) :=
  ⟨rfl, rfl⟩

end MieDiff
