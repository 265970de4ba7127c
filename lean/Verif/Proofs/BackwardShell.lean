import Verif.Model.BackwardShell
import Verif.Proofs.BackwardOk
import Verif.Proofs.JLimit
import Verif.Props.CoreShell

/-!
# Reverse mode through the core-shell solver

The operations of Model/BackwardShell compute the adjoint of the derivative of the functions of Model/Multishell and Model/Special.
-/

namespace MieDiff

set_option linter.unusedSectionVars false

open Complex Spec Filter Topology

/-! ## The functions that the torch versions compute -/

/-- The downward sweep of `sph_jn_torch_via_rec`. -/
noncomputable def jDown (z : ℂ) (N : ℕ) : ℕ → ℂ × ℂ
  | 0 => (0, 1e-25)
  | j + 1 => ((2 * ((N - j : ℕ) : ℂ) + 1) / z * (jDown z N j).1 - (jDown z N j).2, (jDown z N j).1)

/-- `sph_jn_torch_via_rec` with extra depth `d` at order `k`. -/
noncomputable def viaRecFn (n d : ℕ) (z : ℂ) (k : ℕ) : ℂ :=
  let zs := guardSet 1e-10 z
  (jDown zs (n + d) (n + d - k)).1 * (sin zs / zs / (jDown zs (n + d) (n + d)).1)

/-- `sph_jn_torch` with extra depth `d` at order `k`, for arguments that are not small. -/
noncomputable def ratioFn (n d : ℕ) (z : ℂ) : ℕ → ℂ
  | 0 => if z = 0 then 1 else sin z / z
  | k + 1 => (if z = 0 then 1 else sin z / z) * cfProd z (n + d) (k + 1)

/-- The orders of `sph_yn_torch`. -/
noncomputable def yUp (z : ℂ) : ℕ → ℂ
  | 0 => -1 * (cos z / z)
  | 1 => -1 * (cos z / z ^ 2 + sin z / z)
  | k + 2 => (2 * ((k + 2 : ℕ) : ℂ) - 1) / z * yUp z (k + 1) - yUp z k

theorem jDown_loop (nMax : ℕ) (z : ℂ) (N : ℕ) :
    ∀ m ≤ N, ∀ L : List ℂ,
      (rangeDown m).foldl (jRecStep nMax z) ((jDown z N (N - m)).1, (jDown z N (N - m)).2, L) =
        ((jDown z N N).1, (jDown z N N).2,
          L ++ ((List.range (min m (nMax + 1))).map fun k => (jDown z N (N - k)).1).reverse) := by
  intro m
  induction m with
  | zero => intro _ L; simp [rangeDown_zero]
  | succ m ih =>
    intro hm L
    rw [rangeDown_succ, List.foldl_cons]
    have e : N - m = N - (m + 1) + 1 := by omega
    have e2 : N - (N - (m + 1)) = m + 1 := by omega
    have hs : jRecStep nMax z ((jDown z N (N - (m + 1))).1, (jDown z N (N - (m + 1))).2, L) (m + 1) =
        ((jDown z N (N - m)).1, (jDown z N (N - m)).2, if m + 1 ≤ nMax + 1 then L ++ [(jDown z N (N - m)).1] else L) := by
      unfold jRecStep
      rw [e, jDown, e2]
    rw [hs, ih (by omega)]
    congr 2
    by_cases h : m + 1 ≤ nMax + 1
    · rw [if_pos h, min_eq_left h, min_eq_left (by omega), List.range_succ]
      simp
    · rw [if_neg h, min_eq_right (by omega), min_eq_right (by omega)]

theorem sphJnViaRecDepth_run (n : ℕ) (z : ℂ) {d : ℕ} (hd : 1 ≤ d) :
    sphJnViaRecDepth n z d = .ok (tab n (viaRecFn n d z)) := by
  unfold sphJnViaRecDepth
  rw [if_neg (by omega)]
  have hN : ((n : ℤ) + (d : ℤ)).toNat = n + d := by omega
  have h := jDown_loop n (guardSet 1e-10 z) (n + d) (n + d) le_rfl []
  rw [Nat.sub_self, show jDown (guardSet 1e-10 z) (n + d) 0 = (0, 1e-25) from rfl, min_eq_right (by omega)] at h
  rw [hN]
  simp only [Int.toNat_natCast]
  rw [h]
  simp only [List.nil_append, List.reverse_reverse]
  rw [show (List.range (n + 1)).map (fun k => (jDown (guardSet 1e-10 z) (n + d) (n + d - k)).1) =
    tab n (fun k => (jDown (guardSet 1e-10 z) (n + d) (n + d - k)).1) from rfl]
  have hc : tab n (fun k => (jDown (guardSet 1e-10 z) (n + d) (n + d - k)).1) = (jDown (guardSet 1e-10 z) (n + d) (n + d)).1 ::
      (List.range n).map (fun i => (jDown (guardSet 1e-10 z) (n + d) (n + d - (i + 1))).1) := by
    unfold tab
    rw [List.range_succ_eq_map]
    simp [Function.comp_def]
  rw [hc]
  simp only
  rw [← hc, map_tab]
  rfl

theorem sphJnTorchDepth_run (n : ℕ) (z : ℂ) (d : ℕ) (h : 1e-8 ≤ ‖z‖) :
    sphJnTorchDepth n z d = .ok (tab n (ratioFn n d z)) := by
  have hz0 : z ≠ 0 := by rintro rfl; norm_num at h
  rw [sphJnTorchDepth_eq n z d (by norm_num) h]
  congr 1
  refine tab_congr fun k _ => ?_
  cases k with
  | zero => simp [ratioFn, if_neg hz0, cfProd]
  | succ k => simp [ratioFn, if_neg hz0]

theorem sphYnTorch_run (n : ℕ) (z : ℂ) : sphYnTorch n z = .ok (tab n (yUp (guardSet 1e-10 z))) := by
  unfold sphYnTorch
  rw [if_neg (by omega)]
  simp only [Int.toNat_natCast]
  generalize guardSet 1e-10 z = z
  have e0 : -1 * (cos z / z) = yUp z 0 := rfl
  have e1 : -1 * (cos z / z ^ 2 + sin z / z) = yUp z 1 := rfl
  rw [e0, e1]
  match n with
  | 0 => simp [tab_zero]
  | 1 => simp [tab_succ, tab_zero]
  | n + 2 =>
    rw [if_pos (by omega), if_pos (by omega)]
    have hl : ([yUp z 0] ++ [yUp z 1]) = tab 1 (yUp z) := by
      simp [tab_succ, tab_zero]
    rw [hl]
    have := foldlM_range_map (yRecStep z) (fun m => tab (m + 1) (yUp z)) 2 (n + 1)
      (by
        intro m hm
        unfold yRecStep
        rw [show m + 2 - 1 = m + 1 from rfl, show m + 2 - 2 = m from rfl,
          pyIdx_tab (by omega), pyIdx_tab (by omega), tab_succ (m + 1)]
        simp only [Bind.bind, Except.bind]
        rfl)
    simpa using this

/-- `f_der` on a sequence. -/
noncomputable def derFn (z : ℂ) (f : ℕ → ℂ) : ℕ → ℂ
  | 0 => -f 1
  | k + 1 => f k - (((k + 1 : ℕ) : ℂ) + 1) / z * f (k + 1)

theorem fDer_run (n : ℕ) (z : ℂ) (f : ℕ → ℂ) : fDer z (tab (n + 1) f) = .ok (tab (n + 1) (derFn z f)) := by
  unfold fDer
  rw [pyIdx_tab (by omega)]
  simp only [tab_length, Nat.add_sub_cancel, Bind.bind, Except.bind]
  congr 1
  rw [tab_cons n (derFn z f)]
  congr 1
  unfold tab
  refine List.map_congr_left fun i hi => ?_
  have hi' : i ≤ n := by simpa [Nat.lt_succ_iff] using hi
  have h1 := tab_getD (f := f) (show i ≤ n + 1 by omega) 0
  have h2 := tab_getD (f := f) (show i + 1 ≤ n + 1 by omega) 0
  unfold tab at h1 h2
  rw [h1, h2]
  rfl

/-- Spherical Bessel functions of the two kinds by argument and order. -/
structure BessFn where
  j : ℂ → ℕ → ℂ
  y : ℂ → ℕ → ℂ

/-- The backend returns these functions at `z`. -/
structure RunsAt (S : BesselBackend) (n : ℕ) (B : BessFn) (z : ℂ) : Prop where
  j : S.jn n z = .ok (tab n (B.j z))
  y : S.yn n z = .ok (tab n (B.y z))

/-- The values entering the closed form at order `i`. -/
noncomputable def fnIn (By B1x B2x B2y : BessFn) (x y m1 m2 : ℂ) (i : ℕ) : CoreShellIn :=
  { m1 := m1
    m2 := m2
    psi_y := y * By.j y i
    psi_m1x := (m1 * x) * B1x.j (m1 * x) i
    psi_m2x := (m2 * x) * B2x.j (m2 * x) i
    psi_m2y := (m2 * y) * B2y.j (m2 * y) i
    chi_m2x := -(m2 * x) * B2x.y (m2 * x) i
    chi_m2y := -(m2 * y) * B2y.y (m2 * y) i
    xi_y := y * (By.j y i + I * By.y y i)
    dpsi_y := By.j y i + y * derFn y (By.j y) i
    dpsi_m1x := B1x.j (m1 * x) i + (m1 * x) * derFn (m1 * x) (B1x.j (m1 * x)) i
    dpsi_m2x := B2x.j (m2 * x) i + (m2 * x) * derFn (m2 * x) (B2x.j (m2 * x)) i
    dpsi_m2y := B2y.j (m2 * y) i + (m2 * y) * derFn (m2 * y) (B2y.j (m2 * y)) i
    dchi_m2x := -B2x.y (m2 * x) i - (m2 * x) * derFn (m2 * x) (B2x.y (m2 * x)) i
    dchi_m2y := -B2y.y (m2 * y) i - (m2 * y) * derFn (m2 * y) (B2y.y (m2 * y)) i
    dxi_y := By.j y i + I * By.y y i + y * (derFn y (By.j y) i + I * derFn y (By.y y) i) }

theorem miecoef_run {S : BesselBackend} {By B1x B2x B2y : BessFn} {n : ℕ} {x y m1 m2 : ℂ} (hy : RunsAt S (n + 1) By y)
    (h1 : RunsAt S (n + 1) B1x (m1 * x)) (h2 : RunsAt S (n + 1) B2x (m2 * x)) (h3 : RunsAt S (n + 1) B2y (m2 * y)) :
    miecoef S x y ((n + 1 : ℕ) : ℤ) m1 m2 = .ok (tab n fun i => miecoefOrder (fnIn By B1x B2x B2y x y m1 m2 (i + 1))) := by
  unfold miecoef miecoef4
  rw [hy.j, hy.y, h1.j, h2.j, h3.j, h2.y, h3.y]
  simp only [Bind.bind, Except.bind]
  rw [fDer_run, fDer_run, fDer_run, fDer_run, fDer_run, fDer_run, fDer_run]
  simp only [h1Of, zipWith_tab, tab_length]
  congr 1
  rw [← tab_tail n (fun i => miecoefOrder (fnIn By B1x B2x B2y x y m1 m2 i))]
  congr 1
  refine List.map_congr_left fun i hi => ?_
  have hi' : i ≤ n + 1 := by have := List.mem_range.1 hi; omega
  simp only [tab_getD hi']
  rfl

/-! ## Adjoints -/

namespace Node

open scoped RealInnerProductSpace

section Tracks

variable {V : Type*} [NormedAddCommGroup V] [InnerProductSpace ℝ V] {v0 : V} {x y z : Node V} {f g : V → ℂ}

theorem Tracks.neg (h : Tracks v0 x f) : Tracks v0 (Node.neg x) fun v => -f v :=
  ⟨by simp [Node.neg, h.val], fun hr v => by rw [h.frozen hr v], fun ok => (h.adj ok).neg⟩

theorem Tracks.scipyFn {φ φ' : ℂ → ℂ} (h : Tracks v0 x f) (hφ : ∀ z, z ≠ 0 → HasDerivAt φ (φ' z) z) :
    Tracks v0 (Node.scipyFn φ φ' x) fun v => φ (f v) :=
  h.comp (fun ok => ok.1) (fun ok _ => by
    have h0 := ok.2
    rw [h.val] at h0 ⊢
    exact hφ _ h0) fun _ => rfl

theorem Tracks.safe (h : Tracks v0 x f) : Tracks v0 (Node.safe x) fun v => guardSet 1e-10 (f v) := by
  refine ⟨?_, fun hr v => ?_, fun ok => ?_⟩
  · simp only [Node.safe, Node.where', Node.const, guardSet, h.val]
  · simp only [Node.safe, Node.where', Node.const, Bool.false_or] at hr
    rw [h.frozen hr v]
  · obtain ⟨ok, hne⟩ := ok
    have ha := h.adj ok
    rw [h.val] at hne
    rcases lt_or_gt_of_ne hne with hlt | hgt
    · have hb : ∀ s, (Node.safe x).back s = 0 := by
        intro s
        have hc : ‖x.val‖ < 1e-10 := by rw [h.val]; exact hlt
        simp only [Node.safe, Node.where', Node.const, hc, if_true, ha.zero, add_zero]
      rw [funext hb]
      have : Adj v0 (fun _ => (0 : V)) fun _ => ((1e-10 : ℝ) : ℂ) := (Tracks.const _).adj trivial
      refine this.congr_near ?_
      filter_upwards [ha.cont.norm.eventually_lt_const hlt] with v hv
      simp only [guardSet, if_pos hv]
    · have hb : ∀ s, (Node.safe x).back s = x.back s := by
        intro s
        have hc : ¬ ‖x.val‖ < 1e-10 := by rw [h.val]; exact not_lt.2 hgt.le
        simp only [Node.safe, Node.where', Node.const, hc, if_false, zero_add]
      rw [funext hb]
      refine ha.congr_near ?_
      filter_upwards [ha.cont.norm.eventually_const_lt hgt] with v hv
      simp only [guardSet, if_neg (not_lt.2 hv.le)]

theorem Tracks.nonzero (h : Tracks v0 x f) : Tracks v0 (Node.nonzero x) fun v => if ‖f v‖ = 0 then f v + (1e-50 : ℂ) else f v := by
  refine ⟨?_, fun hr v => ?_, fun ok => ?_⟩
  · simp only [Node.nonzero, Node.where', Node.add, Node.const, h.val]
  · simp only [Node.nonzero, Node.where', Node.add, Node.const, Bool.or_self, Bool.or_false] at hr
    rw [h.frozen hr v]
  · obtain ⟨ok, hne⟩ := ok
    have ha := h.adj ok
    have hc : ¬ ‖x.val‖ = 0 := by simpa using hne
    have hb : ∀ s, (Node.nonzero x).back s = x.back s := by
      intro s
      simp only [Node.nonzero, Node.where', Node.add, Node.const, add_zero, hc, if_false, ha.zero, zero_add]
    rw [funext hb]
    rw [h.val] at hne
    refine ha.congr_near ?_
    filter_upwards [ha.cont.eventually_ne hne] with v hv
    rw [if_neg (by simpa using hv)]

/-- `torch.where(z == 0, 1, sin(z)/z)`. -/
theorem Tracks.sinc (h : Tracks v0 x f) :
    Tracks v0 (Node.where' (x.val = 0) (Node.const 1) (Node.div (Node.sin x) x)) fun v => if f v = 0 then 1 else Complex.sin (f v) / f v := by
  have hd := h.sin.div h
  refine ⟨?_, fun hr v => ?_, fun ok => ?_⟩
  · simp only [Node.where', Node.const, hd.val, h.val]
  · simp only [Node.where', Node.const, Node.div, Node.sin, Bool.false_or, Bool.or_self] at hr
    rw [h.frozen hr v]
  · have hx := ok.2.2.2
    have ha := hd.adj ok.2
    have hb : ∀ s, (Node.where' (x.val = 0) (Node.const 1) (Node.div (Node.sin x) x)).back s = (Node.div (Node.sin x) x).back s := by
      intro s
      simp only [Node.where', Node.const, hx, if_false, zero_add]
    rw [funext hb]
    have hc := (h.adj ok.2.2.1).cont
    rw [h.val] at hx
    refine ha.congr_near ?_
    filter_upwards [hc.eventually_ne hx] with v hv
    rw [if_neg hv]

theorem jRec_tracks {zs : Node V} (h : Tracks v0 zs f) (N : ℕ) : ∀ j,
    Tracks v0 (Node.jRec zs N j).1 (fun v => (jDown (f v) N j).1) ∧ Tracks v0 (Node.jRec zs N j).2 (fun v => (jDown (f v) N j).2)
  | 0 => ⟨Tracks.const 0, Tracks.const 1e-25⟩
  | j + 1 => ⟨((h.rdiv _).mul (jRec_tracks h N j).1).sub (jRec_tracks h N j).2, (jRec_tracks h N j).1⟩

theorem viaRec_tracks (h : Tracks v0 z f) (n d k : ℕ) : Tracks v0 (Node.viaRec n d z k) fun v => viaRecFn n d (f v) k := by
  have hs := h.safe
  exact (jRec_tracks hs _ _).1.mul ((hs.sin.div hs).div (jRec_tracks hs _ _).1)

theorem ratioDown_tracks (h : Tracks v0 z f) (N : ℕ) : ∀ j, Tracks v0 (Node.ratioDown z N j) fun v => cfDown (f v) N j
  | 0 => Tracks.const 0
  | j + 1 => ((h.rdiv _).sub (ratioDown_tracks h N j)).nonzero.rdiv 1

theorem ratioProd_tracks (h : Tracks v0 z f) (N : ℕ) : ∀ k, Tracks v0 (Node.ratioProd z N k) fun v => cfProd (f v) N k
  | 0 => Tracks.const 1
  | k + 1 => (ratioProd_tracks h N k).mul (ratioDown_tracks h N _)

theorem ratio_tracks (h : Tracks v0 z f) (n d : ℕ) : ∀ k, Tracks v0 (Node.ratio n d z k) fun v => ratioFn n d (f v) k
  | 0 => h.sinc
  | _ + 1 => h.sinc.mul (ratioProd_tracks h _ _)

theorem yRec_tracks {zs : Node V} (h : Tracks v0 zs f) : ∀ k, Tracks v0 (Node.yRec zs k) fun v => yUp (f v) k
  | 0 => (Tracks.const (-1)).mul (h.cos.div h)
  | 1 => (Tracks.const (-1)).mul ((h.cos.div h.sq).add (h.sin.div h))
  | k + 2 => ((h.rdiv _).mul (yRec_tracks h (k + 1))).sub (yRec_tracks h k)

/-- A recorded backend follows functions at the argument `x`. -/
structure Bess.TracksAt (v0 : V) (b : Bess V) (x : Node V) (f : V → ℂ) (B : BessFn) : Prop where
  arg : Node.Tracks v0 x f
  j : ∀ k, Node.Tracks v0 (b.jn x k) fun v => B.j (f v) k
  y : ∀ k, Node.Tracks v0 (b.yn x k) fun v => B.y (f v) k

/-- The exact functions. -/
noncomputable def exactFn : BessFn := ⟨fun z k => sphJ k z, fun z k => sphY k z⟩

noncomputable def recFn (n d : ℕ) : BessFn := ⟨viaRecFn n d, fun z => yUp (guardSet 1e-10 z)⟩

noncomputable def ratFn (n d : ℕ) : BessFn := ⟨ratioFn n d, fun z => yUp (guardSet 1e-10 z)⟩

/-- The scipy backend with SciPy's functions being exact. -/
noncomputable def Bess.exact (V : Type*) [AddCommGroup V] : Bess V :=
  Bess.scipy sphJ (fun k => deriv (sphJ k)) sphY (fun k => deriv (sphY k))

theorem Bess.exact_tracks (h : Tracks v0 x f) : Bess.TracksAt v0 (Bess.exact V) x f exactFn :=
  ⟨h, fun k => h.scipyFn fun z hz => (sphJ_seq.raise k z hz).differentiableAt.hasDerivAt,
    fun k => h.scipyFn fun z hz => (sphY_seq.raise k z hz).differentiableAt.hasDerivAt⟩

theorem Bess.rec_tracks (h : Tracks v0 x f) (n : ℕ) :
    Bess.TracksAt v0 (Bess.torchRec n) x f (recFn n (recDepth (f v0))) := by
  rw [← h.val]
  exact ⟨h, fun k => viaRec_tracks h n _ k, fun k => yRec_tracks h.safe k⟩

theorem Bess.ratio_tracks (h : Tracks v0 x f) (n : ℕ) :
    Bess.TracksAt v0 (Bess.torchRatio n) x f (ratFn n (ratioDepth (f v0))) := by
  rw [← h.val]
  exact ⟨h, fun k => Node.ratio_tracks h n _ k, fun k => yRec_tracks h.safe k⟩

theorem fDer_tracks {F : ℕ → Node V} {φ : V → ℕ → ℂ} (h : Tracks v0 z f) (hF : ∀ k, Tracks v0 (F k) fun v => φ v k) :
    ∀ k, Tracks v0 (Node.fDer z F k) fun v => derFn (f v) (φ v) k
  | 0 => (hF 1).neg
  | k + 1 => (hF k).sub (((Tracks.const _).div h).mul (hF (k + 1)))

structure InTracks (v0 : V) (p : ShellIn V) (q : V → CoreShellIn) : Prop where
  m1 : Tracks v0 p.m1 fun v => (q v).m1
  m2 : Tracks v0 p.m2 fun v => (q v).m2
  psi_y : Tracks v0 p.psi_y fun v => (q v).psi_y
  psi_m1x : Tracks v0 p.psi_m1x fun v => (q v).psi_m1x
  psi_m2x : Tracks v0 p.psi_m2x fun v => (q v).psi_m2x
  psi_m2y : Tracks v0 p.psi_m2y fun v => (q v).psi_m2y
  chi_m2x : Tracks v0 p.chi_m2x fun v => (q v).chi_m2x
  chi_m2y : Tracks v0 p.chi_m2y fun v => (q v).chi_m2y
  xi_y : Tracks v0 p.xi_y fun v => (q v).xi_y
  dpsi_y : Tracks v0 p.dpsi_y fun v => (q v).dpsi_y
  dpsi_m1x : Tracks v0 p.dpsi_m1x fun v => (q v).dpsi_m1x
  dpsi_m2x : Tracks v0 p.dpsi_m2x fun v => (q v).dpsi_m2x
  dpsi_m2y : Tracks v0 p.dpsi_m2y fun v => (q v).dpsi_m2y
  dchi_m2x : Tracks v0 p.dchi_m2x fun v => (q v).dchi_m2x
  dchi_m2y : Tracks v0 p.dchi_m2y fun v => (q v).dchi_m2y
  dxi_y : Tracks v0 p.dxi_y fun v => (q v).dxi_y

structure OutTracks (v0 : V) (p : ShellOut V) (q : V → CoreShellOut) : Prop where
  a : Tracks v0 p.a fun v => (q v).a
  b : Tracks v0 p.b fun v => (q v).b
  c : Tracks v0 p.c fun v => (q v).c
  d : Tracks v0 p.d fun v => (q v).d
  f : Tracks v0 p.f fun v => (q v).f
  g : Tracks v0 p.g fun v => (q v).g
  v : Tracks v0 p.v fun v => (q v).v
  w : Tracks v0 p.w fun v => (q v).w

theorem shellOrder_tracks {p : ShellIn V} {q : V → CoreShellIn} (h : InTracks v0 p q) :
    OutTracks v0 (Node.shellOrder p) fun v => miecoefOrder (q v) := by
  have mu : Tracks v0 (Node.const 1) fun _ => 1 := Tracks.const 1
  have mu1 := mu
  have mu2 := mu
  have x0 := h.dpsi_m2y.mul h.psi_y
  have x1 := h.chi_m2x.mul h.dpsi_m1x
  have x2 := h.m2.mul mu2
  have x3 := mu1.mul x2
  have x4 := x1.mul x3
  have x5 := h.m1.mul (Tracks.const (1^2))
  have x6 := h.dpsi_m2x.mul h.psi_m1x
  have x7 := h.dchi_m2y.mul h.psi_y
  have x8 := x6.mul x7
  have x9 := h.dpsi_m1x.mul h.psi_m2x
  have x10 := x3.mul x9
  have x11 := h.dchi_m2x.mul h.psi_m1x
  have x12 := h.psi_m2y.mul x11
  have x13 := h.m1.mul x2
  have x14 := mu.mul x13
  have x15 := x12.mul x14
  have x16 := x11.mul x5
  have x17 := h.m2.sq.mul mu1
  have x18 := x17.mul x9
  have x19 := h.chi_m2y.mul h.dpsi_y
  have x20 := mu.mul x19
  have x21 := x13.mul x6
  have x22 := h.chi_m2x.mul h.psi_m2y
  have x23 := mu.mul x17
  have x24 := (h.dpsi_m1x.mul x22).mul x23
  have x25 := h.dpsi_m2y.mul h.xi_y
  have x26 := h.dchi_m2y.mul h.xi_y
  have x27 := x26.mul x6
  have x28 := h.chi_m2y.mul h.dxi_y
  have x29 := mu.mul x28
  have x30 := (((((((((h.dxi_y.mul x15).sub (h.dxi_y.mul x24)).sub (x10.mul x26)).sub (x16.mul x25)).add (x18.mul x29)).sub
    (x21.mul x29)).add (x25.mul x4)).add (x27.mul x5))).rdiv 1
  have x31 := x12.mul x3
  have x32 := h.dpsi_m1x.mul x5
  have x33 := h.psi_m2x.mul x32
  have x34 := x3.mul x6
  have x35 := x1.mul x14
  have x36 := x22.mul x32
  have x37 := x14.mul x9
  have x38 := x11.mul x23
  have x39 := (((((((((h.dxi_y.mul x31).sub (h.dxi_y.mul x36)).add (x23.mul x27)).add (x25.mul x35)).sub (x25.mul x38)).sub
    (x26.mul x37)).add (x28.mul x33)).sub (x28.mul x34))).rdiv 1
  have an := x30.mul ((((((((h.dpsi_y.mul x15).sub (h.dpsi_y.mul x24)).sub (x0.mul x16)).add (x0.mul x4)).sub (x10.mul x7)).add
    (x18.mul x20)).sub (x20.mul x21)).add (x5.mul x8))
  have bn := x39.mul ((((((((h.dpsi_y.mul x31).sub (h.dpsi_y.mul x36)).add (x0.mul x35)).sub (x0.mul x38)).add (x19.mul x33)).sub
    (x19.mul x34)).add (x23.mul x8)).sub (x37.mul x7))
  have x40 := x2.mul x39
  have x41 := h.chi_m2x.mul h.dpsi_m2x
  have x42 := h.dpsi_y.mul h.xi_y
  have x43 := h.dxi_y.mul h.psi_y
  have x44 := h.dchi_m2x.mul h.psi_m2x
  have x45 := (h.m1.mul mu1).mul ((((x41.mul x42).sub (x41.mul x43)).sub (x42.mul x44)).add (x43.mul x44))
  have x46 := x2.mul x30
  have x47 := h.m1.mul mu2
  have x48 := x1.mul x42
  have x49 := h.m2.mul mu1
  have x50 := x11.mul x43
  have x51 := x1.mul x43
  have x52 := x11.mul x42
  have x53 := x42.mul x47
  have x54 := x49.mul x6
  have x55 := x43.mul x47
  have x56 := x49.mul x9
  exact ⟨an,
    bn,
    (x40.mul x45),
    (x45.mul x46),
    (x40.mul ((((x47.mul x48).sub (x47.mul x51)).add (x49.mul x50)).sub (x49.mul x52))),
    (x46.mul ((((x47.mul x50).sub (x47.mul x52)).add (x48.mul x49)).sub (x49.mul x51))),
    (x40.mul ((((x42.neg.mul x54).add (x43.mul x54)).add (x53.mul x9)).sub (x55.mul x9))),
    (x46.mul ((((x42.mul x56).sub (x43.mul x56)).sub (x53.mul x6)).add (x55.mul x6)))⟩

theorem shellIn_tracks {B : Bess V} {Fy F1x F2x F2y : BessFn} {x y m1 m2 : Node V} {fx fy f1 f2 : V → ℂ}
    (k1 : Tracks v0 m1 f1) (k2 : Tracks v0 m2 f2) (hy : B.TracksAt v0 y fy Fy)
    (h1 : B.TracksAt v0 (Node.mul m1 x) (fun v => f1 v * fx v) F1x) (h2 : B.TracksAt v0 (Node.mul m2 x) (fun v => f2 v * fx v) F2x)
    (h3 : B.TracksAt v0 (Node.mul m2 y) (fun v => f2 v * fy v) F2y) (i : ℕ) :
    InTracks v0 (Node.shellIn B x y m1 m2 i) fun v => fnIn Fy F1x F2x F2y (fx v) (fy v) (f1 v) (f2 v) i := by
  have hh := (hy.j i).add ((Tracks.const I).mul (hy.y i))
  have dj := fun {z : Node V} {f : V → ℂ} {F : BessFn} (hz : B.TracksAt v0 z f F) =>
    fDer_tracks (φ := fun v => F.j (f v)) hz.arg hz.j i
  have dy := fun {z : Node V} {f : V → ℂ} {F : BessFn} (hz : B.TracksAt v0 z f F) =>
    fDer_tracks (φ := fun v => F.y (f v)) hz.arg hz.y i
  exact ⟨k1, k2, hy.arg.mul (hy.j i), h1.arg.mul (h1.j i), h2.arg.mul (h2.j i), h3.arg.mul (h3.j i), h2.arg.neg.mul (h2.y i),
    h3.arg.neg.mul (h3.y i), hy.arg.mul hh, (hy.j i).add (hy.arg.mul (dj hy)), (h1.j i).add (h1.arg.mul (dj h1)),
    (h2.j i).add (h2.arg.mul (dj h2)), (h3.j i).add (h3.arg.mul (dj h3)), (h2.y i).neg.sub (h2.arg.mul (dy h2)),
    (h3.y i).neg.sub (h3.arg.mul (dy h3)), hh.add (hy.arg.mul ((dj hy).add ((Tracks.const I).mul (dy hy))))⟩

end Tracks

/-! ## Every operation is differentiable -/

section Good

variable {V : Type*} [AddCommGroup V] {x y z : Node V} {a b c : ℂ}

theorem Good.neg (h : Good x a) : Good (Node.neg x) (-a) := ⟨by simp [Node.neg, h.val], h.ok⟩

theorem Good.scipyFn (h : Good x a) (ha : a ≠ 0) (φ φ' : ℂ → ℂ) : Good (Node.scipyFn φ φ' x) (φ a) :=
  ⟨by simp [Node.scipyFn, h.val], h.ok, by rwa [h.val]⟩

theorem Good.safe (h : Good x a) (ha : 1e-10 < ‖a‖) : Good (Node.safe x) a := by
  refine ⟨?_, h.ok, by rw [h.val]; exact ha.ne'⟩
  simp only [Node.safe, Node.where', h.val, if_neg (not_lt.2 ha.le)]

theorem Good.nonzero (h : Good x a) (ha : a ≠ 0) : Good (Node.nonzero x) a := by
  refine ⟨?_, h.ok, by rwa [h.val]⟩
  simp only [Node.nonzero, Node.where', h.val, norm_eq_zero, if_neg ha]

theorem Good.sinc (h : Good x a) (ha : a ≠ 0) :
    Good (Node.where' (x.val = 0) (Node.const 1) (Node.div (Node.sin x) x)) (Complex.sin a / a) := by
  have hd := h.sin.div h ha
  refine ⟨?_, trivial, hd.ok⟩
  have : ¬ x.val = 0 := by rwa [h.val]
  simp only [Node.where', if_neg this]
  exact hd.val

theorem jRec_good (h : Good x a) (ha : a ≠ 0) (N : ℕ) : ∀ j,
    Good (Node.jRec x N j).1 (jDown a N j).1 ∧ Good (Node.jRec x N j).2 (jDown a N j).2
  | 0 => ⟨Good.const 0, Good.const 1e-25⟩
  | j + 1 => ⟨((h.rdiv _ ha).mul (jRec_good h ha N j).1).sub (jRec_good h ha N j).2, (jRec_good h ha N j).1⟩

theorem viaRec_good (h : Good x a) (ha : 1e-10 < ‖a‖) (n d : ℕ) (h0 : (jDown a (n + d) (n + d)).1 ≠ 0) (k : ℕ) :
    Good (Node.viaRec n d x k) (viaRecFn n d a k) := by
  have hne : a ≠ 0 := by rintro rfl; norm_num at ha
  have hs := h.safe ha
  unfold viaRecFn
  rw [guardSet_of_le ha.le]
  exact (jRec_good hs hne _ _).1.mul ((hs.sin.div hs hne).div (jRec_good hs hne _ _).1 h0)

/-- No denominator of the continued fraction vanishes. -/
def CfClear (a : ℂ) (N : ℕ) : Prop := ∀ j < N, (2 * ((N - j : ℕ) : ℂ) + 1) / a - cfDown a N j ≠ 0

theorem ratioDown_good (h : Good x a) (ha : a ≠ 0) {N : ℕ} (hc : CfClear a N) : ∀ j ≤ N, Good (Node.ratioDown x N j) (cfDown a N j)
  | 0, _ => Good.const 0
  | j + 1, hj => by
    have h0 := hc j (by omega)
    have := (((h.rdiv (2 * ((N - j : ℕ) : ℂ) + 1) ha).sub (ratioDown_good h ha hc j (by omega))).nonzero h0).rdiv 1 h0
    rw [cfDown, recip0_of_ne h0]
    exact this

theorem ratioProd_good (h : Good x a) (ha : a ≠ 0) {N : ℕ} (hc : CfClear a N) : ∀ k, Good (Node.ratioProd x N k) (cfProd a N k)
  | 0 => Good.const 1
  | k + 1 => (ratioProd_good h ha hc k).mul (ratioDown_good h ha hc _ (by omega))

theorem ratio_good (h : Good x a) (ha : a ≠ 0) {n d : ℕ} (hc : CfClear a (n + d)) : ∀ k, Good (Node.ratio n d x k) (ratioFn n d a k)
  | 0 => by
    have := h.sinc ha
    rw [ratioFn, if_neg ha]
    exact this
  | k + 1 => by
    have := (h.sinc ha).mul (ratioProd_good h ha hc (k + 1))
    rw [ratioFn, if_neg ha]
    exact this

theorem yRec_good (h : Good x a) (ha : a ≠ 0) : ∀ k, Good (Node.yRec x k) (yUp a k)
  | 0 => (Good.const (-1)).mul (h.cos.div h ha)
  | 1 => (Good.const (-1)).mul ((h.cos.div h.sq (pow_ne_zero 2 ha)).add (h.sin.div h ha))
  | k + 2 => ((h.rdiv _ ha).mul (yRec_good h ha (k + 1))).sub (yRec_good h ha k)

theorem yRec_safe_good (h : Good x a) (ha : 1e-10 < ‖a‖) (k : ℕ) : Good (Node.yRec (Node.safe x) k) (yUp (guardSet 1e-10 a) k) := by
  have hne : a ≠ 0 := by rintro rfl; norm_num at ha
  rw [guardSet_of_le ha.le]
  exact yRec_good (h.safe ha) hne k

/-- A recorded backend is differentiable at the argument `x` with value `a`, and has the values of `B`. -/
structure Bess.GoodAt (b : Bess V) (x : Node V) (a : ℂ) (B : BessFn) : Prop where
  ne : a ≠ 0
  arg : Good x a
  j : ∀ k, Good (b.jn x k) (B.j a k)
  y : ∀ k, Good (b.yn x k) (B.y a k)

theorem Bess.exact_good (h : Good x a) (ha : a ≠ 0) : Bess.GoodAt (Bess.exact V) x a exactFn :=
  ⟨ha, h, fun k => h.scipyFn ha (sphJ k) _, fun k => h.scipyFn ha (sphY k) _⟩

theorem Bess.rec_good (h : Good x a) (ha : 1e-10 < ‖a‖) (n : ℕ) (h0 : (jDown a (n + recDepth a) (n + recDepth a)).1 ≠ 0) :
    Bess.GoodAt (Bess.torchRec n) x a (recFn n (recDepth a)) := by
  refine ⟨by rintro rfl; norm_num at ha, h, fun k => ?_, yRec_safe_good h ha⟩
  rw [← h.val] at h0 ha ⊢
  exact viaRec_good ⟨rfl, h.ok⟩ ha n _ h0 k

theorem Bess.ratio_good (h : Good x a) (ha : 1e-10 < ‖a‖) (n : ℕ) (h0 : CfClear a (n + ratioDepth a)) :
    Bess.GoodAt (Bess.torchRatio n) x a (ratFn n (ratioDepth a)) := by
  have hne : a ≠ 0 := by rintro rfl; norm_num at ha
  refine ⟨hne, h, fun k => ?_, yRec_safe_good h ha⟩
  rw [← h.val] at h0 hne ⊢
  exact Node.ratio_good ⟨rfl, h.ok⟩ hne h0 k

theorem fDer_good {F : ℕ → Node V} {φ : ℕ → ℂ} (h : Good z a) (ha : a ≠ 0) (hF : ∀ k, Good (F k) (φ k)) :
    ∀ k, Good (Node.fDer z F k) (derFn a φ k)
  | 0 => (hF 1).neg
  | k + 1 => (hF k).sub (((Good.const _).div h ha).mul (hF (k + 1)))

structure InGood (p : ShellIn V) (q : CoreShellIn) : Prop where
  m1 : Good p.m1 q.m1
  m2 : Good p.m2 q.m2
  psi_y : Good p.psi_y q.psi_y
  psi_m1x : Good p.psi_m1x q.psi_m1x
  psi_m2x : Good p.psi_m2x q.psi_m2x
  psi_m2y : Good p.psi_m2y q.psi_m2y
  chi_m2x : Good p.chi_m2x q.chi_m2x
  chi_m2y : Good p.chi_m2y q.chi_m2y
  xi_y : Good p.xi_y q.xi_y
  dpsi_y : Good p.dpsi_y q.dpsi_y
  dpsi_m1x : Good p.dpsi_m1x q.dpsi_m1x
  dpsi_m2x : Good p.dpsi_m2x q.dpsi_m2x
  dpsi_m2y : Good p.dpsi_m2y q.dpsi_m2y
  dchi_m2x : Good p.dchi_m2x q.dchi_m2x
  dchi_m2y : Good p.dchi_m2y q.dchi_m2y
  dxi_y : Good p.dxi_y q.dxi_y

structure OutGood (p : ShellOut V) (q : CoreShellOut) : Prop where
  a : Good p.a q.a
  b : Good p.b q.b
  c : Good p.c q.c
  d : Good p.d q.d
  f : Good p.f q.f
  g : Good p.g q.g
  v : Good p.v q.v
  w : Good p.w q.w

theorem shellOrder_good {p : ShellIn V} {q : CoreShellIn} (h : InGood p q) (hTM : coatedDetTM q.data ≠ 0) (hTE : coatedDetTE q.data ≠ 0) :
    OutGood (Node.shellOrder p) (miecoefOrder q) := by
  have mu : Good (Node.const 1 : Node V) 1 := Good.const 1
  have mu1 := mu
  have mu2 := mu
  have x0 := h.dpsi_m2y.mul h.psi_y
  have x1 := h.chi_m2x.mul h.dpsi_m1x
  have x2 := h.m2.mul mu2
  have x3 := mu1.mul x2
  have x4 := x1.mul x3
  have x5 := h.m1.mul (Good.const (1^2))
  have x6 := h.dpsi_m2x.mul h.psi_m1x
  have x7 := h.dchi_m2y.mul h.psi_y
  have x8 := x6.mul x7
  have x9 := h.dpsi_m1x.mul h.psi_m2x
  have x10 := x3.mul x9
  have x11 := h.dchi_m2x.mul h.psi_m1x
  have x12 := h.psi_m2y.mul x11
  have x13 := h.m1.mul x2
  have x14 := mu.mul x13
  have x15 := x12.mul x14
  have x16 := x11.mul x5
  have x17 := h.m2.sq.mul mu1
  have x18 := x17.mul x9
  have x19 := h.chi_m2y.mul h.dpsi_y
  have x20 := mu.mul x19
  have x21 := x13.mul x6
  have x22 := h.chi_m2x.mul h.psi_m2y
  have x23 := mu.mul x17
  have x24 := (h.dpsi_m1x.mul x22).mul x23
  have x25 := h.dpsi_m2y.mul h.xi_y
  have x26 := h.dchi_m2y.mul h.xi_y
  have x27 := x26.mul x6
  have x28 := h.chi_m2y.mul h.dxi_y
  have x29 := mu.mul x28
  have x30 := (((((((((h.dxi_y.mul x15).sub (h.dxi_y.mul x24)).sub (x10.mul x26)).sub (x16.mul x25)).add (x18.mul x29)).sub
    (x21.mul x29)).add (x25.mul x4)).add (x27.mul x5))).rdiv 1 (fun h0 => hTM
    (by rw [← h0]; simp only [coatedDetTM, CoreShellIn.data]; ring))
  have x31 := x12.mul x3
  have x32 := h.dpsi_m1x.mul x5
  have x33 := h.psi_m2x.mul x32
  have x34 := x3.mul x6
  have x35 := x1.mul x14
  have x36 := x22.mul x32
  have x37 := x14.mul x9
  have x38 := x11.mul x23
  have x39 := (((((((((h.dxi_y.mul x31).sub (h.dxi_y.mul x36)).add (x23.mul x27)).add (x25.mul x35)).sub (x25.mul x38)).sub
    (x26.mul x37)).add (x28.mul x33)).sub (x28.mul x34))).rdiv 1 (fun h0 => hTE
    (by rw [← h0]; simp only [coatedDetTE, CoreShellIn.data]; ring))
  have an := x30.mul ((((((((h.dpsi_y.mul x15).sub (h.dpsi_y.mul x24)).sub (x0.mul x16)).add (x0.mul x4)).sub (x10.mul x7)).add
    (x18.mul x20)).sub (x20.mul x21)).add (x5.mul x8))
  have bn := x39.mul ((((((((h.dpsi_y.mul x31).sub (h.dpsi_y.mul x36)).add (x0.mul x35)).sub (x0.mul x38)).add (x19.mul x33)).sub
    (x19.mul x34)).add (x23.mul x8)).sub (x37.mul x7))
  have x40 := x2.mul x39
  have x41 := h.chi_m2x.mul h.dpsi_m2x
  have x42 := h.dpsi_y.mul h.xi_y
  have x43 := h.dxi_y.mul h.psi_y
  have x44 := h.dchi_m2x.mul h.psi_m2x
  have x45 := (h.m1.mul mu1).mul ((((x41.mul x42).sub (x41.mul x43)).sub (x42.mul x44)).add (x43.mul x44))
  have x46 := x2.mul x30
  have x47 := h.m1.mul mu2
  have x48 := x1.mul x42
  have x49 := h.m2.mul mu1
  have x50 := x11.mul x43
  have x51 := x1.mul x43
  have x52 := x11.mul x42
  have x53 := x42.mul x47
  have x54 := x49.mul x6
  have x55 := x43.mul x47
  have x56 := x49.mul x9
  exact ⟨an,
    bn,
    (x40.mul x45),
    (x45.mul x46),
    (x40.mul ((((x47.mul x48).sub (x47.mul x51)).add (x49.mul x50)).sub (x49.mul x52))),
    (x46.mul ((((x47.mul x50).sub (x47.mul x52)).add (x48.mul x49)).sub (x49.mul x51))),
    (x40.mul ((((x42.neg.mul x54).add (x43.mul x54)).add (x53.mul x9)).sub (x55.mul x9))),
    (x46.mul ((((x42.mul x56).sub (x43.mul x56)).sub (x53.mul x6)).add (x55.mul x6)))⟩

theorem shellIn_good {B : Bess V} {Fy F1x F2x F2y : BessFn} {cx cy c1 c2 : ℂ} {x y m1 m2 : Node V} (k1 : Good m1 c1)
    (k2 : Good m2 c2) (hy : B.GoodAt y cy Fy) (h1 : B.GoodAt (Node.mul m1 x) (c1 * cx) F1x)
    (h2 : B.GoodAt (Node.mul m2 x) (c2 * cx) F2x) (h3 : B.GoodAt (Node.mul m2 y) (c2 * cy) F2y) (i : ℕ) :
    InGood (Node.shellIn B x y m1 m2 i) (fnIn Fy F1x F2x F2y cx cy c1 c2 i) := by
  have hh := (hy.j i).add ((Good.const I).mul (hy.y i))
  have dj := fun {z : Node V} {a : ℂ} {F : BessFn} (hz : B.GoodAt z a F) => fDer_good hz.arg hz.ne hz.j i
  have dy := fun {z : Node V} {a : ℂ} {F : BessFn} (hz : B.GoodAt z a F) => fDer_good hz.arg hz.ne hz.y i
  exact ⟨k1, k2, hy.arg.mul (hy.j i), h1.arg.mul (h1.j i), h2.arg.mul (h2.j i), h3.arg.mul (h3.j i), h2.arg.neg.mul (h2.y i),
    h3.arg.neg.mul (h3.y i), hy.arg.mul hh, (hy.j i).add (hy.arg.mul (dj hy)), (h1.j i).add (h1.arg.mul (dj h1)),
    (h2.j i).add (h2.arg.mul (dj h2)), (h3.j i).add (h3.arg.mul (dj h3)), (h2.y i).neg.sub (h2.arg.mul (dy h2)),
    (h3.y i).neg.sub (h3.arg.mul (dy h3)), hh.add (hy.arg.mul ((dj hy).add ((Good.const I).mul (dy hy))))⟩

end Good

end Node

end MieDiff
