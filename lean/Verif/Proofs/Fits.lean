import Verif.Model.NearTorch
import Verif.Proofs.Layout

/-!
# Broadcasting of expressions: every operand fits into a common five-axis shape
-/

namespace MieDiff

namespace Ten

/-- Shapes from the last axis to the first: every axis of `s` has length 1 or the length in `F`. -/
def CompatR : List ℕ → List ℕ → Prop
  | [], _ => True
  | a :: s, b :: F => (a = 1 ∨ a = b) ∧ CompatR s F
  | _ :: _, [] => False

/-- Length of a result axis. -/
def jn (a b : ℕ) : ℕ := if a = 1 then b else a

/-- Result shape, from the last axis to the first. -/
def joinR : List ℕ → List ℕ → List ℕ
  | [], t => t
  | a :: s, [] => a :: s
  | a :: s, b :: t => jn a b :: joinR s t

theorem CompatR.bShapeRev : ∀ {s t F : List ℕ}, CompatR s F → CompatR t F → Ten.bShapeRev s t = .ok (joinR s t)
  | [], t, _, _, _ => by simp [Ten.bShapeRev, joinR]
  | a :: s, [], _, _, _ => by simp [Ten.bShapeRev, joinR]
  | a :: s, b :: t, [], h, _ => h.elim
  | a :: s, b :: t, c :: F, ⟨ha, hs⟩, ⟨hb, ht⟩ => by
    have hd : bDim a b = .ok (jn a b) := by
      unfold bDim jn
      rcases ha with rfl | rfl <;> rcases hb with rfl | rfl
      · simp
      · split_ifs <;> simp_all
      · split_ifs <;> simp_all
      · split_ifs <;> simp_all
    show (do let d ← bDim a b; let r ← Ten.bShapeRev s t; .ok (d :: r)) = _
    rw [hd, hs.bShapeRev ht]
    rfl

theorem CompatR.join : ∀ {s t F : List ℕ}, CompatR s F → CompatR t F → CompatR (joinR s t) F
  | [], t, _, _, h => by simpa [joinR] using h
  | a :: s, [], _, h, _ => by simpa [joinR] using h
  | a :: s, b :: t, [], h, _ => h.elim
  | a :: s, b :: t, c :: F, ⟨ha, hs⟩, ⟨hb, ht⟩ => by
    refine ⟨?_, hs.join ht⟩
    unfold jn
    split_ifs
    · exact hb
    · exact ha

theorem CompatR.length : ∀ {s F : List ℕ}, CompatR s F → s.length ≤ F.length
  | [], _, _ => by simp
  | _ :: _, [], h => h.elim
  | a :: s, b :: F, ⟨_, h⟩ => by simpa using h.length

/-- Result shape. -/
def join (s t : List ℕ) : List ℕ := (joinR s.reverse t.reverse).reverse

theorem bi_bi (a i : ℕ) : bi a (bi a i) = bi a i := by unfold bi; split_ifs <;> rfl

theorem bi_jn_left (a b i : ℕ) : bi a (bi (jn a b) i) = bi a i := by
  unfold bi jn; split_ifs <;> simp_all

theorem bi_jn_right (a b i : ℕ) : bi b (bi (jn a b) i) = bi b i := by
  unfold bi jn; split_ifs <;> simp_all

theorem zip_join_left : ∀ s t i : List ℕ, List.zipWith bi s (List.zipWith bi (joinR s t) i) = List.zipWith bi s i
  | [], _, _ => by simp
  | a :: s, t, [] => by simp
  | a :: s, [], i :: idx => by
    have := zip_join_left s [] idx
    cases s with
    | nil => simp [joinR, bi_bi]
    | cons b s => simpa [joinR, bi_bi] using this
  | a :: s, b :: t, i :: idx => by simp [joinR, bi_jn_left, zip_join_left s t idx]

theorem zip_self (s : List ℕ) : ∀ i : List ℕ, List.zipWith bi s (List.zipWith bi s i) = List.zipWith bi s i := by
  induction s with
  | nil => simp
  | cons a s ih => intro i; cases i with
    | nil => simp
    | cons i idx => simp [bi_bi, ih]

theorem zip_join_right : ∀ s t i : List ℕ, List.zipWith bi t (List.zipWith bi (joinR s t) i) = List.zipWith bi t i
  | [], t, i => by simp [joinR, zip_self]
  | a :: s, [], i => by simp
  | a :: s, b :: t, [] => by simp
  | a :: s, b :: t, i :: idx => by simp [joinR, bi_jn_right, zip_join_right s t idx]

theorem bIdx_reverse {s idx : List ℕ} (h : s.length ≤ idx.length) :
    (bIdx s idx).reverse = List.zipWith bi s.reverse idx.reverse := by
  unfold bIdx
  rw [List.reverse_zipWith (by simp; omega), List.reverse_drop]
  have : idx.length - (idx.length - s.length) = s.reverse.length := by simp; omega
  rw [this]
  generalize s.reverse = a
  generalize idx.reverse = b
  clear this h
  induction a generalizing b with
  | nil => simp
  | cons x a ih => cases b with
    | nil => simp
    | cons y b => simp [ih]

theorem joinR_length : ∀ s t : List ℕ, (joinR s t).length = max s.length t.length
  | [], t => by simp [joinR]
  | a :: s, [] => by simp [joinR]
  | a :: s, b :: t => by simp [joinR, joinR_length s t]

theorem join_length (s t : List ℕ) : (join s t).length = max s.length t.length := by simp [join, joinR_length]

theorem bIdx_length {s idx : List ℕ} (h : s.length ≤ idx.length) : (bIdx s idx).length = s.length := by
  simp [bIdx]; omega

theorem bIdx_join_left {s t idx : List ℕ} (hs : s.length ≤ idx.length) (ht : t.length ≤ idx.length) :
    bIdx s (bIdx (join s t) idx) = bIdx s idx := by
  have hj : (join s t).length ≤ idx.length := by rw [join_length]; exact max_le hs ht
  apply List.reverse_injective
  rw [bIdx_reverse (by rw [bIdx_length hj, join_length]; exact le_max_left _ _), bIdx_reverse hj, bIdx_reverse hs]
  simp only [join, List.reverse_reverse]
  exact zip_join_left _ _ _

theorem bIdx_join_right {s t idx : List ℕ} (hs : s.length ≤ idx.length) (ht : t.length ≤ idx.length) :
    bIdx t (bIdx (join s t) idx) = bIdx t idx := by
  have hj : (join s t).length ≤ idx.length := by rw [join_length]; exact max_le hs ht
  apply List.reverse_injective
  rw [bIdx_reverse (by rw [bIdx_length hj, join_length]; exact le_max_right _ _), bIdx_reverse hj, bIdx_reverse ht]
  simp only [join, List.reverse_reverse]
  exact zip_join_right _ _ _

/-- `t` has shape `sh`, fits into the shape `F`, and broadcast to it has the entries `g`. -/
structure Fits {α : Type} (F : List ℕ) (t : Ten α) (sh : List ℕ) (g : List ℕ → α) : Prop where
  shape : t.shape = sh
  compat : CompatR sh.reverse F.reverse
  get : ∀ idx, List.Forall₂ (· < ·) idx F → t.get (bIdx sh idx) = g idx

/-- The same for an expression that may raise. -/
def PFits {α : Type} (F : List ℕ) (x : Py (Ten α)) (sh : List ℕ) (g : List ℕ → α) : Prop :=
  ∃ t, x = .ok t ∧ Fits F t sh g

theorem Fits.ok {α : Type} {F : List ℕ} {t : Ten α} {sh : List ℕ} {g : List ℕ → α} (h : Fits F t sh g) :
    PFits F (.ok t) sh g := ⟨t, rfl, h⟩

theorem Fits.op2 {α β γ : Type} {F : List ℕ} {s : Ten α} {t : Ten β} {a b : List ℕ} {g : List ℕ → α} {h : List ℕ → β}
    (f : α → β → γ) (hs : Fits F s a g) (ht : Fits F t b h) :
    PFits F (Ten.op2 f s t) (join a b) fun idx => f (g idx) (h idx) := by
  obtain ⟨rfl, ca, ga⟩ := hs
  obtain ⟨rfl, cb, gb⟩ := ht
  have hsh : bShape s.shape t.shape = .ok (join s.shape t.shape) := by
    unfold bShape
    rw [ca.bShapeRev cb]
    rfl
  refine ⟨_, op2_ok f s t hsh, rfl, ?_, ?_⟩
  · simp only [join, List.reverse_reverse]
    exact ca.join cb
  · intro idx hi
    have hl := hi.length_eq
    have h1 := ca.length
    have h2 := cb.length
    simp only [List.length_reverse] at h1 h2
    show f (s.get (bIdx s.shape (bIdx (join s.shape t.shape) idx))) (t.get (bIdx t.shape (bIdx (join s.shape t.shape) idx))) = _
    rw [bIdx_join_left (by omega) (by omega), bIdx_join_right (by omega) (by omega), ga idx hi, gb idx hi]

theorem PFits.opP {α β γ : Type} {F : List ℕ} {x : Py (Ten α)} {y : Py (Ten β)} {a b : List ℕ} {g : List ℕ → α}
    {h : List ℕ → β} (f : α → β → γ) (hs : PFits F x a g) (ht : PFits F y b h) :
    PFits F (Ten.opP f x y) (join a b) fun idx => f (g idx) (h idx) := by
  obtain ⟨s, rfl, hs⟩ := hs
  obtain ⟨t, rfl, ht⟩ := ht
  exact hs.op2 f ht

theorem Fits.map {α β : Type} {F : List ℕ} {s : Ten α} {a : List ℕ} {g : List ℕ → α} (f : α → β) (h : Fits F s a g) :
    Fits F (s.map f) a fun idx => f (g idx) :=
  ⟨h.shape, h.compat, fun idx hi => congrArg f (h.get idx hi)⟩

theorem PFits.mono {α : Type} {F : List ℕ} {x : Py (Ten α)} {a b : List ℕ} {g h : List ℕ → α} (hx : PFits F x a g)
    (hab : a = b) (hg : ∀ idx, List.Forall₂ (· < ·) idx F → g idx = h idx) : PFits F x b h := by
  obtain ⟨t, rfl, hs, hc, hv⟩ := hx
  subst hab
  exact ⟨t, rfl, hs, hc, fun idx hi => (hv idx hi).trans (hg idx hi)⟩

theorem Fits.mono {α : Type} {F : List ℕ} {x : Ten α} {a b : List ℕ} {g h : List ℕ → α} (hx : Fits F x a g)
    (hab : a = b) (hg : ∀ idx, List.Forall₂ (· < ·) idx F → g idx = h idx) : Fits F x b h := by
  obtain ⟨hs, hc, hv⟩ := hx
  subst hab
  exact ⟨hs, hc, fun idx hi => (hv idx hi).trans (hg idx hi)⟩

theorem CompatR.all : ∀ {s F : List ℕ}, CompatR s F → (s.zip F).all (fun p => p.1 == p.2 || p.1 == 1)
  | [], _, _ => by simp
  | _ :: _, [], h => h.elim
  | a :: s, b :: F, ⟨h, hs⟩ => by
    rw [List.zip_cons_cons, List.all_cons, hs.all]
    rcases h with rfl | rfl <;> simp

theorem zip_drop_reverse (s F : List ℕ) (h : s.length ≤ F.length) :
    (s.zip (F.drop (F.length - s.length))).reverse = s.reverse.zip F.reverse := by
  rw [List.zip, List.reverse_zipWith (by simp; omega), List.reverse_drop]
  have : F.length - (F.length - s.length) = s.reverse.length := by simp; omega
  rw [this]
  generalize s.reverse = a
  generalize F.reverse = b
  clear this h
  induction a generalizing b with
  | nil => simp
  | cons x a ih => cases b with
    | nil => simp
    | cons y b => simpa using ih b

theorem Fits.broadcastTo {α : Type} {F : List ℕ} {t : Ten α} {a : List ℕ} {g : List ℕ → α} (h : Fits F t a g) :
    ∃ u, t.broadcastTo F = .ok u ∧ u.shape = F ∧ ∀ idx, List.Forall₂ (· < ·) idx F → u.get idx = g idx := by
  obtain ⟨rfl, hc, hg⟩ := h
  have hl := hc.length
  simp only [List.length_reverse] at hl
  refine ⟨⟨F, fun idx => t.get (bIdx t.shape idx)⟩, ?_, rfl, fun idx hi => hg idx hi⟩
  unfold Ten.broadcastTo
  rw [if_pos]
  refine ⟨hl, ?_⟩
  have := hc.all
  rw [← zip_drop_reverse _ _ hl, List.all_reverse] at this
  exact this

/-- A tensor of the full shape. -/
theorem Fits.full {α : Type} {F : List ℕ} {t : Ten α} {g : List ℕ → α} (h : Fits F t F g) :
    t.shape = F ∧ ∀ idx, List.Forall₂ (· < ·) idx F → t.get idx = g idx := by
  refine ⟨h.shape, fun idx hi => ?_⟩
  rw [← h.get idx hi]
  congr 1
  unfold bIdx
  rw [hi.length_eq, Nat.sub_self, List.drop_zero]
  clear h
  induction hi with
  | nil => rfl
  | cons h _ ih => rw [List.zipWith_cons_cons, ← ih, bi_lt h]

end Ten

open Ten

/-! ## The five axes -/

theorem valid5 {n p k q j N P K Q M : ℕ} (hn : n < N) (hp : p < P) (hk : k < K) (hq : q < Q) (hj : j < M) :
    List.Forall₂ (· < ·) [n, p, k, q, j] [N, P, K, Q, M] := by simp [hn, hp, hk, hq, hj]

theorem valid5_inv {idx : List ℕ} {N P K Q M : ℕ} (h : List.Forall₂ (· < ·) idx [N, P, K, Q, M]) :
    ∃ n p k q j, idx = [n, p, k, q, j] ∧ n < N ∧ p < P ∧ k < K ∧ q < Q ∧ j < M := by
  rcases h with _ | ⟨h1, _ | ⟨h2, _ | ⟨h3, _ | ⟨h4, _ | ⟨h5, _ | _⟩⟩⟩⟩⟩
  exact ⟨_, _, _, _, _, rfl, h1, h2, h3, h4, h5⟩

section leaves

variable {α : Type} {N P K Q : ℕ}

theorem fits_pos {t : Ten α} (h : t.shape = [Q]) :
    Fits [N, P, K, Q, 3] t.posAxes [1, 1, 1, Q, 1] fun idx => t.get [idx.getD 3 0] := by
  refine ⟨by simp [Ten.posAxes, Ten.unsqueeze, h], by simp [CompatR], ?_⟩
  intro idx hi
  obtain ⟨n, p, k, q, j, rfl, hn, hp, hk, hq, hj⟩ := valid5_inv hi
  simp [Ten.posAxes, Ten.unsqueeze, h, Ten.bIdx, bi_lt hq]

theorem fits_outer {t : Ten α} (h : t.shape = [1, K]) :
    Fits [N, P, K, Q, 3] t.outer [1, 1, K, 1, 1] fun idx => t.get [0, idx.getD 2 0] := by
  refine ⟨by simp [Ten.outer, Ten.unsqueeze, h], by simp [CompatR], ?_⟩
  intro idx hi
  obtain ⟨n, p, k, q, j, rfl, hn, hp, hk, hq, hj⟩ := valid5_inv hi
  simp [Ten.outer, Ten.unsqueeze, h, Ten.bIdx, bi_lt hk]

theorem fits_coef {t : Ten α} (h : t.shape = [N, P, K]) :
    Fits [N, P, K, Q, 3] t.tailAxes [N, P, K, 1, 1] fun idx => t.get [idx.getD 0 0, idx.getD 1 0, idx.getD 2 0] := by
  refine ⟨by simp [Ten.tailAxes, Ten.unsqueeze, h], by simp [CompatR], ?_⟩
  intro idx hi
  obtain ⟨n, p, k, q, j, rfl, hn, hp, hk, hq, hj⟩ := valid5_inv hi
  simp [Ten.tailAxes, Ten.unsqueeze, h, Ten.bIdx, bi_lt hk, bi_lt hp, bi_lt hn]

theorem fits_raw {t : Ten α} {A : ℕ} (h : t.shape = [A, K]) (hA : A = 1 ∨ A = Q) (hK : K = 1 ∨ K = 3) :
    Fits [N, P, K, Q, 3] t [A, K] fun idx => t.get [bi A (idx.getD 3 0), bi K (idx.getD 4 0)] := by
  refine ⟨h, by simp [CompatR, hA, hK], ?_⟩
  intro idx hi
  obtain ⟨n, p, k, q, j, rfl, hn, hp, hk, hq, hj⟩ := valid5_inv hi
  simp [Ten.bIdx]

theorem fits_scalar (v : α) : Fits [N, P, K, Q, 3] (Ten.scalar v) [] fun _ => v :=
  ⟨rfl, trivial, fun _ _ => rfl⟩

theorem fits_unit (c : ℕ) :
    Fits [N, P, K, Q, 3] (unitT 5 c) [1, 1, 1, 1, 3] fun idx => if idx.getD 4 0 = c then 1 else 0 := by
  refine ⟨rfl, by simp [CompatR], ?_⟩
  intro idx hi
  obtain ⟨n, p, k, q, j, rfl, hn, hp, hk, hq, hj⟩ := valid5_inv hi
  simp [unitT, Ten.bIdx, bi_lt hj]

theorem fits_order : Fits [N, P, K, Q, 3] (orderAxis 5 N) [N, 1, 1, 1, 1] fun idx => ((idx.getD 0 0 : ℕ) : ℂ) + 1 := by
  refine ⟨rfl, by simp [CompatR], ?_⟩
  intro idx hi
  obtain ⟨n, p, k, q, j, rfl, hn, hp, hk, hq, hj⟩ := valid5_inv hi
  simp [orderAxis, Ten.bIdx, bi_lt hn]

theorem fits_en (E0 : ℂ) : Fits [N, P, K, Q, 3] (enT E0 N) [N, 1, 1, 1, 1] fun idx => EnCoef E0 (idx.getD 0 0 + 1) := by
  refine ⟨rfl, by simp [CompatR], ?_⟩
  intro idx hi
  obtain ⟨n, p, k, q, j, rfl, hn, hp, hk, hq, hj⟩ := valid5_inv hi
  simp [enT, Ten.bIdx, bi_lt hn]

end leaves

@[simp] theorem jn_one_left (a : ℕ) : jn 1 a = a := by simp [jn]
@[simp] theorem jn_one_right (a : ℕ) : jn a 1 = a := by unfold jn; split_ifs <;> simp_all
@[simp] theorem jn_self (a : ℕ) : jn a a = a := by unfold jn; split_ifs <;> simp_all
theorem jn_of {a b : ℕ} (h : a = 1 ∨ a = b) : jn a b = b := by rcases h with rfl | rfl <;> simp
theorem jn_of' {a b : ℕ} (h : a = 1 ∨ a = b) : jn b a = b := by rcases h with rfl | rfl <;> simp

end MieDiff
