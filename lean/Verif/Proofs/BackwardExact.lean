import Verif.Props.Backward

/-!
# Composing recorded values

`Exact v0 x f`: the entry `x` holds `f v0` and `backward` on it leaves the gradient of `f`.  Closed under the operations of the code; used
downstream of the coefficients, where no guard is involved.
-/

namespace MieDiff

open Complex Spec Filter Topology
open scoped RealInnerProductSpace

namespace Node

variable {V : Type*} [NormedAddCommGroup V] [InnerProductSpace ℝ V] {v0 : V} {x y : Node V} {f g : V → ℂ}

structure Exact (v0 : V) (x : Node V) (f : V → ℂ) : Prop where
  val : x.val = f v0
  adj : Adj v0 x.back f

/-- The same entry with the flags of a regular parameter. -/
def forget (x : Node V) : Node V := ⟨x.val, x.back, true, True⟩

theorem Exact.forget (h : Exact v0 x f) : Tracks v0 x.forget f := ⟨h.val, (by intro e; cases e), fun _ => h.adj⟩

theorem Tracks.exact (h : Tracks v0 x f) (ok : x.ok) : Exact v0 x f := ⟨h.val, h.adj ok⟩

theorem Recorded.exact [CompleteSpace V] (h : Recorded v0 x f) : Exact v0 x f := h.tracks.exact h.regular

theorem Exact.congr (h : Exact v0 x f) (e : ∀ᶠ v in 𝓝 v0, g v = f v) : Exact v0 x g :=
  ⟨by rw [h.val, e.self_of_nhds], h.adj.congr_near e⟩

theorem Exact.const (c : ℂ) : Exact v0 (Node.const c) fun _ => c := (Tracks.const c).exact trivial

theorem Exact.add (h : Exact v0 x f) (k : Exact v0 y g) : Exact v0 (Node.add x y) fun v => f v + g v := by
  have t := h.forget.add k.forget
  exact ⟨t.val, t.adj ⟨trivial, trivial⟩⟩

theorem Exact.sub (h : Exact v0 x f) (k : Exact v0 y g) : Exact v0 (Node.sub x y) fun v => f v - g v := by
  have t := h.forget.sub k.forget
  exact ⟨t.val, t.adj ⟨trivial, trivial⟩⟩

theorem Exact.mul (h : Exact v0 x f) (k : Exact v0 y g) : Exact v0 (Node.mul x y) fun v => f v * g v := by
  have t := h.forget.mul k.forget
  exact ⟨t.val, t.adj ⟨trivial, trivial⟩⟩

theorem Exact.div (h : Exact v0 x f) (k : Exact v0 y g) (h0 : g v0 ≠ 0) : Exact v0 (Node.div x y) fun v => f v / g v := by
  have t := h.forget.div k.forget
  exact ⟨t.val, t.adj ⟨trivial, trivial, by rw [k.forget.val]; exact h0⟩⟩

theorem Exact.exp (h : Exact v0 x f) : Exact v0 (Node.exp x) fun v => Complex.exp (f v) := by
  have t := h.forget.exp
  exact ⟨t.val, t.adj trivial⟩

theorem Exact.sin (h : Exact v0 x f) : Exact v0 (Node.sin x) fun v => Complex.sin (f v) := by
  have t := h.forget.sin
  exact ⟨t.val, t.adj trivial⟩

theorem Exact.cos (h : Exact v0 x f) : Exact v0 (Node.cos x) fun v => Complex.cos (f v) := by
  have t := h.forget.cos
  exact ⟨t.val, t.adj trivial⟩

theorem Exact.sq (h : Exact v0 x f) : Exact v0 (Node.sq x) fun v => f v ^ 2 := by
  have t := h.forget.sq
  exact ⟨t.val, t.adj trivial⟩

theorem Exact.sqrt (h : Exact v0 x f) (h0 : f v0 ∈ slitPlane) : Exact v0 (Node.sqrt x) fun v => csqrt (f v) := by
  have t := h.forget.sqrt
  exact ⟨t.val, t.adj ⟨trivial, fun _ => by rw [h.forget.val]; exact h0⟩⟩

theorem Exact.absSq (h : Exact v0 x f) : Exact v0 (Node.absSq x) fun v => ((‖f v‖ ^ 2 : ℝ) : ℂ) := by
  have t := h.forget.absSq
  exact ⟨t.val, t.adj trivial⟩

theorem Exact.sum_map {ι : Type*} {x : ι → Node V} {f : ι → V → ℂ} (l : List ι) (h : ∀ i ∈ l, Exact v0 (x i) (f i)) :
    Exact v0 (Node.sum (l.map x)) fun v => (l.map fun i => f i v).sum := by
  have t := Tracks.sum_map (x := fun i => (x i).forget) l fun i hi => (h i hi).forget
  have e : Node.sum (l.map fun i => (x i).forget) =
      ⟨(Node.sum (l.map x)).val, (Node.sum (l.map x)).back, (l.map fun i => (x i).forget).any (·.req), ∀ y ∈ l.map fun i => (x i).forget, y.ok⟩ := by
    simp only [Node.sum, List.map_map]
    rfl
  rw [e] at t
  refine ⟨t.val, t.adj ?_⟩
  intro y hy
  obtain ⟨i, -, rfl⟩ := List.mem_map.1 hy
  trivial

theorem Exact.vjp [CompleteSpace V] (h : Exact v0 x f) : Vjp v0 x.back f := adj_iff.1 h.adj

theorem Exact.gradient [CompleteSpace V] {c : V → ℝ} (h : Exact v0 x fun v => (c v : ℂ)) : HasGradientAt c (x.back 1) v0 := by
  have := h.vjp 1
  simpa using this

end Node

end MieDiff
