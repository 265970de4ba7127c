import Verif.Model.Multishell

/-!
# Specification: a field excited by an `x`-polarised wave along `z` in a rotationally symmetric geometry

On a circle around the `z` axis such a field is known from three numbers: with `(c, s)` the direction of the point in the
`xy` plane, the electric field is `(u + v cos 2phi, v sin 2phi, w cos phi)` and the magnetic field
`(v sin 2phi, u - v cos 2phi, w sin phi)`.
-/

namespace MieDiff.Spec

/-- An electric field on a circle around the axis, in the direction `(c, s)`. -/
def electric (u v w : ℂ) (c s : ℝ) : V3 ℂ := ⟨u + v * (c ^ 2 - s ^ 2), v * (2 * c * s), w * c⟩

/-- A magnetic field on a circle around the axis, in the direction `(c, s)`. -/
def magnetic (u v w : ℂ) (c s : ℝ) : V3 ℂ := ⟨v * (2 * c * s), u - v * (c ^ 2 - s ^ 2), w * s⟩

/-- The fields of a call, as functions of the direction of the point. -/
def Circular (F : ℝ → ℝ → Fields) : Prop :=
  (∃ u v w, ∀ c s, (F c s).Ei = electric u v w c s) ∧
  (∃ u v w, ∀ c s, (F c s).Es = electric u v w c s) ∧
  (∃ u v w, ∀ c s, (F c s).Et = electric u v w c s) ∧
  (∃ u v w, ∀ c s, (F c s).Hi = magnetic u v w c s) ∧
  (∃ u v w, ∀ c s, (F c s).Hs = magnetic u v w c s) ∧
  ∃ u v w, ∀ c s, (F c s).Ht = magnetic u v w c s

/-- The direction of a point as seen from the axis; the program moves points with `x = 0` to `x = 10 eps` (2.2e-15). -/
noncomputable def direction (x y : ℝ) : ℝ × ℝ :=
  let x' := if x = 0 then 10 / 2 ^ 52 else x
  (x' / Real.sqrt (x' ^ 2 + y ^ 2), y / Real.sqrt (x' ^ 2 + y ^ 2))

/-- Mirror image in the plane of incidence and polarisation, `y -> -y`. -/
def FlipY (F G : Fields) : Prop :=
  (∀ f ∈ [(F.Ei, G.Ei), (F.Es, G.Es), (F.Et, G.Et)], f.2 = ⟨f.1.c0, -f.1.c1, f.1.c2⟩) ∧
  ∀ f ∈ [(F.Hi, G.Hi), (F.Hs, G.Hs), (F.Ht, G.Ht)], f.2 = ⟨-f.1.c0, f.1.c1, -f.1.c2⟩

/-- Mirror image in the plane of incidence across the polarisation, `x -> -x`, with the sign of the incident wave restored. -/
def FlipX (F G : Fields) : Prop :=
  (∀ f ∈ [(F.Ei, G.Ei), (F.Es, G.Es), (F.Et, G.Et)], f.2 = ⟨f.1.c0, -f.1.c1, -f.1.c2⟩) ∧
  ∀ f ∈ [(F.Hi, G.Hi), (F.Hs, G.Hs), (F.Ht, G.Ht)], f.2 = ⟨-f.1.c0, f.1.c1, f.1.c2⟩

/-- Two calls that raise the same error, or return related fields. -/
def Alike (R : Fields → Fields → Prop) : Py Fields → Py Fields → Prop
  | .ok F, .ok G => R F G
  | .error e, .error e' => e = e'
  | _, _ => False

end MieDiff.Spec
