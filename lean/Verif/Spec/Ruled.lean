import Verif.Spec.Crack

/-!
# Specification: surfaces along which distances are easy to compare

Used by C18, C67: a class of surfaces that contains flat pieces, cylinders, cones, discs, spheres, tori and extrusions.
-/
namespace Traceon.Spec

/-- In each quarter of the interval `[0, len]` the function is nowhere larger than at the ends of the part looked at: it has no local
maximum inside a quarter. -/
def NoBulge (len : ℝ) (f : ℝ → ℝ) : Prop :=
  ∀ k : ℕ, k < 4 → ∀ x y z : ℝ, len * k / 4 ≤ x → x ≤ y → y ≤ z → z ≤ len * (k + 1) / 4 → f y ≤ max (f x) (f z)

/-- Along each parameter the distance between two points of the surface is a function of the difference of that parameter, times a
factor that depends on the other parameter and that does not bulge. -/
structure Ruled (s : Surface) (R S c e : ℝ → ℝ) : Prop where
  first : ∀ u u' v p p', 0 ≤ u → u ≤ s.length1 → 0 ≤ u' → u' ≤ s.length1 → 0 ≤ v → v ≤ s.length2 → s.func u v = some p → s.func u' v = some p' →
    Spec.dist p p' = S v * e |u - u'|
  second : ∀ u v v' p p', 0 ≤ u → u ≤ s.length1 → 0 ≤ v → v ≤ s.length2 → 0 ≤ v' → v' ≤ s.length2 → s.func u v = some p → s.func u v' = some p' →
    Spec.dist p p' = R u * c |v - v'|
  bulge1 : NoBulge s.length1 R
  bulge2 : NoBulge s.length2 S
  posc : ∀ x, 0 ≤ c x
  pose : ∀ x, 0 ≤ e x

/-- The stretches of a path between its breakpoints: pairs of the values of the parameter at which they begin and end. -/
def pieces (p : Path) : List (ℝ × ℝ) := Surface.pairs (0 :: p.breaks ++ [p.length])

/-- Between two breakpoints the distance between two points of the path depends only on the difference of the parameter: lines, arcs. -/
def EvenPath (p : Path) : Prop :=
  ∀ uu ∈ pieces p, ∃ f : ℝ → ℝ, (∀ x, 0 ≤ f x) ∧ ∀ u u' q q', uu.1 ≤ u → u ≤ uu.2 → uu.1 ≤ u' → u' ≤ uu.2 →
    p.func u = some q → p.func u' = some q' → Spec.dist q q' = f |u - u'|

/-- the distance of a point to a coordinate axis -/
noncomputable def offAxis (i : Fin 3) (q : V3) : ℝ :=
  match i with
  | 0 => Real.sqrt (q.y ^ 2 + q.z ^ 2)
  | 1 => Real.sqrt (q.x ^ 2 + q.z ^ 2)
  | 2 => Real.sqrt (q.x ^ 2 + q.y ^ 2)

/-- Between two breakpoints the distance to the axis does not bulge. -/
def SlimPath (i : Fin 3) (p : Path) : Prop :=
  ∀ uu ∈ pieces p, ∃ r : ℝ → ℝ, NoBulge (uu.2 - uu.1) r ∧
    ∀ x q, 0 ≤ x → x ≤ uu.2 - uu.1 → p.func (uu.1 + x) = some q → offAxis i q = r x

/-- The path does not move faster than `K` per unit of the parameter. -/
def LipschitzPath (p : Path) (K : ℝ) : Prop :=
  ∀ u u' q q', 0 ≤ u → u ≤ p.length → 0 ≤ u' → u' ≤ p.length → p.func u = some q → p.func u' = some q' → Spec.dist q q' ≤ K * |u - u'|

/-- Between two breakpoints the path is straight. -/
def StraightPath (p : Path) : Prop :=
  ∀ uu ∈ pieces p, ∃ o d : V3, ∀ u, uu.1 ≤ u → u ≤ uu.2 → p.func u = some (o + u * d)

end Traceon.Spec
