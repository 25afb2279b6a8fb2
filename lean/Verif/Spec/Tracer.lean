import Verif.Model.Tracer
import Mathlib.Data.Fin.VecNotation
import Mathlib.Algebra.BigOperators.Fin

/-!
# Specification of the tracer

Runge–Kutta methods as in the textbooks, and what a traced trajectory is. Of the model only the data types are used.
-/
namespace Traceon.Spec

/-- The six numbers of a state. -/
def vec (p : Phase) : Fin 6 → ℝ := ![p.pos.x, p.pos.y, p.pos.z, p.vel.x, p.vel.y, p.vel.z]

/-- The equation of motion: the position changes with the velocity, the velocity with charge over mass times the force field. -/
noncomputable def motion (em : ℝ) (field : Phase → V3) (y : Fin 6 → ℝ) : Fin 6 → ℝ :=
  let F := field ⟨⟨y 0, y 1, y 2⟩, ⟨y 3, y 4, y 5⟩⟩
  ![y 3, y 4, y 5, em * F.x, em * F.y, em * F.z]

/-- One step of length `h` of an embedded pair of Runge–Kutta methods for y' = f(y) in a vector space, with coefficients `a` and the two sets of weights `b` and `b'`. -/
def EmbeddedStep {E : Type*} [AddCommGroup E] [Module ℝ E] {s : Nat} (a : Fin s → Fin s → ℝ) (b b' : Fin s → ℝ) (f : E → E) (h : ℝ) (y z z' : E) : Prop :=
  ∃ k : Fin s → E, (∀ i, k i = f (y + h • ∑ j, a i j • k j)) ∧ z = y + h • ∑ i, b i • k i ∧ z' = y + h • ∑ i, b' i • k i

/-- Fehlberg's coefficients (formula 2, NASA TR R-315). -/
noncomputable def fehlbergA : Fin 6 → Fin 6 → ℝ :=
  ![![0, 0, 0, 0, 0, 0],
    ![2 / 9, 0, 0, 0, 0, 0],
    ![1 / 12, 1 / 4, 0, 0, 0, 0],
    ![69 / 128, -243 / 128, 135 / 64, 0, 0, 0],
    ![-17 / 12, 27 / 4, -27 / 5, 16 / 15, 0, 0],
    ![65 / 432, -5 / 16, 13 / 16, 4 / 27, 5 / 144, 0]]

/-- The weights of the method of fifth order. -/
noncomputable def fehlberg5 : Fin 6 → ℝ := ![47 / 450, 0, 12 / 25, 32 / 225, 1 / 30, 6 / 25]

/-- The weights of the method of fourth order. -/
noncomputable def fehlberg4 : Fin 6 → ℝ := ![1 / 9, 0, 9 / 20, 16 / 45, 1 / 12, 0]

/-- The estimated error of a step: the largest difference of a coordinate between the two methods, plus `h` times the largest difference of a velocity. -/
noncomputable def errorEstimate (h : ℝ) (z z' : Fin 6 → ℝ) : ℝ :=
  max |z 0 - z' 0| (max |z 1 - z' 1| |z 2 - z' 2|) + h * max |z 3 - z' 3| (max |z 4 - z' 4| |z 5 - z' 5|)

/-- The closed box. -/
def InBox (b : (ℝ × ℝ) × (ℝ × ℝ) × (ℝ × ℝ)) (p : V3) : Prop :=
  p.x ∈ Set.Icc b.1.1 b.1.2 ∧ p.y ∈ Set.Icc b.2.1.1 b.2.1.2 ∧ p.z ∈ Set.Icc b.2.2.1 b.2.2.2

/-- An accepted step of length `h` in time. -/
def Accepted (em : ℝ) (field : Phase → V3) (atol h : ℝ) (y y' : Phase) : Prop :=
  ∃ z, EmbeddedStep fehlbergA fehlberg5 fehlberg4 (motion em field) h (vec y) (vec y') z ∧ errorEstimate h (vec y') z ≤ atol

/-- What is promised about the arrays returned by a tracer with blocks of `B` rows. Block number k starts with row k(B-1), which is the last row of the block before. -/
structure Trajectory (em : ℝ) (field : Phase → V3) (bounds : (ℝ × ℝ) × (ℝ × ℝ) × (ℝ × ℝ)) (atol stepMax : ℝ) (B : Nat) (y0 : Phase) (rows : List (ℝ × Phase)) : Prop where
  first : rows[0]? = some (0, y0)
  step : ∀ (i : ℕ) (a b s : ℝ × Phase), rows[i]? = some a → rows[i + 1]? = some b → rows[i / (B - 1) * (B - 1)]? = some s →
    a.1 < b.1 ∧ (b.1 - a.1) * V3.norm s.2.vel ≤ stepMax ∧ Accepted em field atol (b.1 - a.1) a.2 b.2
  inside : ∀ (i : ℕ) (a : ℝ × Phase), rows[i]? = some a → i + 1 < rows.length → InBox bounds a.2.pos
  last : ∀ a, rows.getLast? = some a → ¬InBox bounds a.2.pos

/-- The rows after `s` that a sequence of blocks gives: a full block (of `B` rows, the first one being the start) is followed by a block that starts with its last row, any other block is the last. -/
inductive Glued {R : Type} (fill : R → Option (List R)) (B : Nat) : R → List R → Prop
  | last (s l) : fill s = some (s :: l) → l.length + 1 ≠ B → Glued fill B s l
  | more (s l m l') : fill s = some (s :: (l ++ [m])) → l.length + 2 = B → Glued fill B m l' → Glued fill B s (l ++ [m] ++ l')

/-! ## Order of a Runge–Kutta method -/

/-- Rooted trees (with ordered branches). -/
inductive Tree where
  | node : List Tree → Tree

mutual
/-- The number of nodes. -/
def Tree.size : Tree → Nat
  | .node ts => 1 + Tree.sizes ts
@[inherit_doc Tree.size]
def Tree.sizes : List Tree → Nat
  | [] => 0
  | t :: ts => t.size + Tree.sizes ts
end

mutual
/-- The density γ(t): the product of the sizes of all subtrees. -/
def Tree.density : Tree → Nat
  | .node ts => (1 + Tree.sizes ts) * Tree.densities ts
@[inherit_doc Tree.density]
def Tree.densities : List Tree → Nat
  | [] => 1
  | t :: ts => t.density * Tree.densities ts
end

mutual
/-- The elementary weight of stage `i`: the product over the branches t of Σⱼ aᵢⱼ Φⱼ(t). -/
def Tree.stage {s : Nat} (a : Fin s → Fin s → ℝ) : Tree → Fin s → ℝ
  | .node ts => Tree.stages a ts
@[inherit_doc Tree.stage]
def Tree.stages {s : Nat} (a : Fin s → Fin s → ℝ) : List Tree → Fin s → ℝ
  | [], _ => 1
  | t :: ts, i => (∑ j, a i j * t.stage a j) * Tree.stages a ts i
end

/-- Butcher's conditions: the method is of order `p` iff Σᵢ bᵢ Φᵢ(t) = 1/γ(t) for all trees with at most `p` nodes. -/
def OrderConditions {s : Nat} (a : Fin s → Fin s → ℝ) (b : Fin s → ℝ) (p : Nat) : Prop :=
  ∀ t : Tree, t.size ≤ p → ∑ i, b i * t.stage a i = 1 / t.density

end Traceon.Spec
