import Verif.Spec.SolveField
import Verif.Spec.Shape
import Verif.Model.HigherOrder
import Verif.Model.RealGeo

/-!
# From named parts to the field

A user makes parts (paths, surfaces) that carry names, meshes and adds them, excites names, and solves. What has to come out: every element of every part whose name has an excitation of the
kind solved for is an element of the field, and does what the excitation of its name asks for; the field consists of these elements only.
-/
namespace Traceon.Spec
open Excitation

/-- No element is listed twice: not under one name, not under two names. -/
structure NamedOnce (d : Dict (List Nat)) : Prop where
  nodup : ∀ n g, d.get n = some g → g.Nodup
  apart : ∀ n n' g g', d.get n = some g → d.get n' = some g' → n ≠ n' → ∀ i ∈ g, i ∉ g'

/-- All triangles named `n` of the parts, in order. -/
def namedTris (parts : List (Mesh V3)) (n : String) : List (List V3) := parts.flatMap fun m => (triGroup m n).getD []

/-- All lines named `n` of the parts, in order. -/
def namedLines (parts : List (Mesh V3)) (n : String) : List (List V3) := parts.flatMap fun m => (lineGroup m n).getD []

/-- A curved line of the solver stands for the line `a`: same direction or reversed, and a straight line gets the points at one and two thirds (with their low bits cleared). -/
def LineOf (trunc : V3 → V3) (a b : List V3) : Prop :=
  ∃ c, (c = a ∨ c = revLine a) ∧ (b = c ∨ ∃ p q, c = [p, q] ∧ b = [p, q, (1 / 3 : ℝ) * q + (2 / 3 : ℝ) * p, (2 / 3 : ℝ) * q + (1 / 3 : ℝ) * p].map trunc)

/-- The charges `e` are charges on the triangles of the parts (degenerate ones excepted) whose name has an excitation `exc` of kind `s`. `pos n` are the numbers, in `e`, of the triangles
named `n`; every one of them does what the excitation of its name asks for. -/
def Realizes3d (G : Geo V3) (parts : List (Mesh V3)) (exc : String → Option (ExcType × ExcVal ℝ V3)) (s : Statics) (e : EffCharges V3) : Prop :=
  ∃ (ts : List Tri3) (q : List ℝ) (pos : String → List Nat), e = triCharges ts q ∧ q.length = ts.length ∧
    (∀ n tv, exc n = some tv → typeCheck s tv.1 = true →
      (pos n).Nodup ∧
      Matches (fun a k => (∃ t, ts[k]? = some t ∧ ([t.v0, t.v1, t.v2] = a ∨ [t.v0, t.v1, t.v2] = revTri a)) ∧
          Condition3d ts.length (ts.getD · ⟨0, 0, 0⟩) (q.getD · 0) k tv)
        ((namedTris parts n).filter (nonDegShape G)) (pos n)) ∧
    (∀ k, k < ts.length → ∃ n tv, exc n = some tv ∧ typeCheck s tv.1 = true ∧ k ∈ pos n ∧
      ∀ n' tv', exc n' = some tv' → typeCheck s tv'.1 = true → k ∈ pos n' → n' = n)

/-- The same for the lines of a radially symmetric problem with coils `coils`. -/
def RealizesRadial (G : Geo V3) (parts : List (Mesh V3)) (exc : String → Option (ExcType × ExcVal ℝ V3)) (s : Statics) (coils : EffCharges V3) (e : EffCharges (ℝ × ℝ)) : Prop :=
  ∃ (ls : List Line4) (q : List ℝ) (pos : String → List Nat), e = lineCharges ls q ∧ q.length = ls.length ∧
    (∀ n tv, exc n = some tv → typeCheck s tv.1 = true →
      (pos n).Nodup ∧
      Matches (fun a k => (∃ l, ls[k]? = some l ∧ LineOf G.trunc a [l.l0, l.l1, l.l2, l.l3]) ∧
          ConditionRadial coils ls.length (ls.getD · ⟨0, 0, 0, 0⟩) (q.getD · 0) k tv)
        (namedLines parts n) (pos n)) ∧
    (∀ k, k < ls.length → ∃ n tv, exc n = some tv ∧ typeCheck s tv.1 = true ∧ k ∈ pos n ∧
      ∀ n' tv', exc n' = some tv' → typeCheck s tv'.1 = true → k ∈ pos n' → n' = n)

end Traceon.Spec
