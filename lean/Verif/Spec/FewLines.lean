import Verif.Spec.SolveField
import Verif.Spec.Pipeline

/-!
# A radially symmetric problem on several threads

In radial symmetry the rows of some elements may not be computed (C36). Such an element does what its excitation asks for as if there were no other elements.
-/
namespace Traceon.Spec
open Excitation

/-- The line `l` with the charge `q` would do what its excitation asks for if there were no other charges. -/
def ConditionAlone (coils : EffCharges V3) (l : Line4) (q : ℝ) (tv : ExcType × ExcVal ℝ V3) : Prop := ConditionRadial coils 1 (fun _ => l) (fun _ => q) 0 tv

/-- As `SolvesRadial`, for a solution on `threads` threads: of `n` lines, the first `2 (n - threads)` do what their excitation asks for, and the others would if they were alone. -/
def SolvesRadialOn (threads : Int) (x : Excitation ℝ V3) (s : Statics) (coils : EffCharges V3) (e : EffCharges (ℝ × ℝ)) : Prop :=
  ∃ (idx : List Nat) (ls : List Line4) (q : List ℝ),
    e = lineCharges ls q ∧ ls.length = idx.length ∧ q.length = idx.length ∧
    idx.Pairwise (· < ·) ∧ (∀ i, i ∈ idx ↔ i < x.mesh.lines.length ∧ Excited x s i) ∧
    ∀ k i : Nat, idx[k]? = some i →
      (∃ a b c d l, x.mesh.lines[i]? = some [a, b, c, d] ∧ x.mesh.points[a]? = some l.l0 ∧ x.mesh.points[b]? = some l.l1 ∧
        x.mesh.points[c]? = some l.l2 ∧ x.mesh.points[d]? = some l.l3 ∧ ls[k]? = some l) ∧
      ∀ n tv, Decides x s n i → x.types.get n = some tv →
        (k + 2 * threads < 2 * ls.length → ConditionRadial coils ls.length (ls.getD · ⟨0, 0, 0, 0⟩) (q.getD · 0) k tv) ∧
        (2 * ls.length ≤ k + 2 * threads → ConditionAlone coils (ls.getD k ⟨0, 0, 0, 0⟩) (q.getD k 0) tv)

/-- As `RealizesRadial`, for a solution on `threads` threads: the first `2 (n - threads)` of the `n` lines do what their excitation asks for, and the others would if they were alone. -/
def RealizesRadialOn (threads : Int) (G : Geo V3) (parts : List (Mesh V3)) (exc : String → Option (ExcType × ExcVal ℝ V3)) (s : Statics) (coils : EffCharges V3) (e : EffCharges (ℝ × ℝ)) : Prop :=
  ∃ (ls : List Line4) (q : List ℝ) (pos : String → List Nat), e = lineCharges ls q ∧ q.length = ls.length ∧
    (∀ n tv, exc n = some tv → typeCheck s tv.1 = true →
      (pos n).Nodup ∧
      Matches (fun a (k : Nat) => (∃ l, ls[k]? = some l ∧ LineOf G.trunc a [l.l0, l.l1, l.l2, l.l3]) ∧
          (k + 2 * threads < 2 * ls.length → ConditionRadial coils ls.length (ls.getD · ⟨0, 0, 0, 0⟩) (q.getD · 0) k tv) ∧
          (2 * ls.length ≤ k + 2 * threads → ConditionAlone coils (ls.getD k ⟨0, 0, 0, 0⟩) (q.getD k 0) tv))
        (namedLines parts n) (pos n)) ∧
    (∀ k, k < ls.length → ∃ n tv, exc n = some tv ∧ typeCheck s tv.1 = true ∧ k ∈ pos n ∧
      ∀ n' tv', exc n' = some tv' → typeCheck s tv'.1 = true → k ∈ pos n' → n' = n)

end Traceon.Spec
