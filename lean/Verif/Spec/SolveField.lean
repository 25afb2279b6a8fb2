import Verif.Model.SolveField
import Verif.Spec.Excitation
import Verif.Spec.Matrix3D
import Verif.Spec.MatrixRadial

/-!
# What a solution has to satisfy

An excitation `x` prescribes something for every element that carries an excitation of the kind `s`: the name that decides about the element (`Spec.Decides`; for an element in one
excited group only it is the name of that group) has a type and a value.
-/
namespace Traceon.Spec
open Excitation

/-- Triangle number `k` of the triangles `t`, with charges `q`, does what its excitation asks for. -/
def Condition3d (n : Nat) (t : Nat → Tri3) (q : Nat → ℝ) (k : Nat) : ExcType × ExcVal ℝ V3 → Prop
  | (.voltageFixed, .num v) => PotentialAtCentre n t q k v
  | (.voltageFun, .fn f) => PotentialAtCentre n t q k (f (centroid (t k)))
  | (.dielectric, .num K) => K ≠ -1 → ∃ e, NormalFieldAtCentre n t q k e ∧ InterfaceCondition K e (q k)
  | (.magnetostaticPot, .num v) => PotentialAtCentre n t q k v
  | (.magnetizable, .num μ) => μ ≠ -1 → ∃ e, NormalFieldAtCentre n t q k e ∧ InterfaceCondition μ e (q k)
  | _ => False

/-- Line number `k` of the lines `l`, with charges `q` and the coils given, does what its excitation asks for. -/
def ConditionRadial (coils : EffCharges V3) (n : Nat) (l : Nat → Line4) (q : Nat → ℝ) (k : Nat) : ExcType × ExcVal ℝ V3 → Prop
  | (.voltageFixed, .num v) => radialPotentialAtCentre n l q k = v
  | (.voltageFun, .fn f) => radialPotentialAtCentre n l q k = f (elemPoint (l k) 0)
  | (.dielectric, .num K) => K ≠ -1 → InterfaceCondition K (radialNormalFieldAtCentre n l q k) (q k)
  | (.magnetostaticPot, .num v) => radialPotentialAtCentre n l q k = v
  | (.magnetizable, .num μ) => μ ≠ -1 →
      InterfaceCondition μ (radialNormalFieldAtCentre n l q k + V3.dot (elemNormal (l k)) (currentField (elemPoint (l k) 0) coils)) (q k)
  | _ => False

/-- The charges `e` are charges on exactly those triangles of the mesh which carry an excitation of kind `s`, and every one of these triangles does what its excitation asks for. -/
def Solves3d (x : Excitation ℝ V3) (s : Statics) (e : EffCharges V3) : Prop :=
  ∃ (idx : List Nat) (ts : List Tri3) (q : List ℝ),
    e = triCharges ts q ∧ ts.length = idx.length ∧ q.length = idx.length ∧
    idx.Pairwise (· < ·) ∧ (∀ i, i ∈ idx ↔ i < x.mesh.triangles.length ∧ Excited x s i) ∧
    ∀ k i : Nat, idx[k]? = some i →
      (∃ t, (x.mesh.triangles[i]?).bind (triVerts x.mesh.points) = some t ∧ ts[k]? = some t) ∧
      ∀ n tv, Decides x s n i → x.types.get n = some tv → Condition3d ts.length (ts.getD · ⟨0, 0, 0⟩) (q.getD · 0) k tv

/-- The same for the lines of a radially symmetric problem. -/
def SolvesRadial (x : Excitation ℝ V3) (s : Statics) (coils : EffCharges V3) (e : EffCharges (ℝ × ℝ)) : Prop :=
  ∃ (idx : List Nat) (ls : List Line4) (q : List ℝ),
    e = lineCharges ls q ∧ ls.length = idx.length ∧ q.length = idx.length ∧
    idx.Pairwise (· < ·) ∧ (∀ i, i ∈ idx ↔ i < x.mesh.lines.length ∧ Excited x s i) ∧
    ∀ k i : Nat, idx[k]? = some i →
      (∃ a b c d l, x.mesh.lines[i]? = some [a, b, c, d] ∧ x.mesh.points[a]? = some l.l0 ∧ x.mesh.points[b]? = some l.l1 ∧
        x.mesh.points[c]? = some l.l2 ∧ x.mesh.points[d]? = some l.l3 ∧ ls[k]? = some l) ∧
      ∀ n tv, Decides x s n i → x.types.get n = some tv → ConditionRadial coils ls.length (ls.getD · ⟨0, 0, 0, 0⟩) (q.getD · 0) k tv

/-- The environment of a call does its job: the threads are given enough turns to finish and the adaptive integrations return what the C routines return. -/
def FaithfulEnv (env : SolveEnv) (x : Excitation ℝ V3) : Prop :=
  0 < env.threads ∧ ∀ s st, x.solverInit s = some st →
    match st.elems with
    | .tris ts =>
        env.routines.Correct ts.length (ts.getD · ⟨0, 0, 0⟩) (fun i => (st.types[i]?).join) ∧
        Joined (env.sched s) (matrixProgs false ts.length env.threads
          (fillOps3d env.routines (ts.getD · ⟨0, 0, 0⟩) (fun i => (st.types[i]?).join) (st.values.getD · 0)))
    | .lines ls =>
        Joined (env.sched s) (matrixProgs true ls.length env.threads
          (fillOpsRadial (ls.getD · ⟨0, 0, 0, 0⟩) (fun i => (st.types[i]?).join) (st.values.getD · 0)))

end Traceon.Spec
