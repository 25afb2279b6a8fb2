import Verif.Model.Excitation

/-!
# Specification vocabulary for excitations
-/
namespace Traceon.Spec
variable {V P : Type}

/-- What a call asks for, in order: for every name the excitation to be assigned, or `none` if the request is illegal (a name that does
not occur in the mesh, a current on something that is not made of triangles or without radial symmetry, a voltage that is neither a number nor a function). -/
def requests [Zero V] (m : Mesh P) (sym : Symmetry) : Excitation.Call V P → List (String × Option (ExcType × ExcVal V P))
  | .voltage kw => kw.map (fun nv => (nv.1,
      if nv.1 ∈ m.physLines.keys ∨ nv.1 ∈ m.physTris.keys then
        match nv.2 with
        | .num a => some (.voltageFixed, .num a)
        | .fn f => some (.voltageFun, .fn f)
        | .other => none
      else none))
  | .current kw => kw.map (fun nv => (nv.1, if sym = .radial ∧ nv.1 ∈ m.physTris.keys then some (.current, nv.2) else none))
  | .magnetostaticPotential kw => kw.map (fun nv => (nv.1, if nv.1 ∈ m.physLines.keys ∨ nv.1 ∈ m.physTris.keys then some (.magnetostaticPot, nv.2) else none))
  | .magnetizable kw => kw.map (fun nv => (nv.1, if nv.1 ∈ m.physLines.keys ∨ nv.1 ∈ m.physTris.keys then some (.magnetizable, nv.2) else none))
  | .dielectric kw => kw.map (fun nv => (nv.1, if nv.1 ∈ m.physLines.keys ∨ nv.1 ∈ m.physTris.keys then some (.dielectric, nv.2) else none))
  | .electrostaticBoundary names _ => names.map (fun n => (n, if n ∈ m.physLines.keys ∨ n ∈ m.physTris.keys then some (.dielectric, .num 0) else none))
  | .magnetostaticBoundary names _ => names.map (fun n => (n, if n ∈ m.physLines.keys ∨ n ∈ m.physTris.keys then some (.magnetizable, .num 0) else none))

/-- The requests granted by a call: those before the first illegal one. -/
def granted [Zero V] (m : Mesh P) (sym : Symmetry) (c : Excitation.Call V P) : List (String × (ExcType × ExcVal V P)) :=
  ((requests m sym c).takeWhile (fun r => r.2.isSome)).filterMap (fun r => r.2.map (fun tv => (r.1, tv)))

/-- The last value assigned to a name. -/
def lastAssigned {α : Type _} (l : List (String × α)) (n : String) : Option α := (l.reverse.find? (fun r => r.1 == n)).map (·.2)

/-- Element number `i` carries an excitation of the given kind: it belongs to a group whose name has such an excitation. -/
def Excited (x : Excitation V P) (s : Excitation.Statics) (i : Nat) : Prop :=
  ∃ n g tv, x.physicals.get n = some g ∧ i ∈ g ∧ x.types.get n = some tv ∧ Excitation.typeCheck s tv.1 = true

/-- Every name with an excitation of the given kind names elements of the right dimension (lines for radial symmetry, triangles in 3D). -/
def Proper (x : Excitation V P) (s : Excitation.Statics) : Prop :=
  ∀ n tv, x.types.get n = some tv → Excitation.typeCheck s tv.1 = true → ∃ g, x.physicals.get n = some g

/-- The name `n` carries an excitation of the given kind. -/
def HasKind (x : Excitation V P) (s : Excitation.Statics) (n : String) : Prop :=
  ∃ tv, x.types.get n = some tv ∧ Excitation.typeCheck s tv.1 = true

/-- `n` is the name that decides about element `i`: the last (in the order of the mesh's dictionary) name with an excitation of the given
kind whose group contains the element. For an element in one such group only, it is the name of that group (`decides_of_unique`). -/
def Decides (x : Excitation V P) (s : Excitation.Statics) (n : String) (i : Nat) : Prop :=
  ∃ pre g post, x.physicals = pre ++ (n, g) :: post ∧ i ∈ g ∧ HasKind x s n ∧ ∀ n' g', (n', g') ∈ post → HasKind x s n' → i ∉ g'

/-- The values are what the types need: a function for voltage functions, a number otherwise. -/
def Numeric (x : Excitation V P) (s : Excitation.Statics) : Prop :=
  ∀ n tv, x.types.get n = some tv → Excitation.typeCheck s tv.1 = true →
    (tv.1 = .voltageFun → ∃ f, tv.2 = .fn f) ∧ (tv.1 ≠ .voltageFun → ∃ v, tv.2 = .num v)

/-- The right hand side for an electrostatic element with centre `c`: its voltage, the value of its voltage function at the centre, zero for a dielectric. -/
def expectedElectric [Zero V] (c : P) : ExcType × ExcVal V P → Option V
  | (.voltageFixed, .num v) => some v
  | (.voltageFun, .fn f) => some (f c)
  | (.dielectric, .num _) => some 0
  | _ => none

/-- The right hand side for a magnetostatic element: its potential, or the term for a magnetizable material in the field of the currents. -/
def expectedMagnetic (flux : V → V) : ExcType × ExcVal V P → Option V
  | (.magnetostaticPot, .num v) => some v
  | (.magnetizable, .num v) => some (flux v)
  | _ => none

end Traceon.Spec
