import Verif.Model.Mesh

/-!
# Model of `traceon.excitation` and of the assembly of the linear system in `traceon.solver`

`V` is the type of numbers (voltages, currents, permittivities), `P` the type of points.
-/
namespace Traceon

/-- excitation.py:24-29 -/
inductive Symmetry where
  | radial
  | threeD
deriving DecidableEq

/-- excitation.py:43-51 -/
inductive ExcType where
  | voltageFixed
  | voltageFun
  | dielectric
  | current
  | magnetostaticPot
  | magnetizable
deriving DecidableEq

/-- The Python values that are passed as excitation: a number, a function of position, or anything else. [excitation.py:97-193] -/
inductive ExcVal (V P : Type) where
  | num (v : V)
  | fn (f : P → V)
  | other

/-- excitation.py:53-56 -/
def ExcType.isElectrostatic : ExcType → Bool
  | .voltageFixed => true
  | .voltageFun => true
  | .dielectric => true
  | _ => false

/-- excitation.py:80-90, the attributes of an `Excitation`. -/
structure Excitation (V P : Type) where
  mesh : Mesh P
  electrodes : List String
  symmetry : Symmetry
  types : Dict (ExcType × ExcVal V P) := []

namespace Excitation
variable {V P : Type}

/-- excitation.py:82-90. `inXZ` is the test `points[:, 1] == 0` of line 89 on all points. -/
def new (mesh : Mesh P) (sym : Symmetry) (inXZ : P → Bool) : Option (Excitation V P) :=
  if sym = .radial ∧ ¬(mesh.points.all inXZ) then none
  else some { mesh := mesh, electrodes := mesh.electrodes, symmetry := sym }

/-- The loops `for name, value in kwargs.items()` of the `add_*` methods: `accept name value` is what is
stored, `none` an exception. An exception ends the loop, but keeps what was stored before. The second component tells whether the call
returned normally. [excitation.py:110-117, 134-136, 160-162, 176-178, 191-193] -/
def addLoop (accept : String → ExcVal V P → Option (ExcType × ExcVal V P)) :
    List (String × ExcVal V P) → Excitation V P → Excitation V P × Bool
  | [], x => (x, true)
  | (n, v) :: rest, x =>
      match accept n v with
      | none => (x, false)
      | some tv => addLoop accept rest { x with types := x.types.set n tv }

/-- excitation.py:110-117 -/
def acceptVoltage (x : Excitation V P) (n : String) (v : ExcVal V P) : Option (ExcType × ExcVal V P) :=
  if n ∈ x.electrodes then
    match v with
    | .num a => some (.voltageFixed, .num a)
    | .fn f => some (.voltageFun, .fn f)
    | .other => none
  else none

/-- excitation.py:134-136 -/
def acceptCurrent (x : Excitation V P) (n : String) (v : ExcVal V P) : Option (ExcType × ExcVal V P) :=
  if x.mesh.physTris.has n then some (.current, v) else none

/-- excitation.py:160-162 (magnetostatic potential), 176-178 (magnetizable), 191-193 (dielectric) -/
def acceptOther (t : ExcType) (x : Excitation V P) (n : String) (v : ExcVal V P) : Option (ExcType × ExcVal V P) :=
  if n ∈ x.electrodes then some (t, v) else none

/-- The methods that change an excitation. [excitation.py:97-230] -/
inductive Call (V P : Type) where
  | voltage (kwargs : List (String × ExcVal V P))
  | current (kwargs : List (String × ExcVal V P))
  | magnetostaticPotential (kwargs : List (String × ExcVal V P))
  | magnetizable (kwargs : List (String × ExcVal V P))
  | dielectric (kwargs : List (String × ExcVal V P))
  | electrostaticBoundary (names : List String) (ensureInward : Bool)
  | magnetostaticBoundary (names : List String) (ensureInward : Bool)

/-- excitation.py:207-209, 225-228: turn the named elements inward, in place. -/
def inward (G : Geo P) (names : List String) (m : Mesh P) : Option (Mesh P) :=
  names.foldlM (fun m n => m.ensureNormals G false n) m

/-- `{a: 0 for a in args}` (excitation.py:211, 230): repeated names are merged. -/
def zeros [Zero V] (names : List String) : List (String × ExcVal V P) :=
  names.foldl (fun (d : Dict (ExcVal V P)) n => d.set n (.num 0)) []

/-- excitation.py:97-230. The second component tells whether the call returned normally. (An exception while
normals are turned is treated as if nothing was turned; it does not occur for valid meshes, see `C32_boundary_mesh`.) -/
def call [Zero V] (G : Geo P) (x : Excitation V P) : Call V P → Excitation V P × Bool
  | .voltage kw => addLoop x.acceptVoltage kw x
  | .current kw => if x.symmetry = .radial then addLoop x.acceptCurrent kw x else (x, false)
  | .magnetostaticPotential kw => addLoop (x.acceptOther .magnetostaticPot) kw x
  | .magnetizable kw => addLoop (x.acceptOther .magnetizable) kw x
  | .dielectric kw => addLoop (x.acceptOther .dielectric) kw x
  | .electrostaticBoundary names ensure =>
      match (if ensure then inward G names x.mesh else some x.mesh) with
      | none => (x, false)
      | some m => addLoop (x.acceptOther .dielectric) (zeros names) { x with mesh := m }
  | .magnetostaticBoundary names ensure =>
      match (if ensure then inward G names x.mesh else some x.mesh) with
      | none => (x, false)
      | some m => addLoop (x.acceptOther .magnetizable) (zeros names) { x with mesh := m }

/-- A sequence of calls, exceptions being caught by the user. [user code, calling excitation.py:97-230] -/
def calls [Zero V] (G : Geo P) (x : Excitation V P) (cs : List (Call V P)) : Excitation V P :=
  cs.foldl (fun x c => (x.call G c).1) x

/-! ## Active elements, excitation.py:264-289 -/

/-- The argument `type_` of `_get_active_elements`. [excitation.py:264-280] -/
inductive Statics where
  | electrostatic
  | magnetostatic
deriving DecidableEq

/-- excitation.py:274-278 -/
def typeCheck : Statics → ExcType → Bool
  | .electrostatic, t => t.isElectrostatic
  | .magnetostatic, t => t = .magnetizable || t = .magnetostaticPot

/-- excitation.py:267-272 -/
def elements (x : Excitation V P) : List Elem := if x.symmetry = .radial then x.mesh.lines else x.mesh.triangles
/-- excitation.py:267-272 -/
def physicals (x : Excitation V P) : Dict (List Nat) := if x.symmetry = .radial then x.mesh.physLines else x.mesh.physTris

/-- excitation.py:280-283 (`none`: KeyError) -/
def inactiveMask (x : Excitation V P) (s : Statics) : Option (List Bool) :=
  x.types.foldlM (fun mask nv =>
    if typeCheck s nv.2.1 then do
      let idx ← x.physicals.get nv.1
      return scatter mask idx (idx.map (fun _ => false))
    else some mask) (List.replicate x.elements.length true)

/-- excitation.py:285 (see `Mesh.mapIndex` for natural number subtraction) -/
def mapIndex (inactive : List Bool) : List Nat := (List.range inactive.length).zipWith (· - ·) (cumsum inactive)

/-- excitation.py:286-287 -/
def activeNames (x : Excitation V P) (s : Statics) (inactive : List Bool) : Option (Dict (List Nat)) :=
  (x.physicals.filter (fun ni => (x.types.get ni.1).any (fun tv => typeCheck s tv.1))).mapM
    (fun ni => do return (ni.1, ← gather (mapIndex inactive) ni.2))

/-- excitation.py:264-289 -/
def activeElements (x : Excitation V P) (s : Statics) : Option (List (List P) × Dict (List Nat)) := do
  let inactive ← x.inactiveMask s
  let names ← x.activeNames s inactive
  let verts ← (compress (inactive.map (!·)) x.elements).mapM (fun e => gather x.mesh.points e)
  return (verts, names)

/-! ## The linear system, solver.py:68-91, 222-239, 307-333 -/

/-- solver.py:80-88, the entries assigned for one name: type and value of every index. `centre k` is
`self.get_center_of_element(k)`. `none`: the value is not a number (numpy raises). -/
def assigned (centre : Nat → P) (tv : ExcType × ExcVal V P) (idx : List Nat) : Option (List V) :=
  if tv.1 ≠ .voltageFun then
    match tv.2 with
    | .num v => some (idx.map (fun _ => v))
    | _ => none
  else
    match tv.2 with
    | .fn f => some (idx.map (fun k => f (centre k)))
    | _ => none

/-- solver.py:76-91: `excitation_types` and `excitation_values`. The initial type 0 is `none`. -/
def typesAndValues [Zero V] (x : Excitation V P) (names : Dict (List Nat)) (n : Nat) (centre : Nat → P) :
    Option (List (Option ExcType) × List V) :=
  names.foldlM (fun st ni => do
    let tv ← x.types.get ni.1
    let vals ← assigned centre tv ni.2
    return (scatter st.1 ni.2 (ni.2.map (fun _ => some tv.1)), scatter st.2 ni.2 vals))
    (List.replicate n none, List.replicate n 0)

/-- solver.py:229-233 (electrostatic) -/
def rhsElectric [Zero V] : Option ExcType → V → V
  | some .voltageFixed, v => v
  | some .voltageFun, v => v
  | _, _ => 0

/-- solver.py:315-327 (magnetostatic); `flux` is the value computed in lines 318-326 -/
def rhsMagnetic [Zero V] (flux : Nat → V → V) (k : Nat) : Option ExcType → V → V
  | some .magnetostaticPot, v => v
  | some .magnetizable, v => flux k v
  | _, _ => 0

/-- `ElectrostaticSolver(excitation).get_right_hand_side()`, solver.py:222-236. `centre vs` is the centre of
the element with vertices `vs` (solver.py:131-140). -/
def electricRhs [Zero V] [Inhabited P] (x : Excitation V P) (centre : List P → P) : Option (List V) := do
  let (verts, names) ← x.activeElements .electrostatic
  let (ts, vs) ← x.typesAndValues names verts.length (fun k => centre (verts.getD k []))
  return (ts.zip vs).map (fun tv => rhsElectric tv.1 tv.2)

/-- `MagnetostaticSolver(excitation).get_right_hand_side()`, solver.py:307-330. `flux vs v` is the term computed for a magnetizable
element with vertices `vs` and permeability `v`. -/
def magneticRhs [Zero V] [Inhabited P] (x : Excitation V P) (centre : List P → P) (flux : List P → V → V) : Option (List V) := do
  let (verts, names) ← x.activeElements .magnetostatic
  let (ts, vs) ← x.typesAndValues names verts.length (fun k => centre (verts.getD k []))
  return ((ts.zip vs).zipIdx).map (fun tv => rhsMagnetic (fun k => flux (verts.getD k [])) tv.2 tv.1.1 tv.1.2)

/-! ## Superposition, excitation.py:232-262 -/

/-- excitation.py:142-144 `is_electrostatic` -/
def isElectrostatic (x : Excitation V P) : Bool := x.types.any (fun nv => nv.2.1 = .voltageFixed || nv.2.1 = .voltageFun)
/-- excitation.py:146-148 `is_magnetostatic` -/
def isMagnetostatic (x : Excitation V P) : Bool := x.types.any (fun nv => nv.2.1 = .magnetostaticPot || nv.2.1 = .current)
/-- excitation.py:138-140 `has_current` -/
def hasCurrent (x : Excitation V P) : Bool := x.types.any (fun nv => nv.2.1 = .current)

/-- `v != 0.0` of excitation.py:237 -/
def nonZero [Zero V] [DecidableEq V] : ExcVal V P → Bool
  | .num v => decide (v ≠ 0)
  | _ => true

/-- excitation.py:236-237 -/
def nonZeroFixed [Zero V] [DecidableEq V] (x : Excitation V P) : List String :=
  (x.types.filter (fun nv => (nv.2.1 = .voltageFixed || nv.2.1 = .current) && nonZero nv.2.2)).map (·.1)

/-- excitation.py:243-255: the types dictionary for the unit excitation of `name`. -/
def unitTypes [Zero V] [One V] (x : Excitation V P) (name : String) : Dict (ExcType × ExcVal V P) :=
  x.types.map (fun nv =>
    if nv.1 = name then (nv.1, (nv.2.1, .num 1))
    else if nv.2.1 = .voltageFixed then (nv.1, (nv.2.1, .num 0))
    else if nv.2.1 = .current then (nv.1, (nv.2.1, .num 0))
    else nv)

/-- excitation.py:232-262 (the dictionary that is returned; `none`: the assertion of line 246 fails). The constructor call of line 257 cannot
fail, the same mesh was accepted before. -/
def splitForSuperposition [Zero V] [One V] [DecidableEq V] (x : Excitation V P) : Option (Dict (Excitation V P)) :=
  if x.nonZeroFixed ≠ [] ∧ x.types.any (fun nv => nv.2.1 = .voltageFun) then none
  else some (x.nonZeroFixed.map (fun n => (n, { x with types := x.unitTypes n })))

end Excitation
end Traceon
