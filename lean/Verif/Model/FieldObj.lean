import Verif.Model.Axial

/-!
# Model of the field classes and of their operators

solver.py:468-1084 and interpolation.py:15-185. The operators are modelled as Python executes them: look up the method on the class of the left operand, call it, and if the method does not exist or returns
`NotImplemented`, look up the reflected method on the class of the right operand. `none` is an exception.
-/
namespace Traceon

/-- `FieldRadialBEM` (solver.py:543-568, 656-671) -/
structure FieldRadialBEM where
  elec : EffCharges (ℝ × ℝ)
  mag : EffCharges (ℝ × ℝ)
  cur : EffCharges V3
  bounds : Option ((ℝ × ℝ) × (ℝ × ℝ) × (ℝ × ℝ)) := none

/-- `Field3D_BEM` (solver.py:843-862) -/
structure Field3DBEM where
  elec : EffCharges V3
  mag : EffCharges V3
  bounds : Option ((ℝ × ℝ) × (ℝ × ℝ) × (ℝ × ℝ)) := none

/-- `FieldRadialAxial`, which exists twice with the same attributes: solver.py:952-1018 and interpolation.py:15-116. -/
structure FieldAxial where
  fromInterpolation : Bool
  zs : List ℝ
  elec : Coeffs
  mag : Coeffs

/-- The Python objects that occur. [solver.py:337-395, 543-660, 843-860, interpolation.py:15-71] -/
inductive PyObj where
  | num (a : ℝ)
  | eff2 (e : EffCharges (ℝ × ℝ))
  | eff3 (e : EffCharges V3)
  | radial (f : FieldRadialBEM)
  | threeD (f : Field3DBEM)
  | axial (f : FieldAxial)
  | notImplemented

namespace PyObj

/-- Attribute lookup on an instance, for the attributes used by the operators of `FieldBEM`. [solver.py:548-555] -/
def attr : PyObj → String → Option PyObj
  | radial f, "electrostatic_point_charges" => some (eff2 f.elec)
  | radial f, "magnetostatic_point_charges" => some (eff2 f.mag)
  | radial f, "current_point_charges" => some (eff3 f.cur)
  | threeD f, "electrostatic_point_charges" => some (eff3 f.elec)
  | threeD f, "magnetostatic_point_charges" => some (eff3 f.mag)
  | threeD _, "current_point_charges" => some (eff3 EffCharges.empty3d)
  | _, _ => none

/-- The binary methods of `EffectivePointCharges` (solver.py:367-386): `__add__`, `__mul__` and `__rmul__`, and no others (the outer `none`: AttributeError).
`__add__` reads `other.positions`, which only other point charges have; positions of different dimension can not be concatenated. -/
noncomputable def effMethod : String → Option (PyObj → PyObj → Option PyObj)
  | "__add__" => some (fun a b => match a, b with
      | eff2 x, eff2 y => (x.add y).map eff2
      | eff3 x, eff3 y => (x.add y).map eff3
      | _, _ => none)
  | "__mul__" => some (fun a b => match a, b with
      | eff2 x, num k => (x.scale k).map eff2
      | eff3 x, num k => (x.scale k).map eff3
      | _, _ => some notImplemented)
  | "__rmul__" => some (fun a b => match a, b with
      | eff2 x, num k => (x.scale k).map eff2
      | eff3 x, num k => (x.scale k).map eff3
      | _, _ => some notImplemented)
  | _ => none

/-- `self.__class__(e, m, c)` for the two BEM classes: solver.py:660-671 with 548-555 takes three arguments besides `self`,
solver.py:847-862 only two, so that Python raises TypeError. The arguments must be `EffectivePointCharges`. -/
noncomputable def construct3 : PyObj → PyObj → PyObj → PyObj → Option PyObj
  | radial _, eff2 e, eff2 m, eff3 c => some (radial ⟨e, m, c, none⟩)
  | _, _, _, _ => none

/-- The common body of the binary methods of `FieldBEM` (solver.py:576-580 `__add__`, 582-586 `__sub__`, 588-592 `__radd__`, 594-598 `__mul__`, 606-610 `__rmul__`):
call the method of the same name on the three sets of point charges of `self` and `other`. -/
noncomputable def bemBinary (name : String) (self other : PyObj) : Option PyObj := do
  let call := fun attrName => do
    let s ← self.attr attrName
    let m ← effMethod name
    let o ← other.attr attrName
    m s o
  let e ← call "electrostatic_point_charges"
  let m ← call "magnetostatic_point_charges"
  let c ← call "current_point_charges"
  construct3 self e m c

/-- The shape (n, 9, 6). [interpolation.py:22-34] -/
def CoeffShape (n : Nat) (c : Coeffs) : Prop := c.length = n ∧ ∀ a ∈ c, a.length = 9 ∧ ∀ b ∈ a, b.length = 6

/-- The constructors of the axial fields called with `(z, electrostatic_coeffs, magnetostatic_coeffs)`. solver.py:957-964 checks the lengths and the order of the samples, 1015-1016 the shape.
interpolation.py:80-81 refuses `z`, as it is not a field. -/
noncomputable def constructAxial (fromInterpolation : Bool) (zs : List ℝ) (elec mag : Coeffs) : Option PyObj :=
  open Classical in
  if fromInterpolation then none
  else if CoeffShape (zs.length - 1) elec ∧ CoeffShape (zs.length - 1) mag ∧ zs.getD 0 0 < zs.getD (zs.length - 1) 0 then
    some (axial ⟨false, zs, elec, mag⟩)
  else none

/-- Entry by entry operations on arrays of shape (N, 9, 6). [interpolation.py:46-71] -/
noncomputable def coeffsMap (f : ℝ → ℝ) (a : Coeffs) : Coeffs := a.map (List.map (List.map f))

@[inherit_doc coeffsMap]
noncomputable def coeffsZip (f : ℝ → ℝ → ℝ) (a b : Coeffs) : Coeffs := List.zipWith (List.zipWith (List.zipWith f)) a b

/-- solver.py:983-990 (interpolation.py:43-50), `FieldAxial.__add__`. Two coefficient arrays of the same class have the same shape iff they have the same length. An axial field of the other module is not an instance of this `FieldAxial`. -/
noncomputable def axialAdd (f g : FieldAxial) : Option PyObj :=
  open Classical in
  if f.fromInterpolation ≠ g.fromInterpolation then some notImplemented
  else if f.zs = g.zs ∧ f.elec.length = g.elec.length ∧ f.mag.length = g.mag.length then
    constructAxial f.fromInterpolation f.zs (coeffsZip (· + ·) f.elec g.elec) (coeffsZip (· + ·) f.mag g.mag)
  else none

/-- solver.py:998-1002 (interpolation.py:58-62), `FieldAxial.__mul__` by a number; also `__rmul__` (1007-1008). -/
noncomputable def axialScale (k : ℝ) (f : FieldAxial) : Option PyObj :=
  constructAxial f.fromInterpolation f.zs (coeffsMap (k * ·) f.elec) (coeffsMap (k * ·) f.mag)

/-- Unary minus, `-x`. `FieldBEM.__neg__` (solver.py:600-604) has a parameter too many: calling it raises TypeError. `FieldAxial.__neg__` is `-1*self`
(solver.py:1004-1005), and `EffectivePointCharges.__neg__` likewise. -/
noncomputable def neg : PyObj → Option PyObj
  | num a => some (num (-a))
  | eff2 e => e.neg.map eff2
  | eff3 e => e.neg.map eff3
  | radial _ => none
  | threeD _ => none
  | axial f => axialScale (-1) f
  | notImplemented => none

/-- The binary methods of the classes: the outer `none` means that the class has no such method. [solver.py:367-386, 576-610, interpolation.py:46-71] -/
noncomputable def method (name : String) : PyObj → Option (PyObj → Option PyObj)
  | num a => match name with
      | "__add__" => some (fun y => match y with | num b => some (num (a + b)) | _ => some notImplemented)
      | "__sub__" => some (fun y => match y with | num b => some (num (a - b)) | _ => some notImplemented)
      | "__mul__" => some (fun y => match y with | num b => some (num (a * b)) | _ => some notImplemented)
      | _ => none
  | eff2 e => (effMethod name).map (fun m => m (eff2 e))
  | eff3 e => (effMethod name).map (fun m => m (eff3 e))
  | radial f => if name ∈ ["__add__", "__sub__", "__radd__", "__mul__", "__rmul__"] then some (bemBinary name (radial f)) else none
  | threeD f => if name ∈ ["__add__", "__sub__", "__radd__", "__mul__", "__rmul__"] then some (bemBinary name (threeD f)) else none
  | axial f => match name with
      | "__add__" => some (fun y => match y with | axial g => axialAdd f g | _ => some notImplemented)
      | "__radd__" => some (fun y => match y with | axial g => axialAdd f g | _ => some notImplemented)
      | "__sub__" => some (fun y => do
          let y' ← y.neg
          match y' with | axial g => axialAdd f g | _ => some notImplemented)
      | "__mul__" => some (fun y => match y with | num k => axialScale k f | _ => some notImplemented)
      | "__rmul__" => some (fun y => match y with | num k => axialScale k f | _ => some notImplemented)
      | _ => none
  | notImplemented => none

/-- Are two objects of the same class? Then the reflected method is not tried. [used for solver.py:576-610, interpolation.py:46-71] -/
def sameClass : PyObj → PyObj → Bool
  | num _, num _ => true
  | eff2 _, eff2 _ => true
  | eff2 _, eff3 _ => true
  | eff3 _, eff2 _ => true
  | eff3 _, eff3 _ => true
  | radial _, radial _ => true
  | threeD _, threeD _ => true
  | axial f, axial g => f.fromInterpolation == g.fromInterpolation
  | _, _ => false

/-- The second half of the evaluation of a binary operator. [used for solver.py:588-592, 606-610, interpolation.py:58-71] -/
noncomputable def reflected (name : String) (x y : PyObj) : Option PyObj :=
  if sameClass x y then none else
    match method name y with
    | none => none
    | some m => match m x with
      | some notImplemented => none
      | r => r

/-- `x op y`: Python's protocol for binary operators. [used for solver.py:576-610, interpolation.py:46-71] -/
noncomputable def binary (name rname : String) (x y : PyObj) : Option PyObj :=
  match method name x with
  | none => reflected rname x y
  | some m => match m y with
    | some notImplemented => reflected rname x y
    | r => r

/-- `x + y` [solver.py:576-580, interpolation.py:46-53] -/
noncomputable def add (x y : PyObj) : Option PyObj := binary "__add__" "__radd__" x y
/-- `x - y` [solver.py:582-586, interpolation.py:55-56] -/
noncomputable def sub (x y : PyObj) : Option PyObj := binary "__sub__" "__rsub__" x y
/-- `x * y` [solver.py:594-598, interpolation.py:61-65] -/
noncomputable def mul (x y : PyObj) : Option PyObj := binary "__mul__" "__rmul__" x y

/-! ## Evaluation -/

/-- `electrostatic_potential_at_point`: solver.py:702-719 (radial), 882-899 (3D), 1050-1066 (axial). `none`: no such method, or a read outside of an array. -/
noncomputable def electrostaticPotential (p : V3) : PyObj → Option ℝ
  | radial f => some (potentialRadial p f.elec)
  | threeD f => some (potential3d p f.elec)
  | axial f => potentialRadialDerivs p f.zs f.elec
  | _ => none

/-- `magnetostatic_potential_at_point` [solver.py:524-526, 746-764, 924-942, interpolation.py:184-199] -/
noncomputable def magnetostaticPotential (p : V3) : PyObj → Option ℝ
  | radial f => some (potentialRadial p f.mag)
  | threeD f => some (potential3d p f.mag)
  | axial f => potentialRadialDerivs p f.zs f.mag
  | _ => none

/-- `electrostatic_field_at_point` [solver.py:536-538, 680-699, 864-882, interpolation.py:133-148] -/
noncomputable def electrostaticField (p : V3) : PyObj → Option V3
  | radial f => some (fieldRadial p f.elec)
  | threeD f => some (field3d p f.elec)
  | axial f => fieldRadialDerivs p f.zs f.elec
  | _ => none

/-- `magnetostatic_field_at_point`; in radial symmetry the field of the currents is added (solver.py:721-743). -/
noncomputable def magnetostaticField (p : V3) : PyObj → Option V3
  | radial f => some (currentField p f.cur + fieldRadial p f.mag)
  | threeD f => some (field3d p f.mag)
  | axial f => fieldRadialDerivs p f.zs f.mag
  | _ => none

/-- `is_electrostatic`: solver.py:570-571 for BEM fields, 970, 973-974 for axial fields. -/
noncomputable def isElectrostatic : PyObj → Prop
  | radial f => f.elec.len > 0
  | threeD f => f.elec.len > 0
  | axial f => ∃ a ∈ f.elec, ∃ b ∈ a, ∃ c ∈ b, c ≠ (0 : ℝ)
  | _ => False

/-- `is_magnetostatic`: solver.py:573-574 for BEM fields (a 3D field has no currents), 971, 976-977 for axial fields. -/
noncomputable def isMagnetostatic : PyObj → Prop
  | radial f => f.mag.len > 0 ∨ f.cur.len > 0
  | threeD f => f.mag.len > 0
  | axial f => ∃ a ∈ f.mag, ∃ b ∈ a, ∃ c ∈ b, c ≠ (0 : ℝ)
  | _ => False

/-- solver.py:469-490, `field_at_point` -/
noncomputable def fieldAtPoint (f : PyObj) (p : V3) : Option V3 :=
  open Classical in
  if f.isElectrostatic ∧ ¬f.isMagnetostatic then f.electrostaticField p
  else if ¬f.isElectrostatic ∧ f.isMagnetostatic then f.magnetostaticField p
  else none

/-- solver.py:492-513, `potential_at_point` -/
noncomputable def potentialAtPoint (f : PyObj) (p : V3) : Option ℝ :=
  open Classical in
  if f.isElectrostatic ∧ ¬f.isMagnetostatic then f.electrostaticPotential p
  else if ¬f.isElectrostatic ∧ f.isMagnetostatic then f.magnetostaticPotential p
  else none

end PyObj
end Traceon
