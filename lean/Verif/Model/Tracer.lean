import Verif.Model.FieldObj
import Mathlib.Analysis.SpecialFunctions.Pow.Real

/-!
# Model of the tracer

backend/tracing.c:1-240 and 367-411, backend/utilities_3d.c:137-161, backend/__init__.py:255-386 and 608-619, tracing.py:22-273.
Real arithmetic; a loop that may run forever takes an amount of fuel, and `none` says that it has not returned within it.
-/
namespace Traceon

/-- The six numbers of one row of the `positions` array, and of the local variable `y`: position and velocity. [tracing.c:3, 50-112] -/
@[ext] structure Phase where
  pos : V3
  vel : V3

namespace Phase

/-- the arithmetic on all six numbers of a row, tracing.c:21-46, 99 -/
instance : Add Phase := ⟨fun a b => ⟨a.pos + b.pos, a.vel + b.vel⟩⟩
/-- the arithmetic on all six numbers of a row, tracing.c:21-46, 99 -/
instance : Zero Phase := ⟨⟨0, 0⟩⟩
/-- the arithmetic on all six numbers of a row, tracing.c:21-46, 99 -/
instance : HMul ℝ Phase Phase := ⟨fun k a => ⟨k * a.pos, k * a.vel⟩⟩

@[simp] theorem add_pos (a b : Phase) : (a + b).pos = a.pos + b.pos := rfl
@[simp] theorem add_vel (a b : Phase) : (a + b).vel = a.vel + b.vel := rfl
@[simp] theorem zero_pos : (0 : Phase).pos = 0 := rfl
@[simp] theorem zero_vel : (0 : Phase).vel = 0 := rfl
@[simp] theorem smul_pos (k : ℝ) (a : Phase) : (k * a).pos = k * a.pos := rfl
@[simp] theorem smul_vel (k : ℝ) (a : Phase) : (k * a).vel = k * a.vel := rfl

end Phase

/-- `EM`, definitions.c:29 -/
noncomputable def constEM : ℝ := -175882001077.2163

/-- `MU_0`, definitions.c:31 -/
noncomputable def constMu0 : ℝ := 1.25663706212e-06

/-- `TRACING_STEP_MAX`, tracing.c:5 -/
noncomputable def tracingStepMax : ℝ := 0.01

/-- `TRACING_BLOCK_SIZE`, tracing.c:7 -/
def tracingBlockSize : Nat := 100000

/-! ## The force -/

/-- utilities_3d.c:140-161, `combine_elec_magnetic_field`; `V3.cross` is `cross_product_3d` -/
noncomputable def combineElecMagneticField (velocity elec mag cur : V3) : V3 :=
  let totalMag : V3 := ⟨constMu0 * (mag.x + cur.x), constMu0 * (mag.y + cur.y), constMu0 * (mag.z + cur.z)⟩
  elec + V3.cross velocity totalMag

/-- A field bound as it is read by the C code: six doubles, of which some may be NaN (`none`). [tracing.c:115-148, 153-166] -/
abbrev CBounds := Option ((Option ℝ × Option ℝ) × (Option ℝ × Option ℝ) × (Option ℝ × Option ℝ))

/-- `a < b` in C: false if one of them is NaN. [used in tracing.c:115-150] -/
def cLt (a b : Option ℝ) : Prop := ∃ x y, a = some x ∧ b = some y ∧ x < y

/-- tracing.c:121-148, `field_radial_traceable`: only the first two pairs of bounds are looked at. -/
noncomputable def fieldRadialTraceable (elec mag : EffCharges (ℝ × ℝ)) (cur : EffCharges V3) (bounds : CBounds) (p : Phase) : V3 :=
  open Classical in
  if (∀ b, bounds = some b → (cLt b.1.1 (some p.pos.x) ∧ cLt (some p.pos.x) b.1.2) ∧ (cLt b.2.1.1 (some p.pos.y) ∧ cLt (some p.pos.y) b.2.1.2)) then
    combineElecMagneticField p.vel (fieldRadial p.pos elec) (fieldRadial p.pos mag) (currentField p.pos cur)
  else 0

/-- tracing.c:191-216, `field_3d_traceable` -/
noncomputable def field3dTraceable (elec mag : EffCharges V3) (bounds : CBounds) (p : Phase) : V3 :=
  open Classical in
  if (∀ b, bounds = some b → (cLt b.1.1 (some p.pos.x) ∧ cLt (some p.pos.x) b.1.2) ∧ (cLt b.2.1.1 (some p.pos.y) ∧ cLt (some p.pos.y) b.2.1.2) ∧
      (cLt b.2.2.1 (some p.pos.z) ∧ cLt (some p.pos.z) b.2.2.2)) then
    combineElecMagneticField p.vel (field3d p.pos elec) (field3d p.pos mag) 0
  else 0

/-- tracing.c:168-180, `field_radial_derivs_traceable`; `none` is a read outside of the coefficients. -/
noncomputable def fieldRadialDerivsTraceable (zs : List ℝ) (elec mag : Coeffs) (p : Phase) : Option V3 := do
  let e ← fieldRadialDerivs p.pos zs elec
  let m ← fieldRadialDerivs p.pos zs mag
  some (combineElecMagneticField p.vel e m 0)

/-- What the user passes to `set_bounds` (solver.py:557-568): Python numbers. `np.array` makes an array of int64 if all six are integers, and of float64 otherwise.
An array that is stored by columns, such as `np.array([minima, maxima]).T`, stays stored by columns (`np.array` has `order='K'`): `columns`. -/
inductive UserBounds where
  | floats (b : (ℝ × ℝ) × (ℝ × ℝ) × (ℝ × ℝ))
  | columns (b : (ℝ × ℝ) × (ℝ × ℝ) × (ℝ × ℝ))
  | ints (b : (Int × Int) × (Int × Int) × (Int × Int))

/-- The eight bytes of an int64 read as a double: for integers from 0 to 2^52-1 these are the denormal numbers n*2^-1074, for integers from -2^51 to -1 the bytes are a NaN.
Larger integers are not modelled (given as NaN). [backend/__init__.py:264-290, tracing.c:115-150] -/
noncomputable def reinterpretInt (i : Int) : Option ℝ := if 0 ≤ i ∧ i < 2 ^ 52 then some (i * (2 : ℝ) ^ (-1074 : ℤ)) else none

/-- `field_bounds.ctypes.data_as(dbl_p)`, backend/__init__.py:345 and 371: the address of the data, whatever the type of the array
and whatever the order in which the six numbers are stored. -/
noncomputable def UserBounds.toC : UserBounds → CBounds
  | floats b => some ((some b.1.1, some b.1.2), (some b.2.1.1, some b.2.1.2), (some b.2.2.1, some b.2.2.2))
  | columns b => some ((some b.1.1, some b.2.1.1), (some b.2.2.1, some b.1.2), (some b.2.1.2, some b.2.2.2))
  | ints b => some ((reinterpretInt b.1.1, reinterpretInt b.1.2), (reinterpretInt b.2.1.1, reinterpretInt b.2.1.2), (reinterpretInt b.2.2.1, reinterpretInt b.2.2.2))

/-- tracing.py:149-162 `TracerRadialBEM.__call__` with backend/__init__.py:337-350: the force on the particle. The field object carries what `set_bounds` was given. -/
noncomputable def tracerRadialForce (f : FieldRadialBEM) (bounds : Option UserBounds) : Phase → V3 :=
  fieldRadialTraceable f.elec f.mag f.cur (bounds.bind UserBounds.toC)

/-- tracing.py:173-178 `Tracer3D_BEM.__call__` with backend/__init__.py:366-377: the bounds are read into a local variable that is not used; `trace_particle_3d` is called without `field_bounds`. -/
noncomputable def tracer3dForce (f : Field3DBEM) (_bounds : Option UserBounds) : Phase → V3 :=
  fun p => field3dTraceable f.elec f.mag none p

/-! ## One step -/

/-- tracing.c:10-14: the rows `NULL, B2, B3, B4, B5, B6` of `coefficients` in `produce_new_y` -/
noncomputable def rkCoefficients : List (List ℝ) :=
  [[], [2 / 9], [1 / 12, 1 / 4], [69 / 128, -243 / 128, 135 / 64], [-17 / 12, 27 / 4, -27 / 5, 16 / 15], [65 / 432, -5 / 16, 13 / 16, 4 / 27, 5 / 144]]

/-- tracing.c:15 -/
noncomputable def rkCH : List ℝ := [47 / 450, 0, 12 / 25, 32 / 225, 1 / 30, 6 / 25]

/-- tracing.c:16 -/
noncomputable def rkCT : List ℝ := [-1 / 150, 0, 3 / 100, -16 / 75, -1 / 20, 6 / 25]

/-- tracing.c:20-33, `produce_new_y`: `ks` are the earlier stages. -/
noncomputable def produceNewY (y : Phase) (coefficients : List ℝ) (ks : List Phase) : Phase :=
  (coefficients.zip ks).foldl (fun acc ck => acc + ck.1 * ck.2) y

/-- tracing.c:35-48, `produce_new_k` -/
noncomputable def produceNewK (field : Phase → V3) (h : ℝ) (y : Phase) : Phase :=
  ⟨h * y.vel, (h * constEM) * field y⟩

/-- tracing.c:82-85: the six stages -/
noncomputable def rkStages (field : Phase → V3) (h : ℝ) (y : Phase) : List Phase :=
  rkCoefficients.foldl (fun ks coeff => ks ++ [produceNewK field h (produceNewY y coeff ks)]) []

/-- tracing.c:90-94 and 96-100: `for i ...: err = sum_j CT[j]*k[j][i]; if(fabs(err) > m) m = fabs(err)` for the components `comps` -/
noncomputable def rkMaxError (ks : List Phase) (comps : List (Phase → ℝ)) : ℝ :=
  comps.foldl (fun m i =>
    let err := (rkCT.zip ks).foldl (fun e ck => e + ck.1 * i ck.2) 0
    if |err| > m then |err| else m) 0

/-- tracing.c:87-102 -/
noncomputable def rkError (h : ℝ) (ks : List Phase) : ℝ :=
  rkMaxError ks [fun k => k.pos.x, fun k => k.pos.y, fun k => k.pos.z] + h * rkMaxError ks [fun k => k.vel.x, fun k => k.vel.y, fun k => k.vel.z]

/-- tracing.c:106: `y[i] += CH[0]*k[0][i] + ... + CH[5]*k[5][i]` -/
noncomputable def rkAdvance (y : Phase) (ks : List Phase) : Phase :=
  y + ((rkCH.zip ks).foldl (fun acc ck => acc + ck.1 * ck.2) 0)

/-- tracing.c:115: `h = fmin(0.9 * h * pow(atol / error, 0.2), hmax)`. For `error = 0` the quotient is infinite or NaN and for negative `atol` the power is NaN: `fmin` then gives `hmax`. -/
noncomputable def rkNewStep (atol error h hmax : ℝ) : ℝ :=
  open Classical in
  if error = 0 ∨ atol < 0 then hmax else min (0.9 * h * (atol / error) ^ (0.2 : ℝ)) hmax

/-! ## The loop -/

/-- tracer bounds: ((xmin, xmax), (ymin, ymax), (zmin, zmax)) [tracing.c:50-112] -/
abbrev Bounds := (ℝ × ℝ) × (ℝ × ℝ) × (ℝ × ℝ)

/-- tracing.c:75-77: the condition of the loop -/
def inBoundsC (b : Bounds) (p : V3) : Prop :=
  (b.1.1 ≤ p.x ∧ p.x ≤ b.1.2) ∧ (b.2.1.1 ≤ p.y ∧ p.y ≤ b.2.1.2) ∧ (b.2.2.1 ≤ p.z ∧ p.z ≤ b.2.2.2)

/-- A row of `times` and `positions`. [tracing.c:50-112] -/
abbrev Row := ℝ × Phase

/-- tracing.c:75-116: the loop of `trace_particle`. `rows` are the rows `0..N-1` of the arrays, `t` is `times[N-1]` and `y` is `positions[N-1]`. `B` is `TRACING_BLOCK_SIZE`. -/
noncomputable def traceLoop (field : Phase → V3) (bounds : Bounds) (atol hmax : ℝ) (B : Nat) : Nat → List Row → ℝ → Phase → ℝ → Option (List Row)
  | 0, _, _, _, _ => none
  | fuel + 1, rows, t, y, h =>
    open Classical in
    if inBoundsC bounds y.pos then
      let ks := rkStages field h y
      let error := rkError h ks
      if error ≤ atol then
        let y' := rkAdvance y ks
        let rows' := rows ++ [(t + h, y')]
        if rows'.length = B then some rows'
        else traceLoop field bounds atol hmax B fuel rows' (t + h) y' (rkNewStep atol error h hmax)
      else traceLoop field bounds atol hmax B fuel rows t y (rkNewStep atol error h hmax)
    else some rows

/-- tracing.c:51-119, `trace_particle` called with `start` in row 0 of the arrays: the rows `0..N-1` at return. For a particle at rest the step `TRACING_STEP_MAX/V` is infinite and all stages are NaN: the error
is NaN, no step is ever accepted and the loop does not end. -/
noncomputable def traceParticleC (field : Phase → V3) (bounds : Bounds) (atol : ℝ) (B : Nat) (fuel : Nat) (start : Row) : Option (List Row) :=
  open Classical in
  let V := V3.norm start.2.vel
  if V = 0 ∧ inBoundsC bounds start.2.pos then none
  else
    let hmax := tracingStepMax / V
    traceLoop field bounds atol hmax B fuel [start] start.1 start.2 hmax

/-- backend/__init__.py:268-283: the loop of `trace_particle_wrapper`; `acc` are the blocks so far and `start` is row 0 of the fresh arrays. `rows.length` is `N`.
`pos_blocks[-1][-1]` raises if the last block is empty. -/
def traceBlocks (fill : Row → Option (List Row)) (B : Nat) : Nat → List (List Row) → Row → Option (List (List Row))
  | 0, _, _ => none
  | fuel + 1, acc, start => do
    let rows ← fill start
    let block := if acc.length > 0 then rows.drop 1 else rows
    let acc' := acc ++ [block]
    if rows.length ≠ B then some acc'
    else do
      let last ← block.getLast?
      traceBlocks fill B fuel acc' last

/-- backend/__init__.py:255-291, `trace_particle_wrapper`: the first start row has time 0. -/
def traceWrapper (fill : Row → Option (List Row)) (B : Nat) (fuel : Nat) (position velocity : V3) : Option (List Row) := do
  let blocks ← traceBlocks fill B fuel [] (0, ⟨position, velocity⟩)
  match blocks with
  | [b] => some b
  | bs => some bs.flatten

/-- backend/__init__.py:331-335 `trace_particle`, and with the `field` of the tracers above `trace_particle_radial` (337-350) and `trace_particle_3d` (366-377) -/
noncomputable def traceParticle (field : Phase → V3) (bounds : Bounds) (atol : ℝ) (B : Nat) (fuel : Nat) (position velocity : V3) : Option (List Row) :=
  traceWrapper (traceParticleC field bounds atol B fuel) B fuel position velocity

/-! ## Velocities -/

/-- tracing.py:22-46, `velocity_vec`; the assertions, then `eV * direction / |direction|`. A zero direction gives NaNs. -/
noncomputable def velocityVec (eV : ℝ) (direction : V3) : Option V3 :=
  open Classical in
  if eV > 0 ∧ direction ≠ 0 then some ((1 / V3.norm direction) * (eV * direction)) else none

/-- tracing.py:48-64 -/
noncomputable def velocityVecSpherical (eV theta phi : ℝ) : Option V3 :=
  velocityVec eV ⟨Real.sin theta * Real.cos phi, Real.sin theta * Real.sin phi, Real.cos theta⟩

/-- tracing.py:66-84 -/
noncomputable def velocityVecXzPlane (eV angle : ℝ) (downward : Bool := true) : Option V3 :=
  let sign : ℝ := if downward then -1 else 1
  velocityVec eV ⟨Real.sin angle, 0, sign * Real.cos angle⟩

/-- tracing.py:94-100, `_convert_velocity_to_SI`; `e` and `m` are the electron charge and mass (scipy.constants). -/
noncomputable def convertVelocityToSI (e m : ℝ) (velocity : V3) : V3 :=
  let speedEV := V3.norm velocity
  let speed := Real.sqrt (2 * speedEV * e / m)
  let direction := (1 / speedEV) * velocity
  speed * direction

/-! ## Planes -/

/-- tracing.c:381 and 387, `kappa` -/
noncomputable def planeKappa (p0 normal : V3) (p : V3) : ℝ :=
  (normal.z * p0.z - p.z * normal.z + normal.y * p0.y - p.y * normal.y + normal.x * p0.x - p.x * normal.x) / V3.norm normal

/-- tracing.c:383-409: the loop, from the last row backwards. `prev` is row `i+1` and `rest` are the rows `i, i-1, ..., 0`. -/
noncomputable def planeLoop (p0 normal : V3) : Phase → List Phase → Option Phase
  | _, [] => none
  | prev, p :: rest =>
    open Classical in
    let prevKappa := planeKappa p0 normal prev.pos
    let kappa := planeKappa p0 normal p.pos
    let signKappa : Int := if kappa > 0 then 1 else -1
    let signPrev : Int := if prevKappa > 0 then 1 else -1
    if signKappa ≠ signPrev then
      let diff := kappa - prevKappa
      let factor := -prevKappa / diff
      let prevFactor := kappa / diff
      some (prevFactor * prev + factor * p)
    else planeLoop p0 normal p rest

/-- tracing.c:367-411 with backend/__init__.py:608-619 and tracing.py:186-209, `plane_intersection`: `none` is the exception. `assert(N_p > 1)` ends the program: also `none`. -/
noncomputable def planeIntersection (positions : List Phase) (p0 normal : V3) : Option Phase :=
  match positions.reverse with
  | last :: rest => if rest = [] then none else planeLoop p0 normal last rest
  | [] => none

/-- tracing.py:211-225 -/
noncomputable def xyPlaneIntersection (positions : List Phase) (z : ℝ) : Option Phase := planeIntersection positions ⟨0, 0, z⟩ ⟨0, 0, 1⟩

/-- tracing.py:227-241 -/
noncomputable def xzPlaneIntersection (positions : List Phase) (y : ℝ) : Option Phase := planeIntersection positions ⟨0, y, 0⟩ ⟨0, 1, 0⟩

/-- tracing.py:243-257 -/
noncomputable def yzPlaneIntersection (positions : List Phase) (x : ℝ) : Option Phase := planeIntersection positions ⟨x, 0, 0⟩ ⟨1, 0, 0⟩

/-- tracing.py:259-273 -/
noncomputable def axisIntersection (positions : List Phase) : Option ℝ := (yzPlaneIntersection positions 0).map (·.pos.z)

end Traceon
