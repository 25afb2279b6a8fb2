import Verif.Model.Tracer

/-!
# The tracer on values that are not numbers

The model of the tracer in `Verif.Model.Tracer` computes with real numbers: where the C code divides zero by zero (a particle exactly at a charge) it has the value zero. Here a value is a real number or NaN (`none`): sums and
products with NaN are NaN, and every comparison with NaN is false. Infinities are not modelled.
-/
namespace Traceon

/-- Sum of two values. [the arithmetic of tracing.c:21-112] -/
noncomputable def nadd (a b : Option ℝ) : Option ℝ := a.bind fun x => b.map fun y => x + y

/-- Product of a number and a value (also for the number zero). [the arithmetic of tracing.c:21-112] -/
noncomputable def nsmul (k : ℝ) (a : Option ℝ) : Option ℝ := a.map fun x => k * x

/-- Three values, each a number or NaN. [tracing.c:21-112] -/
@[ext] structure NV3 where
  x : Option ℝ
  y : Option ℝ
  z : Option ℝ

/-- Position and velocity, a row of `positions`. [tracing.c:50-112] -/
@[ext] structure NPhase where
  pos : NV3
  vel : NV3

/-- component by component, tracing.c:21-46 -/
noncomputable instance : HAdd NV3 NV3 NV3 := ⟨fun a b => ⟨nadd a.x b.x, nadd a.y b.y, nadd a.z b.z⟩⟩
/-- component by component, tracing.c:21-46 -/
noncomputable instance : HMul ℝ NV3 NV3 := ⟨fun k a => ⟨nsmul k a.x, nsmul k a.y, nsmul k a.z⟩⟩
/-- component by component, tracing.c:21-46 -/
noncomputable instance : HAdd NPhase NPhase NPhase := ⟨fun a b => ⟨a.pos + b.pos, a.vel + b.vel⟩⟩
/-- component by component, tracing.c:21-46 -/
noncomputable instance : HMul ℝ NPhase NPhase := ⟨fun k a => ⟨k * a.pos, k * a.vel⟩⟩

/-- Numbers, as values. [tracing.c:50-112] -/
def V3.nums (v : V3) : NV3 := ⟨some v.x, some v.y, some v.z⟩
@[inherit_doc V3.nums]
def Phase.nums (p : Phase) : NPhase := ⟨p.pos.nums, p.vel.nums⟩

/-- NaN in all components. [three_d.c:64-87 for a point at a charge] -/
def nan3 : NV3 := ⟨none, none, none⟩

/-- tracing.c:20-33, `produce_new_y` -/
noncomputable def produceNewYN (y : NPhase) (coefficients : List ℝ) (ks : List NPhase) : NPhase :=
  (coefficients.zip ks).foldl (fun acc ck => acc + ck.1 * ck.2) y

/-- tracing.c:35-48, `produce_new_k` -/
noncomputable def produceNewKN (field : NPhase → NV3) (h : ℝ) (y : NPhase) : NPhase :=
  ⟨h * y.vel, (h * constEM) * field y⟩

/-- tracing.c:75-78: the six stages -/
noncomputable def rkStagesN (field : NPhase → NV3) (h : ℝ) (y : NPhase) : List NPhase :=
  rkCoefficients.foldl (fun ks coeff => ks ++ [produceNewKN field h (produceNewYN y coeff ks)]) []

/-- tracing.c:83-87 and 89-93: `if(fabs(err) > m) m = fabs(err)`, where the comparison is false if `err` is NaN. -/
noncomputable def rkMaxErrorN (ks : List NPhase) (comps : List (NPhase → Option ℝ)) : ℝ :=
  comps.foldl (fun m i =>
    match (rkCT.zip ks).foldl (fun e ck => nadd e (nsmul ck.1 (i ck.2))) (some 0) with
    | some err => if |err| > m then |err| else m
    | none => m) 0

/-- tracing.c:80-95 -/
noncomputable def rkErrorN (h : ℝ) (ks : List NPhase) : ℝ :=
  rkMaxErrorN ks [fun k => k.pos.x, fun k => k.pos.y, fun k => k.pos.z] + h * rkMaxErrorN ks [fun k => k.vel.x, fun k => k.vel.y, fun k => k.vel.z]

/-- tracing.c:99 -/
noncomputable def rkAdvanceN (y : NPhase) (ks : List NPhase) : NPhase :=
  y + ((rkCH.zip ks).foldl (fun acc ck => acc + ck.1 * ck.2) (Phase.nums 0))

/-- `a <= v` and `v <= b` for a value `v` [tracing.c:66-71] -/
def between (a : ℝ) (v : Option ℝ) (b : ℝ) : Prop := ∃ x, v = some x ∧ a ≤ x ∧ x ≤ b

/-- tracing.c:68-70: the condition of the loop -/
def inBoundsN (b : Bounds) (p : NV3) : Prop :=
  between b.1.1 p.x b.1.2 ∧ between b.2.1.1 p.y b.2.1.2 ∧ between b.2.2.1 p.z b.2.2.2

/-- A row of `times` and `positions`. [tracing.c:50-112] -/
abbrev NRow := ℝ × NPhase

/-- tracing.c:68-109: the loop of `trace_particle`. The step `h` is always a number here. -/
noncomputable def traceLoopN (field : NPhase → NV3) (bounds : Bounds) (atol hmax : ℝ) (B : Nat) : Nat → List NRow → ℝ → NPhase → ℝ → Option (List NRow)
  | 0, _, _, _, _ => none
  | fuel + 1, rows, t, y, h =>
    open Classical in
    if inBoundsN bounds y.pos then
      let ks := rkStagesN field h y
      let error := rkErrorN h ks
      if error ≤ atol then
        let y' := rkAdvanceN y ks
        let rows' := rows ++ [(t + h, y')]
        if rows'.length = B then some rows'
        else traceLoopN field bounds atol hmax B fuel rows' (t + h) y' (rkNewStep atol error h hmax)
      else traceLoopN field bounds atol hmax B fuel rows t y (rkNewStep atol error h hmax)
    else some rows

/-- `norm_3d` of three values (utilities_3d.c): NaN if one of them is. -/
noncomputable def normN (v : NV3) : Option ℝ :=
  match v.x, v.y, v.z with
  | some x, some y, some z => some (V3.norm ⟨x, y, z⟩)
  | _, _, _ => none

/-- tracing.c:49-112, `trace_particle`. If the particle is at rest the step is infinite, if its velocity is not a number the step is NaN; in both cases `error = max_position_error + h*max_velocity_error` is NaN, no step is ever accepted
and the loop does not end. -/
noncomputable def traceParticleCN (field : NPhase → NV3) (bounds : Bounds) (atol : ℝ) (B : Nat) (fuel : Nat) (start : NRow) : Option (List NRow) :=
  open Classical in
  match normN start.2.vel with
  | none => if inBoundsN bounds start.2.pos then none else some [start]
  | some V =>
    if V = 0 ∧ inBoundsN bounds start.2.pos then none
    else
      let hmax := tracingStepMax / V
      traceLoopN field bounds atol hmax B fuel [start] start.1 start.2 hmax

/-- backend/__init__.py:268-283, as `traceBlocks` -/
def traceBlocksN (fill : NRow → Option (List NRow)) (B : Nat) : Nat → List (List NRow) → NRow → Option (List (List NRow))
  | 0, _, _ => none
  | fuel + 1, acc, start => do
    let rows ← fill start
    let block := if acc.length > 0 then rows.drop 1 else rows
    let acc' := acc ++ [block]
    if rows.length ≠ B then some acc'
    else do
      let last ← block.getLast?
      traceBlocksN fill B fuel acc' last

/-- backend/__init__.py:255-291 and 331-335: `trace_particle` with a function that may return NaN -/
noncomputable def traceParticleN (field : NPhase → NV3) (bounds : Bounds) (atol : ℝ) (B : Nat) (fuel : Nat) (position velocity : V3) : Option (List NRow) := do
  let blocks ← traceBlocksN (traceParticleCN field bounds atol B fuel) B fuel [] (0, Phase.nums ⟨position, velocity⟩)
  match blocks with
  | [b] => some b
  | bs => some bs.flatten

/-! ## The field of charges in three dimensions -/

/-- The point charges that the loop of `field_3d` visits. [three_d.c:64-87] -/
def EffCharges.spots (c : EffCharges V3) : List V3 := (c.charges.zip (c.jacobians.zip c.positions)).flatMap fun x => (x.2.1.zip x.2.2).map (·.2)

/-- three_d.c:64-85, `field_3d`: the derivatives `(x-x0)/(4*M_PI*pow(r, 3))` of the potential of a point charge (three_d_point.c:8-21) are 0/0 in all components at the point charge, and NaN if a coordinate is NaN; then so are the sums. -/
noncomputable def field3dN (p : NV3) (c : EffCharges V3) : NV3 :=
  open Classical in
  if c.spots = [] then V3.nums 0 else
  match p.x, p.y, p.z with
  | some x, some y, some z => if (⟨x, y, z⟩ : V3) ∈ c.spots then nan3 else V3.nums (field3d ⟨x, y, z⟩ c)
  | _, _, _ => nan3

/-- Product and difference of two values. [the arithmetic of tracing.c:373-411] -/
noncomputable def nmul (a b : Option ℝ) : Option ℝ := a.bind fun x => b.map fun y => x * y
@[inherit_doc nmul]
noncomputable def nsub (a b : Option ℝ) : Option ℝ := a.bind fun x => b.map fun y => x - y

/-- utilities_3d.c:84-89, `cross_product_3d` -/
noncomputable def crossN (v w : NV3) : NV3 :=
  ⟨nsub (nmul v.y w.z) (nmul v.z w.y), nsub (nmul v.z w.x) (nmul v.x w.z), nsub (nmul v.x w.y) (nmul v.y w.x)⟩

/-- tracing.c:191-216, `field_3d_traceable` without field bounds, with utilities_3d.c:140-161. -/
noncomputable def force3dN (f : Field3DBEM) (p : NPhase) : NV3 :=
  field3dN p.pos f.elec + crossN p.vel (constMu0 * field3dN p.pos f.mag)

/-! ## Planes -/

/-- tracing.c:384 and 390: NaN if a coordinate is NaN -/
noncomputable def planeKappaN (p0 normal : V3) (p : NV3) : Option ℝ :=
  match p.x, p.y, p.z with
  | some x, some y, some z => some (planeKappa p0 normal ⟨x, y, z⟩)
  | _, _, _ => none

/-- tracing.c:388-408: for NaN the comparison `kappa > 0` is false, and all components of the result are NaN. -/
noncomputable def planeLoopN (p0 normal : V3) : NPhase → List NPhase → Option NPhase
  | _, [] => none
  | prev, p :: rest =>
    open Classical in
    let prevKappa := planeKappaN p0 normal prev.pos
    let kappa := planeKappaN p0 normal p.pos
    let signKappa : Int := if ∃ k, kappa = some k ∧ k > 0 then 1 else -1
    let signPrev : Int := if ∃ k, prevKappa = some k ∧ k > 0 then 1 else -1
    if signKappa ≠ signPrev then
      match kappa, prevKappa with
      | some k, some pk => some ((k / (k - pk)) * prev + (-pk / (k - pk)) * p)
      | _, _ => some ⟨nan3, nan3⟩
    else planeLoopN p0 normal p rest

/-- As `planeIntersection`. [tracing.c:373-411] -/
noncomputable def planeIntersectionN (positions : List NPhase) (p0 normal : V3) : Option NPhase :=
  match positions.reverse with
  | last :: rest => if rest = [] then none else planeLoopN p0 normal last rest
  | [] => none

end Traceon
