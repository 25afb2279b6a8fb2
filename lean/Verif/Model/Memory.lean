import Verif.Spec.Memory

/-!
# Which numbers the back end reads and writes

Every function of the back end that gets arrays, as the list of the uses it makes of them. The offsets follow from the types in the
C code: `double (*)[16][2]` makes `p[i][k][c]` the number at `(i*16 + k)*2 + c`. Decisions that depend on the numbers themselves (floating
point comparisons, the cast of a quotient to an index) are parameters, so that what is proved holds for all of them, also after rounding.
Simplifications: counters are unbounded integers (the C code uses `int`, which suffices for fewer than 2^31 elements); `assert` in C
has no effect (`-DNDEBUG` in setup.py:8); a function that stops the process is taken to go on.
-/
namespace Traceon.Mem

/-- A numpy array: its shape, and the number of numbers in memory from its first number on. The latter exceeds the size of the array if it is
a part of another array, as `v[0, :2]` is. [the arguments of the wrappers, backend/__init__.py:68-260] -/
structure Nd where
  shape : List Nat
  room : Nat

/-- backend/__init__.py:196-200 `ensure_contiguous_aligned`: arrays whose numbers are not stored one after the other are copied, so behind each array there is at least its size. -/
def Nd.Stored (a : Nd) : Prop := a.shape.prod ≤ a.room

/-- an array on its own [used for backend/__init__.py:264-470] -/
def Nd.fresh (shape : List Nat) : Nd := ⟨shape, shape.prod⟩

/-- Python's `len` [used in backend/__init__.py:264-470] -/
def Nd.len (a : Nd) : Option Nat := a.shape.head?

/-- `for(int i = 0; i < n; i++)` [radial.c, radial_ring.c, three_d.c and tracing.c throughout, e.g. radial.c:25, 113] -/
def loop (n : Nat) (f : Int → List Use) : List Use := (List.range n).flatMap fun i : Nat => f (i : Int)

/-- `for(int i = a; i <= b; i++)` [radial_ring.c:107-140, radial.c:263, tracing.c:296] -/
def loopTo (a b : Int) (f : Int → List Use) : List Use := (List.range (b - a + 1).toNat).flatMap fun d : Nat => f (a + (d : Int))

/-- the numbers of an array at the given offsets from `base` [the array types of radial.c:5-8, three_d.c:14-16] -/
def idx (a : Arr) (base : Int) (l : List Int) : List Use := l.map fun i => (a, base + i)

/-- the arrays that are in the back end, by the sizes they are declared with (utilities_2d.c:4-5, utilities_3d.c:7-45, tracing.c:10-18, three_d.c:102, and the local arrays) -/
def own : Arr → Nat
  | .gaussPoints | .gaussWeights => 16
  | .quadB1 | .quadB2 | .quadWeights => 12
  | .factorial | .outputBase | .localA | .localB | .localAdiff | .localBdiff => 4 * 8
  | .localD => 9
  | .localPos | .localTarget | .localNormal | .localField => 3
  | .localY => 6
  | .localYs | .localKs => 6 * 6
  | .rk 0 => 0
  | .rk 1 => 1
  | .rk 2 => 2
  | .rk 3 => 3
  | .rk 4 => 4
  | .rk 5 => 5
  | .ct | .ch => 6
  | _ => 0

/-! ## The C functions -/

/-- utilities_2d.c:50-66 `position_and_jacobian_radial`, the reads of the four vertices: indices 0 and 2 of each -/
def positionAndJacobianRadialC (a : Arr) (v1 v2 v3 v4 : Int) : List Use := idx a v1 [0, 2] ++ idx a v2 [0, 2] ++ idx a v3 [0, 2] ++ idx a v4 [0, 2]

/-- utilities_2d.c:31-48 `higher_order_normal_radial`: the same reads -/
def higherOrderNormalRadialC (a : Arr) (v1 v2 v3 v4 : Int) : List Use := positionAndJacobianRadialC a v1 v2 v3 v4 ++ idx .localNormal 0 [0, 1]

/-- radial.c:105-121 `potential_radial`; the names of the arrays are parameters because the tracer calls it with others -/
def potentialRadialC (q j p : Arr) (N : Nat) : List Use :=
  idx .point 0 [0, 1, 2] ++ loop N fun i => loop 16 fun k => [(p, (i * 16 + k) * 2), (p, (i * 16 + k) * 2 + 1), (q, i), (j, i * 16 + k)]

/-- radial.c:150-173 `field_radial` -/
def fieldRadialC (pt : Arr) (at0 : Int) (out q j p : Arr) (N : Nat) : List Use :=
  idx pt at0 [0, 1, 2] ++ (loop N fun i => loop 16 fun k => [(p, (i * 16 + k) * 2), (q, i), (j, i * 16 + k), (p, (i * 16 + k) * 2 + 1)]) ++ idx out 0 [0, 1, 2]

/-- radial_ring.c:106-119 `axial_derivatives_radial_ring` -/
def axialDerivativesRadialRingC : List Use :=
  idx .localD 0 [0, 1] ++ (loopTo 1 (9 - 2) fun n => idx .localD 0 [n + 1, n, n - 1]) ++ loop 9 fun n => idx .localD 0 [n]

/-- radial_ring.c:121-133 `current_axial_derivatives_radial_ring` -/
def currentAxialDerivativesRadialRingC : List Use :=
  idx .localD 0 [0, 1] ++ loopTo 2 (9 - 1) fun n => idx .localD 0 [n, n - 1, n - 2]

/-- radial.c:18-36 `axial_derivatives_radial` -/
def axialDerivativesRadialC (N Nz : Nat) : List Use :=
  loop Nz fun i => loop N fun j => loop 16 fun k =>
    [(.z, i), (.pos, (j * 16 + k) * 2), (.pos, (j * 16 + k) * 2 + 1)] ++ axialDerivativesRadialRingC ++
    loop 9 fun l => [(.derivs, i * 9 + l), (.jac, j * 16 + k), (.charges, j), (.localD, l)]

/-- radial.c:38-53 `current_potential_axial` -/
def currentPotentialAxialC (N : Nat) : List Use :=
  loop N fun i => loop 12 fun k => [(.charges, i), (.jac, i * 12 + k), (.pos, (i * 12 + k) * 3), (.pos, (i * 12 + k) * 3 + 2)]

/-- radial.c:55-83 `current_field` -/
def currentFieldC (pt : Arr) (at0 : Int) (out q j p : Arr) (N : Nat) : List Use :=
  idx pt at0 [0, 1, 2] ++ (loop N fun i => loop 12 fun k => [(p, (i * 12 + k) * 3), (p, (i * 12 + k) * 3 + 2), (q, i), (j, i * 12 + k)]) ++ idx out 0 [0, 1, 2]

/-- radial.c:85-103 `current_axial_derivatives_radial` -/
def currentAxialDerivativesRadialC (N Nz : Nat) : List Use :=
  loop Nz fun i => loop N fun j => loop 12 fun k =>
    [(.z, i), (.pos, (j * 12 + k) * 3), (.pos, (j * 12 + k) * 3 + 2)] ++ currentAxialDerivativesRadialRingC ++
    loop 9 fun l => [(.derivs, i * 9 + l), (.jac, j * 12 + k), (.charges, j), (.localD, l)]

/-- radial.c:123-148 `charge_radial`: the rows 0, 2, 3 and 1 of the vertices -/
def chargeRadialC : List Use :=
  loop 16 fun k => [(.gaussPoints, k)] ++ positionAndJacobianRadialC .lines 0 (2 * 3) (3 * 3) (1 * 3) ++ idx .localPos 0 [0, 1] ++ [(.gaussWeights, k)]

/-- radial.c:182-196 `self_potential_radial` -/
def selfPotentialRadialC : List Use :=
  positionAndJacobianRadialC .lines 0 (2 * 3) (3 * 3) (1 * 3) ++ idx .localPos 0 [0, 1] ++ positionAndJacobianRadialC .lines 0 (2 * 3) (3 * 3) (1 * 3) ++ idx .localTarget 0 [0, 1]

/-- radial.c:203-222 `self_field_dot_normal_radial` -/
def selfFieldDotNormalRadialC : List Use := selfPotentialRadialC ++ higherOrderNormalRadialC .lines 0 (2 * 3) (3 * 3) (1 * 3)

/-- radial.c:224-246 `fill_jacobian_buffer_radial` -/
def fillJacobianBufferRadialC (N : Nat) : List Use :=
  loop N fun i => loop 16 fun k =>
    [(.gaussPoints, k)] ++ positionAndJacobianRadialC .lines ((i * 4 + 0) * 3) ((i * 4 + 2) * 3) ((i * 4 + 3) * 3) ((i * 4 + 1) * 3) ++
    [(.jac, i * 16 + k), (.gaussWeights, k), (.pos, (i * 16 + k) * 2), (.pos, (i * 16 + k) * 2 + 1)] ++ idx .localPos 0 [0, 1]

/-- What the type of an element makes of its row: a potential, an interface condition, or the message that the type is unknown. [tracing.c:283-366, radial.c:249-310] -/
inductive RowKind | potential | interface | unknown

/-- radial.c:249-310 `fill_matrix_radial` -/
def fillMatrixRadialC (N Nm : Nat) (kind : Int → RowKind) (start stop : Int) : List Use :=
  loopTo start stop fun i =>
    positionAndJacobianRadialC .lines ((i * 4 + 0) * 3) ((i * 4 + 2) * 3) ((i * 4 + 3) * 3) ((i * 4 + 1) * 3) ++ idx .localTarget 0 [0, 1] ++ [(.types, i)] ++
    match kind i with
    | .potential => loop N fun j => loop 16 fun k => [(.pos, (j * 16 + k) * 2), (.pos, (j * 16 + k) * 2 + 1), (.jac, j * 16 + k), (.matrix, i * Nm + j)]
    | .interface => loop N fun j =>
        higherOrderNormalRadialC .lines ((i * 4 + 0) * 3) ((i * 4 + 2) * 3) ((i * 4 + 3) * 3) ((i * 4 + 1) * 3) ++ [(.values, i)] ++
        loop 16 fun k => [(.pos, (j * 16 + k) * 2), (.pos, (j * 16 + k) * 2 + 1), (.jac, j * 16 + k), (.matrix, i * Nm + j)]
    | .unknown => []

/-- three_d.c:34-49 `potential_3d` -/
def potential3dC (N : Nat) : List Use :=
  loop N fun i => loop 12 fun k => idx .point 0 [0, 1, 2] ++ idx .pos ((i * 12 + k) * 3) [0, 1, 2] ++ [(.charges, i), (.jac, i * 12 + k)]

/-- three_d.c:63-85 `field_3d` -/
def field3dC (pt : Arr) (at0 : Int) (out q j p : Arr) (N : Nat) : List Use :=
  (loop N fun i => loop 12 fun k => idx pt at0 [0, 1, 2] ++ idx p ((i * 12 + k) * 3) [0, 1, 2] ++ [(q, i), (j, i * 12 + k)]) ++ idx out 0 [0, 1, 2]

/-- three_d.c:89-198 `axial_coefficients_3d` -/
def axialCoefficients3dC (N Nz : Nat) : List Use :=
  (loop N fun h => loop 12 fun k => loop 8 fun m =>
    [(.pos, (h * 12 + k) * 3), (.pos, (h * 12 + k) * 3 + 1), (.cosB, (h * 12 + k) * 8 + m), (.sinB, (h * 12 + k) * 8 + m)]) ++
  loop Nz fun i => loop N fun h => loop 12 fun k =>
    idx .pos ((h * 12 + k) * 3) [0, 1, 2] ++ [(.z, i)] ++
    loop 4 fun nu => loop 8 fun m =>
      [(.outputBase, nu * 8 + m), (.jac, h * 12 + k), (.cosB, (h * 12 + k) * 8 + m), (.sinB, (h * 12 + k) * 8 + m), (.charges, h), (.factorial, nu * 8 + m),
        (.coeffs, ((i * 2 + 0) * 4 + nu) * 8 + m), (.coeffs, ((i * 2 + 1) * 4 + nu) * 8 + m)]

/-- radial.c:327-329 and three_d.c:212-214, 250-252: the index after the guards, where `raw` is the quotient cast to an integer -/
def guardIndex (raw : Int) (Nz : Nat) : Int := min (max 0 raw) ((Nz : Int) - 1)

/-- radial.c:312-342 `potential_radial_derivs` and radial.c:345-380 `field_radial_derivs`: `within` tells whether `z0 <= z <= zlast`, `raw` is `(int) ((z-z0)/dz)` -/
def radialDerivsC (pt : Arr) (at0 : Int) (c : Arr) (Nz : Nat) (within : Bool) (raw : Int) : List Use :=
  idx pt at0 [0, 1, 2] ++ [(.z, 0), (.z, (Nz : Int) - 1)] ++
  if within then
    [(.z, 1), (.z, 0), (.z, guardIndex raw Nz)] ++
    (loop 9 fun i => [(.localD, i)] ++ idx c ((guardIndex raw Nz * 9 + i) * 6) [0, 1, 2, 3, 4, 5]) ++ idx .localD 0 [0, 1, 2, 3, 4, 5, 6, 7, 8]
  else []

/-- three_d.c:200-237 `potential_3d_derivs` -/
def potential3dDerivsC (pt : Arr) (at0 : Int) (c : Arr) (Nz : Nat) (within : Bool) (raw : Int) : List Use :=
  idx pt at0 [0, 1, 2] ++ [(.z, 0), (.z, (Nz : Int) - 1)] ++
  if within then
    [(.z, 1), (.z, 0), (.z, guardIndex raw Nz)] ++
    loop 4 fun nu => loop 8 fun m =>
      idx c ((((guardIndex raw Nz * 2 + 0) * 4 + nu) * 8 + m) * 4) [0, 1, 2, 3] ++ idx c ((((guardIndex raw Nz * 2 + 1) * 4 + nu) * 8 + m) * 4) [0, 1, 2, 3] ++
      [(.localA, nu * 8 + m), (.localB, nu * 8 + m)]
  else []

/-- three_d.c:239-298 `field_3d_derivs` -/
def field3dDerivsC (pt : Arr) (at0 : Int) (out c : Arr) (Nz : Nat) (within : Bool) (raw : Int) : List Use :=
  potential3dDerivsC pt at0 c Nz within raw ++ idx out 0 [0, 1, 2] ++ loop 4 fun nu => loop 8 fun m => [(.localA, nu * 8 + m), (.localB, nu * 8 + m), (.localAdiff, nu * 8 + m), (.localBdiff, nu * 8 + m)]

/-- three_d.c:300-319 `triangle_areas` -/
def triangleAreasC (N : Nat) : List Use := loop N fun i => idx .tris (i * 9) [0, 1, 2, 3, 4, 5, 6, 7, 8] ++ [(.areas, i)]

/-- tracing.c:253-281 `fill_jacobian_buffer_3d` -/
def fillJacobianBuffer3dC (N : Nat) : List Use :=
  loop N fun i => idx .tris (i * 9) [0, 1, 2, 3, 4, 5, 6, 7, 8] ++
    loop 12 fun k => [(.quadB1, k), (.quadB2, k), (.quadWeights, k), (.jac, i * 12 + k)] ++ idx .pos ((i * 12 + k) * 3) [0, 1, 2]

/-- tracing.c:283-366 `fill_matrix_3d`; `far i j` is the comparison of the distance with the size of the triangle -/
def fillMatrix3dC (N Nm : Nat) (kind : Int → RowKind) (far : Int → Int → Bool) (start stop : Int) : List Use :=
  loopTo start stop fun i =>
    idx .tris (i * 9) [0, 1, 2, 3, 4, 5, 6, 7, 8] ++ idx .localTarget 0 [0, 1, 2] ++ [(.types, i)] ++
    match kind i with
    | .potential => loop N fun j =>
        idx .tris (j * 9) [0, 1, 2] ++ idx .tris (j * 9) [3, 4, 5] ++
        (if i = j then [(.matrix, i * Nm + j)] ++ idx .tris (j * 9) [0, 1, 2, 3, 4, 5, 6, 7, 8] else []) ++
        if i ≠ j ∧ far i j then loop 12 fun k => idx .pos ((j * 12 + k) * 3) [0, 1, 2] ++ [(.jac, j * 12 + k), (.matrix, i * Nm + j)]
        else [(.matrix, i * Nm + j)] ++ idx .tris (j * 9) [0, 1, 2, 3, 4, 5, 6, 7, 8]
    | .interface => idx .localNormal 0 [0, 1, 2] ++ [(.values, i)] ++ loop N fun j =>
        idx .tris (j * 9) [0, 1, 2] ++ idx .tris (j * 9) [3, 4, 5] ++
        if i = j then [(.matrix, i * Nm + j)]
        else if far i j then loop 12 fun k => idx .pos ((j * 12 + k) * 3) [0, 1, 2] ++ [(.jac, j * 12 + k), (.matrix, i * Nm + j)]
        else [(.matrix, i * Nm + j)] ++ idx .tris (j * 9) [0, 1, 2, 3, 4, 5, 6, 7, 8]
    | .unknown => []

/-- tracing.c:386-408, the loop of `plane_intersection`: `crosses i` tells whether the sign changes between row `i` and row `i+1` -/
def planeLoopC (crosses : Nat → Bool) : Nat → List Use
  | 0 => []
  | i + 1 => idx .positions (i * 6) [0, 1, 2] ++ if crosses i then idx .positions ((i + 1 : Int) * 6) [0, 1, 2, 3, 4, 5] ++ idx .positions (i * 6) [0, 1, 2, 3, 4, 5] ++ idx .result 0 [0, 1, 2, 3, 4, 5] else planeLoopC crosses i

/-- tracing.c:372-411 `plane_intersection`: the last row is read first -/
def planeIntersectionC (Np : Nat) (crosses : Nat → Bool) : List Use :=
  idx .p0 0 [0, 1, 2] ++ idx .normal 0 [0, 1, 2] ++ idx .positions (((Np : Int) - 1) * 6) [0, 1, 2] ++ planeLoopC crosses (Np - 1)

/-- tracing.c:20-46 `produce_new_y`, `produce_new_k` with the field function `field` -/
def stageC (field : List Use) (index : Nat) : List Use :=
  (loop 6 fun i => [(.localYs, index * 6 + i), (.localY, i)] ++ loop index fun j => [(.rk index, j), (.localKs, j * 6 + i)]) ++
  field ++ idx .localKs (index * 6) [0, 1, 2, 3, 4, 5] ++ idx .localYs (index * 6) [3, 4, 5] ++ idx .localField 0 [0, 1, 2]

/-- One round of the loop of `trace_particle` (tracing.c:72-95): six stages and the error; `field` are the uses of each evaluation of the field -/
def roundC (field : Nat → List Use) : List Use :=
  ((List.range 6).flatMap fun index => stageC (field index) index) ++ loop 6 fun i => loop 6 fun j => [(.ct, j), (.localKs, j * 6 + i)]

/-- tracing.c:69-112, the loop of `trace_particle`. `inside s`, `accept s` are the decisions in the round `s`, `field s` the uses of the evaluations of the field
in it, `N` the number of rows so far, `B` the size of the block. The first argument bounds the number of rounds. -/
def traceLoopC (B : Nat) (inside accept : Nat → Bool) (field : Nat → Nat → List Use) : Nat → Nat → Nat → List Use
  | 0, _, _ => []
  | fuel + 1, s, N =>
    if inside s then
      roundC (field s) ++
      if accept s then
        (loop 6 fun i => [(.localY, i), (.ch, 0), (.ch, 1), (.ch, 2), (.ch, 3), (.ch, 4), (.ch, 5)] ++ (loop 6 fun j => [(.localKs, j * 6 + i)]) ++
          [(.positions, N * 6 + i), (.times, N), (.times, (N : Int) - 1)]) ++
        if N + 1 = B then [] else traceLoopC B inside accept field fuel (s + 1) (N + 1)
      else traceLoopC B inside accept field fuel (s + 1) N
    else []

/-- tracing.c:49-112 `trace_particle` -/
def traceParticleC (B : Nat) (inside accept : Nat → Bool) (field : Nat → Nat → List Use) (fuel : Nat) : List Use :=
  (loop 6 fun i => [(.localY, i), (.positions, i)]) ++ idx .bounds 0 [0, 1, 2, 3, 4, 5] ++ traceLoopC B inside accept field fuel 0 1

/-- tracing.c:114-148 `field_radial_traceable`; `hasBounds` tells whether field bounds are given, `within` the outcome of the comparison. The point is the row `k` of the stages. -/
def fieldRadialTraceableC (k : Nat) (Ne Nm Nc : Nat) (hasBounds within : Bool) : List Use :=
  (if hasBounds then idx .fieldBounds 0 [0, 1, 2, 3] else []) ++
  if !hasBounds || within then
    fieldRadialC .localYs (k * 6) .localField .eCharges .eJac .ePos Ne ++ fieldRadialC .localYs (k * 6) .localField .mCharges .mJac .mPos Nm ++
    currentFieldC .localYs (k * 6) .localField .cCharges .cJac .cPos Nc ++ idx .localYs (k * 6) [3, 4, 5] ++ idx .localField 0 [0, 1, 2]
  else []

/-- tracing.c:191-216 `field_3d_traceable` -/
def field3dTraceableC (k : Nat) (Ne Nm : Nat) (hasBounds within : Bool) : List Use :=
  (if hasBounds then idx .fieldBounds 0 [0, 1, 2, 3, 4, 5] else []) ++
  if !hasBounds || within then field3dC .localYs (k * 6) .localField .eCharges .eJac .ePos Ne ++ field3dC .localYs (k * 6) .localField .mCharges .mJac .mPos Nm ++ idx .localYs (k * 6) [3, 4, 5] ++ idx .localField 0 [0, 1, 2] else []

/-! ## The Python functions that call them -/

/-- backend/__init__.py:392-400, with `argtypes` -/
def axialDerivativesRadial (z charges jac pos : Nd) : Option Call := do
  let N ← charges.len
  let Nz ← z.len
  guard (jac.shape = [N, 16])
  guard (pos.shape = [N, 16, 2])
  guard (charges.shape = [N])
  guard (z.shape.length = 1)
  return { room := fun | .derivs => (Nd.fresh [Nz, 9]).room | .charges => charges.room | .jac => jac.room | .pos => pos.room | .z => z.room | a => own a
           uses := axialDerivativesRadialC N Nz }

/-- backend/__init__.py:402-406 -/
def potentialRadial (point charges jac pos : Nd) : Option Call := do
  guard (point.shape = [3])
  let N ← charges.len
  guard (jac.shape = [N, 16])
  guard (pos.shape = [N, 16, 2])
  guard (charges.shape.length = 1)
  return { room := fun | .point => point.room | .charges => charges.room | .jac => jac.room | .pos => pos.room | a => own a
           uses := potentialRadialC .charges .jac .pos N }

/-- backend/__init__.py:416-424 -/
def fieldRadial (point charges jac pos : Nd) : Option Call := do
  guard (point.shape = [3])
  let N ← charges.len
  guard (jac.shape = [N, 16])
  guard (pos.shape = [N, 16, 2])
  guard (charges.shape = [N])
  return { room := fun | .point => point.room | .result => (Nd.fresh [3]).room | .charges => charges.room | .jac => jac.room | .pos => pos.room | a => own a
           uses := fieldRadialC .point 0 .result .charges .jac .pos N }

/-- backend/__init__.py:408-410 and 431-436, with the comparison and the cast given -/
def radialDerivs (point z coeffs : Nd) (within : Bool) (raw : Int) : Option Call := do
  guard (point.shape = [3])
  let Nz ← z.len
  guard (1 ≤ Nz ∧ coeffs.shape = [Nz - 1, 9, 6])
  guard (z.shape.length = 1)
  return { room := fun | .point => point.room | .z => z.room | .coeffs => coeffs.room | a => own a
           uses := radialDerivsC .point 0 .coeffs Nz within raw }

/-- backend/__init__.py:412-414; the C function needs no number of vertices, it takes four for granted -/
def chargeRadial (vertices : Nd) : Option Call := do
  let n ← vertices.len
  guard (vertices.shape = [n, 3])
  return { room := fun | .lines => vertices.room | a => own a
           uses := chargeRadialC }

/-- backend/__init__.py:444-457 -/
def axialCoefficients3d (charges jac pos z : Nd) : Option Call := do
  let N ← charges.len
  let Nz ← z.len
  guard (jac.shape = [N, 12])
  guard (pos.shape = [N, 12, 3])
  guard (charges.shape.length = 1)
  guard (z.shape.length = 1)
  return { room := fun | .coeffs => (Nd.fresh [Nz, 2, 4, 8]).room | .cosB | .sinB => (Nd.fresh [N, 12, 8]).room | .charges => charges.room | .jac => jac.room | .pos => pos.room | .z => z.room | a => own a
           uses := axialCoefficients3dC N Nz }

/-- backend/__init__.py:459-466 -/
def potential3d (point charges jac pos : Nd) : Option Call := do
  guard (point.shape = [3])
  let N ← charges.len
  guard (charges.shape = [N])
  guard (jac.shape = [N, 12])
  guard (pos.shape = [N, 12, 3])
  return { room := fun | .point => point.room | .charges => charges.room | .jac => jac.room | .pos => pos.room | a => own a
           uses := potential3dC N }

/-- backend/__init__.py:474-482 -/
def field3d (point charges jac pos : Nd) : Option Call := do
  let N ← charges.len
  guard (point.shape = [3])
  guard (jac.shape = [N, 12])
  guard (pos.shape = [N, 12, 3])
  guard (charges.shape.length = 1)
  return { room := fun | .point => point.room | .result => (Nd.fresh [3]).room | .charges => charges.room | .jac => jac.room | .pos => pos.room | a => own a
           uses := field3dC .point 0 .result .charges .jac .pos N }

/-- backend/__init__.py:468-472 (potential) and 484-489 (field) -/
def derivs3d (isField : Bool) (point z coeffs : Nd) (within : Bool) (raw : Int) : Option Call := do
  let Nz ← z.len
  guard (1 ≤ Nz ∧ coeffs.shape = [Nz - 1, 2, 4, 8, 4])
  guard (point.shape = [3])
  guard (z.shape.length = 1)
  return { room := fun | .point => point.room | .result => (Nd.fresh [3]).room | .z => z.room | .coeffs => coeffs.room | a => own a
           uses := if isField then field3dDerivsC .point 0 .result .coeffs Nz within raw else potential3dDerivsC .point 0 .coeffs Nz within raw }

/-- backend/__init__.py:493-501 -/
def currentPotentialAxial (currents jac pos : Nd) : Option Call := do
  let N ← currents.len
  guard (currents.shape = [N])
  guard (jac.shape = [N, 12])
  guard (pos.shape = [N, 12, 3])
  return { room := fun | .charges => currents.room | .jac => jac.room | .pos => pos.room | a => own a
           uses := currentPotentialAxialC N }

/-- backend/__init__.py:508-519 -/
def currentField (point currents jac pos : Nd) : Option Call := do
  guard (point.shape = [3])
  let N ← currents.len
  guard (currents.shape = [N])
  guard (jac.shape = [N, 12])
  guard (pos.shape = [N, 12, 3])
  return { room := fun | .point => point.room | .result => (Nd.fresh [3]).room | .charges => currents.room | .jac => jac.room | .pos => pos.room | a => own a
           uses := currentFieldC .point 0 .result .charges .jac .pos N }

/-- backend/__init__.py:521-532 -/
def currentAxialDerivativesRadial (z currents jac pos : Nd) : Option Call := do
  let Nz ← z.len
  let N ← currents.len
  guard (z.shape = [Nz])
  guard (currents.shape = [N])
  guard (jac.shape = [N, 12])
  guard (pos.shape = [N, 12, 3])
  return { room := fun | .derivs => (Nd.fresh [Nz, 9]).room | .charges => currents.room | .jac => jac.room | .pos => pos.room | .z => z.room | a => own a
           uses := currentAxialDerivativesRadialC N Nz }

/-- backend/__init__.py:535-545 -/
def fillJacobianBufferRadial (vertices : Nd) : Option Call := do
  let N ← vertices.len
  guard (vertices.shape = [N, 4, 3])
  return { room := fun | .lines => vertices.room | .jac => (Nd.fresh [N, 16]).room | .pos => (Nd.fresh [N, 16, 2]).room | a => own a
           uses := fillJacobianBufferRadialC N }

/-- backend/__init__.py:547-551 (potential) and 556-567 (field); scipy calls the C function for many parameters, each time with these uses -/
def selfRadial (isField : Bool) (vertices : Nd) : Option Call := do
  guard (vertices.shape = [4, 3])
  return { room := fun | .lines => vertices.room | a => own a
           uses := if isField then selfFieldDotNormalRadialC else selfPotentialRadialC }

/-- backend/__init__.py:571-582 -/
def fillMatrixRadial (matrix lines types values jac pos : Nd) (kind : Int → RowKind) (start stop : Int) : Option Call := do
  let N ← lines.len
  guard (matrix.shape = [N, N])
  guard (lines.shape = [N, 4, 3])
  guard (types.shape = [N])
  guard (values.shape = [N])
  guard (jac.shape = [N, 16])
  guard (pos.shape = [N, 16, 2])
  guard (0 ≤ start ∧ start < N ∧ 0 ≤ stop ∧ stop < N ∧ start < stop)
  return { room := fun | .matrix => matrix.room | .lines => lines.room | .types => types.room | .values => values.room | .jac => jac.room | .pos => pos.room | a => own a
           uses := fillMatrixRadialC N N kind start stop }

/-- backend/__init__.py:584-592 -/
def fillJacobianBuffer3d (vertices : Nd) : Option Call := do
  let N ← vertices.len
  guard (vertices.shape = [N, 3, 3])
  return { room := fun | .tris => vertices.room | .jac => (Nd.fresh [N, 12]).room | .pos => (Nd.fresh [N, 12, 3]).room | a => own a
           uses := fillJacobianBuffer3dC N }

/-- backend/__init__.py:596-606 -/
def fillMatrix3d (matrix vertices types values jac pos : Nd) (kind : Int → RowKind) (far : Int → Int → Bool) (start stop : Int) : Option Call := do
  let N ← vertices.len
  guard (matrix.shape = [N, N])
  guard (vertices.shape = [N, 3, 3])
  guard (types.shape = [N])
  guard (values.shape = [N])
  guard (jac.shape = [N, 12])
  guard (pos.shape = [N, 12, 3])
  guard (0 ≤ start ∧ start < N ∧ 0 ≤ stop ∧ stop < N ∧ start ≤ stop)
  return { room := fun | .matrix => matrix.room | .tris => vertices.room | .types => types.room | .values => values.room | .jac => jac.room | .pos => pos.room | a => own a
           uses := fillMatrix3dC N N kind far start stop }

/-- backend/__init__.py:608-619 -/
def planeIntersection (positions p0 normal : Nd) (crosses : Nat → Bool) : Option Call := do
  guard (p0.shape = [3])
  guard (normal.shape = [3])
  let N ← positions.len
  guard (positions.shape = [N, 6])
  return { room := fun | .p0 => p0.room | .normal => normal.room | .positions => positions.room | .result => (Nd.fresh [6]).room | a => own a
           uses := planeIntersectionC N crosses }

/-- backend/__init__.py:621-625 -/
def triangleAreas (triangles : Nd) : Option Call := do
  let N ← triangles.len
  guard (triangles.shape = [N, 3, 3])
  return { room := fun | .tris => triangles.room | .areas => (Nd.fresh [N]).room | a => own a
           uses := triangleAreasC N }

/-- backend/__init__.py:233-237 `higher_order_normal_radial`: for a row of the vertices the slice `vertices[k, :2]` is passed, of shape `(2,)` (checked by `argtypes`), but in the memory of the whole array.
`vertices` is stored by rows with three numbers each, of which the caller (solver.py:261) passes the first two columns. -/
def higherOrderNormalRadial (vertices : Nd) : Option Call := do
  guard (vertices.shape = [4, 3])
  return { room := fun | .v1 => vertices.room | .v2 => vertices.room - 6 | .v3 => vertices.room - 9 | .v4 => vertices.room - 3 | .localNormal => (Nd.fresh [2]).room | a => own a
           uses := idx .v1 0 [0, 2] ++ idx .v2 0 [0, 2] ++ idx .v3 0 [0, 2] ++ idx .v4 0 [0, 2] ++ idx .localNormal 0 [0, 1] }

/-- backend/__init__.py:315-328 `position_and_jacobian_radial`: vectors of two or of three numbers, of which the first two are passed -/
def positionAndJacobianRadial (v1 v2 v3 v4 : Nd) : Option Call := do
  guard ((v1.shape = [2] ∨ v1.shape = [3]) ∧ (v2.shape = [2] ∨ v2.shape = [3]) ∧ (v3.shape = [2] ∨ v3.shape = [3]) ∧ (v4.shape = [2] ∨ v4.shape = [3]))
  return { room := fun | .v1 => v1.room | .v2 => v2.room | .v3 => v3.room | .v4 => v4.room | .localPos => (Nd.fresh [2]).room | a => own a
           uses := idx .v1 0 [0, 2] ++ idx .v2 0 [0, 2] ++ idx .v3 0 [0, 2] ++ idx .v4 0 [0, 2] ++ idx .localPos 0 [0, 1] }

/-- The effective point charges that are handed to the tracer (backend/__init__.py:99-131, solver.py:338-362): what `EffectivePointCharges.__init__` checks -/
structure Eff where
  charges : Nd
  jac : Nd
  pos : Nd

/-- solver.py:343-346: the number of charges and of integration points per charge, or an exception -/
def Eff.check (e : Eff) : Option (Nat × Nat) := do
  let N ← e.charges.len
  let Q ← e.jac.shape[1]?
  guard (e.charges.shape = [N] ∧ e.jac.shape = [N, Q])
  guard (e.pos.shape = [N, Q, 3] ∨ e.pos.shape = [N, Q, 2])
  return (N, Q)

/-- backend/__init__.py:255-291, 337-350 `trace_particle_radial`: the block has the size `B`; `is_2d`, `is_3d` are the only checks of the charges made here -/
def traceParticleRadial (B : Nat) (bounds : Nd) (fieldBounds : Option Nd) (elec mag cur : Eff) (inside accept : Nat → Bool) (within : Nat → Nat → Bool) (fuel : Nat) : Option Call := do
  let (Ne, Qe) ← elec.check
  let (Nm, Qm) ← mag.check
  let (Nc, Qc) ← cur.check
  guard (Qe = 16 ∧ Qm = 16 ∧ Qc = 12)
  guard (bounds.shape = [3, 2])
  guard (∀ b ∈ fieldBounds, b.shape = [3, 2])
  return { room := fun
             | .times => (Nd.fresh [B]).room | .positions => (Nd.fresh [B, 6]).room | .bounds => bounds.room | .fieldBounds => (fieldBounds.map Nd.room).getD 0
             | .eCharges => elec.charges.room | .eJac => elec.jac.room | .ePos => elec.pos.room | .mCharges => mag.charges.room | .mJac => mag.jac.room | .mPos => mag.pos.room
             | .cCharges => cur.charges.room | .cJac => cur.jac.room | .cPos => cur.pos.room | a => own a
           uses := traceParticleC B inside accept (fun s k => fieldRadialTraceableC k Ne Nm Nc fieldBounds.isSome (within s k)) fuel }

/-- backend/__init__.py:366-377 `trace_particle_3d` with the checks of `Field3D_BEM.__init__` (solver.py:858-862) -/
def traceParticle3d (B : Nat) (bounds : Nd) (fieldBounds : Option Nd) (elec mag : Eff) (inside accept : Nat → Bool) (within : Nat → Nat → Bool) (fuel : Nat) : Option Call := do
  let (Ne, _) ← elec.check
  let (Nm, _) ← mag.check
  guard (elec.charges.shape = [Ne] ∧ elec.jac.shape = [Ne, 12] ∧ elec.pos.shape = [Ne, 12, 3])
  guard (mag.charges.shape = [Nm] ∧ mag.jac.shape = [Nm, 12] ∧ mag.pos.shape = [Nm, 12, 3])
  guard (bounds.shape = [3, 2])
  guard (∀ b ∈ fieldBounds, b.shape = [3, 2])
  return { room := fun
             | .times => (Nd.fresh [B]).room | .positions => (Nd.fresh [B, 6]).room | .bounds => bounds.room | .fieldBounds => (fieldBounds.map Nd.room).getD 0
             | .eCharges => elec.charges.room | .eJac => elec.jac.room | .ePos => elec.pos.room | .mCharges => mag.charges.room | .mJac => mag.jac.room | .mPos => mag.pos.room
             | a => own a
           uses := traceParticleC B inside accept (fun s k => field3dTraceableC k Ne Nm fieldBounds.isSome (within s k)) fuel }

/-- backend/__init__.py:352-364 `trace_particle_radial_derivs`; `within`, `raw` are the comparison and the cast in each evaluation -/
def traceParticleRadialDerivs (B : Nat) (bounds z elec mag : Nd) (inside accept : Nat → Bool) (within : Nat → Nat → Bool) (raw : Nat → Nat → Int) (fuel : Nat) : Option Call := do
  let Nz ← z.len
  guard (1 ≤ Nz ∧ elec.shape = [Nz - 1, 9, 6] ∧ mag.shape = [Nz - 1, 9, 6])
  guard (z.shape.length = 1)
  guard (bounds.shape = [3, 2])
  return { room := fun
             | .times => (Nd.fresh [B]).room | .positions => (Nd.fresh [B, 6]).room | .bounds => bounds.room | .z => z.room | .eCoeffs => elec.room | .mCoeffs => mag.room | a => own a
           uses := traceParticleC B inside accept (fun s k => radialDerivsC .localYs (k * 6) .eCoeffs Nz (within s k) (raw s k) ++ radialDerivsC .localYs (k * 6) .mCoeffs Nz (within s k) (raw s k) ++ idx .localYs (k * 6) [3, 4, 5] ++ idx .localField 0 [0, 1, 2]) fuel }

/-- backend/__init__.py:379-387 `trace_particle_3d_derivs` -/
def traceParticle3dDerivs (B : Nat) (bounds z elec mag : Nd) (inside accept : Nat → Bool) (within : Nat → Nat → Bool) (raw : Nat → Nat → Int) (fuel : Nat) : Option Call := do
  let Nz ← z.len
  guard (1 ≤ Nz ∧ elec.shape = [Nz - 1, 2, 4, 8, 4] ∧ mag.shape = [Nz - 1, 2, 4, 8, 4])
  guard (z.shape.length = 1)
  guard (bounds.shape = [3, 2])
  return { room := fun
             | .times => (Nd.fresh [B]).room | .positions => (Nd.fresh [B, 6]).room | .bounds => bounds.room | .z => z.room | .eCoeffs => elec.room | .mCoeffs => mag.room | a => own a
           uses := traceParticleC B inside accept (fun s k => field3dDerivsC .localYs (k * 6) .localField .eCoeffs Nz (within s k) (raw s k) ++ field3dDerivsC .localYs (k * 6) .localField .mCoeffs Nz (within s k) (raw s k) ++ idx .localYs (k * 6) [3, 4, 5]) fuel }

end Traceon.Mem
