import Verif.Model.Vec
import Mathlib.Analysis.SpecialFunctions.Log.Basic
import Mathlib.Analysis.Real.Pi.Bounds
import Mathlib.Tactic.NormNum

/-!
# Model of `EffectivePointCharges` (solver.py:337-395) and of the sums over them in the C back end

`P` is the type of positions: `ℝ × ℝ` in radial symmetry (r and z), `V3` in three dimensions. Arithmetic is exact.
-/
namespace Traceon

/-- solver.py:338-346. `nquad` is `jacobians.shape[1]`, which numpy knows for an empty array too. -/
structure EffCharges (P : Type) where
  nquad : Nat
  charges : List ℝ
  jacobians : List (List ℝ)
  positions : List (List P)

namespace EffCharges
variable {P : Type}

/-- The assertions of solver.py:345-346. -/
def Wf (e : EffCharges P) : Prop :=
  e.jacobians.length = e.charges.length ∧ (∀ row ∈ e.jacobians, row.length = e.nquad) ∧
  e.positions.length = e.charges.length ∧ (∀ row ∈ e.positions, row.length = e.nquad)

/-- solver.py:338-346, the constructor; `none` is a failing assertion. -/
noncomputable def new (nquad : Nat) (charges : List ℝ) (jacobians : List (List ℝ)) (positions : List (List P)) : Option (EffCharges P) :=
  open Classical in
  if (EffCharges.mk nquad charges jacobians positions).Wf then some ⟨nquad, charges, jacobians, positions⟩ else none

/-- `len(...)`, solver.py:364-365 -/
def len (e : EffCharges P) : Nat := e.charges.length

/-- solver.py:348-351; `N_QUAD_2D` is 16 (utilities_2d.c:3) -/
def empty2d : EffCharges P := ⟨16, [], [], []⟩

/-- solver.py:353-356; `N_TRIANGLE_QUAD` is 12 (utilities_3d.c:5) -/
def empty3d : EffCharges P := ⟨12, [], [], []⟩

/-- solver.py:367-374, `__add__`. `np.array_equal` compares shapes as well; `np.concatenate` raises if the shapes do not fit. -/
noncomputable def add (a b : EffCharges P) : Option (EffCharges P) :=
  open Classical in
  if a.nquad = b.nquad ∧ a.positions = b.positions ∧ a.jacobians = b.jacobians then
    new a.nquad (List.zipWith (· + ·) a.charges b.charges) a.jacobians a.positions
  else if a.nquad = b.nquad then
    new a.nquad (a.charges ++ b.charges) (a.jacobians ++ b.jacobians) (a.positions ++ b.positions)
  else none

/-- solver.py:376-380, `__mul__` by a Python int or float. -/
noncomputable def scale (k : ℝ) (e : EffCharges P) : Option (EffCharges P) :=
  new e.nquad (e.charges.map (k * ·)) e.jacobians e.positions

/-- solver.py:382-383, `__neg__`: `-1*self`, which is `__rmul__` (385-386). -/
noncomputable def neg (e : EffCharges P) : Option (EffCharges P) := scale (-1) e

/-- The double loop common to `potential_3d` (three_d.c:34-48), `potential_radial` (radial.c:105-121) and `current_potential_axial` (radial.c:38-53):
`sum_ += charges[i] * jacobian_buffer[i][k] * f(position_buffer[i][k])`. -/
noncomputable def loop (e : EffCharges P) (f : P → ℝ) : ℝ :=
  (e.charges.zip (e.jacobians.zip e.positions)).foldl
    (fun s x => (x.2.1.zip x.2.2).foldl (fun s y => s + x.1 * y.1 * f y.2) s) 0

/-- The same loop with `-=` (`field_3d`, three_d.c:63-86, `field_radial`, radial.c:150-173). -/
noncomputable def loopSub (e : EffCharges P) (f : P → ℝ) : ℝ :=
  (e.charges.zip (e.jacobians.zip e.positions)).foldl
    (fun s x => (x.2.1.zip x.2.2).foldl (fun s y => s - x.1 * y.1 * f y.2) s) 0

end EffCharges

/-! ## Point charges (three_d_point.c) -/

/-- three_d_point.c:3-6, `potential_3d_point`; first the target, then the source. (For coinciding points the code divides by zero.) -/
noncomputable def potential3dPoint (p q : V3) : ℝ := 1 / (4 * Real.pi * V3.norm (q - p))

/-- three_d_point.c:8-21, `dx1_potential_3d_point`, `dy1_…`, `dz1_…` -/
noncomputable def dx1Potential3dPoint (p q : V3) : ℝ := (q.x - p.x) / (4 * Real.pi * V3.norm (q - p) ^ 3)
@[inherit_doc dx1Potential3dPoint]
noncomputable def dy1Potential3dPoint (p q : V3) : ℝ := (q.y - p.y) / (4 * Real.pi * V3.norm (q - p) ^ 3)
@[inherit_doc dx1Potential3dPoint]
noncomputable def dz1Potential3dPoint (p q : V3) : ℝ := (q.z - p.z) / (4 * Real.pi * V3.norm (q - p) ^ 3)

/-- three_d.c:34-48, `potential_3d` -/
noncomputable def potential3d (p : V3) (e : EffCharges V3) : ℝ := e.loop (potential3dPoint p)

/-- three_d.c:63-86, `field_3d` -/
noncomputable def field3d (p : V3) (e : EffCharges V3) : V3 :=
  ⟨e.loopSub (dx1Potential3dPoint p), e.loopSub (dy1Potential3dPoint p), e.loopSub (dz1Potential3dPoint p)⟩

/-- three_d.c:51-61, `field_dot_normal_3d` -/
noncomputable def fieldDotNormal3d (p q n : V3) : ℝ :=
  n.x * -dx1Potential3dPoint p q + n.y * -dy1Potential3dPoint p q + n.z * -dz1Potential3dPoint p q

/-- radial_ring.c:4-18, `flux_density_to_charge_factor` -/
noncomputable def fluxDensityToChargeFactor (K : ℝ) : ℝ := 2 * (K - 1) / (1 + K)

/-! ## Elliptic integrals (elliptic.c) and rings (radial_ring.c) -/

/-- `sum_ += (A[i] + L*B[i])*pow(p, i)`, elliptic.c:31-32, 65-66 -/
noncomputable def chebSum (p L : ℝ) (ab : List (ℝ × ℝ)) : ℝ :=
  ((List.range ab.length).zip ab).foldl (fun s t => s + (t.2.1 + L * t.2.2) * p ^ t.1) 0

/-- elliptic.c:9-35, `ellipkm1` -/
noncomputable def ellipkm1 (p : ℝ) : ℝ := chebSum p (Real.log (1 / p))
  [(Real.log 4, 1 / 2), (9.65736020516771e-2, 1.24999998585309e-1), (3.08909633861795e-2, 7.03114105853296e-2),
   (1.52618320622534e-2, 4.87379510945218e-2), (1.25565693543211e-2, 3.57218443007327e-2), (1.68695685967517e-2, 2.09857677336790e-2),
   (1.09423810688623e-2, 5.81807961871996e-3), (1.40704915496101e-3, 3.42805719229748e-4)]

/-- elliptic.c:37-41, `ellipk` (with `sqrt(k)` where `sqrt(1-k)` was meant) -/
noncomputable def ellipk (k : ℝ) : ℝ := if -1 < k then ellipkm1 (1 - k) else ellipkm1 (1 / (1 - k)) / Real.sqrt k

/-- elliptic.c:43-69, `ellipem1` -/
noncomputable def ellipem1 (p : ℝ) : ℝ := chebSum p (Real.log (1 / p))
  [(1, 0), (4.43147193467733e-1, 2.49999998448655e-1), (5.68115681053803e-2, 9.37488062098189e-2),
   (2.21862206993846e-2, 5.84950297066166e-2), (1.56847700239786e-2, 4.09074821593164e-2), (1.92284389022977e-2, 2.35091602564984e-2),
   (1.21819481486695e-2, 6.45682247315060e-3), (1.55618744745296e-3, 3.78886487349367e-4)]

/-- elliptic.c:71-75, `ellipe` -/
noncomputable def ellipe (k : ℝ) : ℝ :=
  if 0 ≤ k ∧ k ≤ 1 then ellipem1 (1 - k) else ellipem1 (-1 / (k - 1)) * Real.sqrt (1 - k)

/-- `norm_2d`, utilities_2d.c:7-10 -/
noncomputable def norm2d (x y : ℝ) : ℝ := Real.sqrt (x * x + y * y)

/-- `MIN_DISTANCE_AXIS`, three_d.c:2 -/
noncomputable def minDistanceAxis : ℝ := 1e-10

/-- radial_ring.c:21-34, `dr1_potential_radial_ring`, in terms of the functions used for the elliptic integrals. -/
noncomputable def dr1RingWith (K E : ℝ → ℝ) (r0 z0 r z : ℝ) : ℝ :=
  if r0 < minDistanceAxis then 0 else
    let dr := r - r0
    let dz := z - z0
    let c := (dz * dz + dr * dr) / (4 * r * r - 4 * dr * r + dz * dz + dr * dr)
    let den := ((-2 * dr * dr * r) + dz * dz * (2 * dr - 2 * r) + 2 * dr * dr * dr) *
      Real.sqrt (4 * r * r - 4 * dr * r + dz * dz + dr * dr)
    let kt := (dz * dz * r + dr * dr * r) * K c
    let et := ((-2 * dr * r * r) - dz * dz * r + dr * dr * r) * E c
    1 / Real.pi * (kt + et) / den

/-- radial_ring.c:36-41, `potential_radial_ring`, in terms of the function used for the elliptic integral. -/
noncomputable def potentialRingWith (K : ℝ → ℝ) (r0 z0 r z : ℝ) : ℝ :=
  let dz := z - z0
  let dr := r - r0
  let t := (dz ^ 2 + dr ^ 2) / (dz ^ 2 + dr ^ 2 + 4 * r0 * dr + 4 * r0 ^ 2)
  1 / Real.pi * K t * (dr + r0) / Real.sqrt (dz ^ 2 + (dr + 2 * r0) ^ 2)

/-- radial_ring.c:43-50, `dz1_potential_radial_ring`, in terms of the function used for the elliptic integral. -/
noncomputable def dz1RingWith (E : ℝ → ℝ) (r0 z0 r z : ℝ) : ℝ :=
  let dz := z - z0
  let dr := r - r0
  let c := (dz * dz + dr * dr) / (4 * r0 * r0 + 4 * dr * r0 + dz * dz + dr * dr)
  let den := (dz * dz + dr * dr) * Real.sqrt (4 * r0 * r0 + 4 * dr * r0 + dz * dz + dr * dr)
  let et := -dz * (r0 + dr) * E c
  1 / Real.pi * -et / den

/-- radial_ring.c:21-34, `dr1_potential_radial_ring` -/
noncomputable def dr1PotentialRadialRing (r0 z0 r z : ℝ) : ℝ := dr1RingWith ellipkm1 ellipem1 r0 z0 r z

/-- radial_ring.c:36-41, `potential_radial_ring` -/
noncomputable def potentialRadialRing (r0 z0 r z : ℝ) : ℝ := potentialRingWith ellipkm1 r0 z0 r z

/-- radial_ring.c:43-50, `dz1_potential_radial_ring` -/
noncomputable def dz1PotentialRadialRing (r0 z0 r z : ℝ) : ℝ := dz1RingWith ellipem1 r0 z0 r z

/-- radial_ring.c:75-104, `current_field_radial_ring`, in terms of the functions used for the elliptic integrals (of the parameter `k`). -/
noncomputable def currentFieldRingWith (K E : ℝ → ℝ) (x0 y0 x y : ℝ) : ℝ × ℝ :=
  let a := x
  let r := x0
  let z := y0 - y
  let A := z ^ 2 + (a + r) ^ 2
  let B := z ^ 2 + (r - a) ^ 2
  let k := 4 * r * a / A
  if x < minDistanceAxis then (0, 0)
  else
    (if x0 < minDistanceAxis then 0
     else 1 / Real.pi * z / (2 * r * Real.sqrt A) * ((z ^ 2 + r ^ 2 + a ^ 2) / B * E k - K k),
     1 / Real.pi * 1 / (2 * Real.sqrt A) * ((a ^ 2 - z ^ 2 - r ^ 2) / B * E k + K k))

/-- radial_ring.c:75-104, `current_field_radial_ring` -/
noncomputable def currentFieldRadialRing (x0 y0 x y : ℝ) : ℝ × ℝ := currentFieldRingWith ellipk ellipe x0 y0 x y

/-- radial.c:105-121, `potential_radial` -/
noncomputable def potentialRadial (p : V3) (e : EffCharges (ℝ × ℝ)) : ℝ :=
  e.loop (fun q => potentialRadialRing (norm2d p.x p.y) p.z q.1 q.2)

/-- The end of `field_radial` (radial.c:164-172) and of `current_field` (radial.c:74-82): from radial and axial components to a vector. -/
noncomputable def fromRadial (p : V3) (er ez : ℝ) : V3 :=
  if minDistanceAxis ≤ norm2d p.x p.y then ⟨p.x / norm2d p.x p.y * er, p.y / norm2d p.x p.y * er, ez⟩ else ⟨0, 0, ez⟩

/-- radial.c:150-173, `field_radial` -/
noncomputable def fieldRadial (p : V3) (e : EffCharges (ℝ × ℝ)) : V3 :=
  fromRadial p (e.loopSub (fun q => dr1PotentialRadialRing (norm2d p.x p.y) p.z q.1 q.2))
    (e.loopSub (fun q => dz1PotentialRadialRing (norm2d p.x p.y) p.z q.1 q.2))

/-- radial.c:55-83, `current_field`. The assertions `pos[1] == 0.` (also backend/__init__.py:514) hold for meshes in the xz-plane. -/
noncomputable def currentField (p : V3) (e : EffCharges V3) : V3 :=
  fromRadial p (e.loop (fun q => (currentFieldRadialRing (norm2d p.x p.y) p.z q.x q.z).1))
    (e.loop (fun q => (currentFieldRadialRing (norm2d p.x p.y) p.z q.x q.z).2))

end Traceon
