import Verif.Spec.Rounding
import Verif.Model.Charges
import Verif.Model.Axial

/-!
# Potentials and fields of point charges as they are computed with doubles

The formulas of three_d_point.c, three_d.c and radial_ring.c as expressions, so that every operation in them can be rounded. The order of the summation is left open, because the back end is compiled with `-ffast-math`
(setup.py:8), which allows the compiler to change it. Simplification: no overflow and no underflow; other rearrangements that `-ffast-math` allows are not covered.
-/
namespace Traceon.Fp
open Expr

/-- utilities_3d.c `norm_3d` -/
def norm3dE (x y z : Expr) : Expr := sqrt (add (add (mul x x) (mul y y)) (mul z z))

/-- three_d_point.c:3-6: `norm_3d(x-x0, y-y0, z-z0)` -/
def distanceE (p q : V3) : Expr := norm3dE (sub (input q.x) (input p.x)) (sub (input q.y) (input p.y)) (sub (input q.z) (input p.z))

/-- three_d_point.c:3-6 `potential_3d_point` -/
noncomputable def potential3dPointE (p q : V3) : Expr := div (input 1) (mul (mul (input 4) (const Real.pi)) (distanceE p q))

/-- three_d_point.c:8-21 `dx1_potential_3d_point` and the like, with `pow(r, 3)` -/
noncomputable def d1Potential3dPointE (c : V3 → ℝ) (p q : V3) : Expr :=
  div (sub (input (c q)) (input (c p))) (mul (mul (input 4) (const Real.pi)) (pow (distanceE p q) 3))

/-- `charges[i] * jacobian_buffer[i][k] * f` [three_d.c:45, radial.c:117] -/
def termE (q j : ℝ) (f : Expr) : Expr := mul (mul (input q) (input j)) f

/-- All integration points, with the charge and the Jacobian that belong to them, in the order of the loops. [three_d.c:39-41, radial.c:112-113] -/
def points {P : Type} (e : EffCharges P) : List (ℝ × ℝ × P) :=
  (e.charges.zip (e.jacobians.zip e.positions)).flatMap fun x => (x.2.1.zip x.2.2).map fun y => (x.1, y.1, y.2)

/-- The values that may be computed by a loop `sum_ += t`, with the terms `t` given by expressions; at most `d` additions for every term [three_d.c:39-47, radial.c:112-119] -/
def LoopR (u : ℝ) (d : Nat) (ts : List Expr) (v : ℝ) : Prop := ∃ vs, List.Forall₂ (Rounded u) ts vs ∧ AnySum u d vs v

/-- three_d.c:34-49 `potential_3d` -/
noncomputable def Potential3dR (u : ℝ) (d : Nat) (p : V3) (e : EffCharges V3) : ℝ → Prop :=
  LoopR u d ((points e).map fun x => termE x.1 x.2.1 (potential3dPointE p x.2.2))

/-- three_d.c:63-85 `field_3d`: `Ex -= …` -/
noncomputable def Field3dR (u : ℝ) (d : Nat) (p : V3) (e : EffCharges V3) (v : V3) : Prop :=
  LoopR u d ((points e).map fun x => neg (termE x.1 x.2.1 (d1Potential3dPointE V3.x p x.2.2))) v.x ∧
  LoopR u d ((points e).map fun x => neg (termE x.1 x.2.1 (d1Potential3dPointE V3.y p x.2.2))) v.y ∧
  LoopR u d ((points e).map fun x => neg (termE x.1 x.2.1 (d1Potential3dPointE V3.z p x.2.2))) v.z

/-- utilities_2d.c:7-10 `norm_2d` -/
def norm2dE (x y : ℝ) : Expr := sqrt (add (mul (input x) (input x)) (mul (input y) (input y)))

/-- elliptic.c:10-26: the coefficients `A[i]`, `B[i]` -/
noncomputable def coeffsKm1 : List (Expr × Expr) :=
  [(log (input 4), div (input 1) (input 2)), (const 9.65736020516771e-2, const 1.24999998585309e-1), (const 3.08909633861795e-2, const 7.03114105853296e-2),
   (const 1.52618320622534e-2, const 4.87379510945218e-2), (const 1.25565693543211e-2, const 3.57218443007327e-2), (const 1.68695685967517e-2, const 2.09857677336790e-2),
   (const 1.09423810688623e-2, const 5.81807961871996e-3), (const 1.40704915496101e-3, const 3.42805719229748e-4)]

/-- elliptic.c:9-35 `ellipkm1`. `p` and `L` are computed once in the code; here each use of them may be rounded differently, which includes that. The eight terms are added in the order of the code. -/
noncomputable def ellipkm1E (p : Expr) : Expr :=
  (((List.range coeffsKm1.length).zip coeffsKm1).map fun t => mul (add t.2.1 (mul (log (div (input 1) p)) t.2.2)) (pow p t.1)).foldl add (input 0)

/-- radial_ring.c:36-41 `potential_radial_ring` -/
noncomputable def potentialRingE (r0 : Expr) (z0 r z : ℝ) : Expr :=
  let dz := sub (input z) (input z0)
  let dr := sub (input r) r0
  let t := div (add (pow dz 2) (pow dr 2)) (add (add (add (pow dz 2) (pow dr 2)) (mul (mul (input 4) r0) dr)) (mul (input 4) (pow r0 2)))
  div (mul (mul (div (input 1) (const Real.pi)) (ellipkm1E t)) (add dr r0)) (sqrt (add (pow dz 2) (pow (add dr (mul (input 2) r0)) 2)))

/-- radial.c:105-121 `potential_radial` -/
noncomputable def PotentialRadialR (u : ℝ) (d : Nat) (p : V3) (e : EffCharges (ℝ × ℝ)) : ℝ → Prop :=
  LoopR u d ((points e).map fun x => termE x.1 x.2.1 (potentialRingE (norm2dE p.x p.y) p.z x.2.2.1 x.2.2.2))

/-- radial_ring.c:70-73 `current_potential_axial_radial_ring` -/
def currentPotentialAxialE (z0 r z : ℝ) : Expr :=
  let dz := sub (input z0) (input z)
  div (neg dz) (mul (input 2) (sqrt (add (mul dz dz) (mul (input r) (input r)))))

/-- radial.c:38-53 `current_potential_axial` -/
def CurrentPotentialAxialR (u : ℝ) (d : Nat) (z0 : ℝ) (e : EffCharges V3) : ℝ → Prop :=
  LoopR u d ((points e).map fun x => termE x.1 x.2.1 (currentPotentialAxialE z0 x.2.2.x x.2.2.z))

end Traceon.Fp
