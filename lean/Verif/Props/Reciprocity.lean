import Verif.Spec.Reciprocity

/-!
# C115: charges act on each other equally
-/
namespace Traceon
open Spec

/-- The quadrature points with their charges. -/
noncomputable def weighted {P : Type} (e : EffCharges P) : List (ℝ × P) :=
  (e.charges.zip (e.jacobians.zip e.positions)).flatMap fun x => (x.2.1.zip x.2.2).map fun y => (x.1 * y.1, y.2)

theorem superpose_weighted {P : Type} (f : P → ℝ) (e : EffCharges P) : superpose f e = ((weighted e).map fun w => w.1 * f w.2).sum := by
  unfold superpose weighted
  induction e.charges.zip (e.jacobians.zip e.positions) with
  | nil => simp
  | cons a l ih =>
    simp only [List.map_cons, List.sum_cons, List.flatMap_cons, List.map_append, List.sum_append, ih, List.map_map]
    rfl

theorem mem_weighted {P : Type} {e : EffCharges P} {w : ℝ × P} (h : w ∈ weighted e) : ∃ row ∈ e.positions, w.2 ∈ row := by
  unfold weighted at h
  obtain ⟨x, hx, hw⟩ := List.mem_flatMap.1 h
  obtain ⟨y, hy, rfl⟩ := List.mem_map.1 hw
  exact ⟨x.2.2, (List.of_mem_zip (List.of_mem_zip hx).2).2, (List.of_mem_zip hy).2⟩

theorem sum_swap {α β : Type} (l : List α) (m : List β) (F : α → β → ℝ) :
    (l.map fun a => (m.map fun b => F a b).sum).sum = (m.map fun b => (l.map fun a => F a b).sum).sum := by
  induction l with
  | nil => simp
  | cons a l ih => simp [ih, List.sum_map_add]

/-- The two orders of summation over pairs of points. -/
theorem superpose_swap {P Q : Type} (A : EffCharges P) (B : EffCharges Q) (k : Q → P → ℝ) (k' : P → Q → ℝ)
    (h : ∀ ra ∈ A.positions, ∀ a ∈ ra, ∀ rb ∈ B.positions, ∀ b ∈ rb, k b a = k' a b) :
    superpose (fun b => superpose (k b) A) B = superpose (fun a => superpose (k' a) B) A := by
  simp only [superpose_weighted]
  have e1 : ∀ b : ℝ × Q, b.1 * ((weighted A).map fun a => a.1 * k b.2 a.2).sum = ((weighted A).map fun a => b.1 * (a.1 * k b.2 a.2)).sum := fun b => (List.sum_map_mul_left ..).symm
  have e2 : ∀ a : ℝ × P, a.1 * ((weighted B).map fun b => b.1 * k' a.2 b.2).sum = ((weighted B).map fun b => a.1 * (b.1 * k' a.2 b.2)).sum := fun a => (List.sum_map_mul_left ..).symm
  simp only [e1, e2]
  rw [sum_swap]
  congr 1
  refine List.map_congr_left fun a ha => ?_
  congr 1
  refine List.map_congr_left fun b hb => ?_
  obtain ⟨ra, ha1, ha2⟩ := mem_weighted ha
  obtain ⟨rb, hb1, hb2⟩ := mem_weighted hb
  rw [h ra ha1 a.2 ha2 rb hb1 b.2 hb2]
  ring

theorem superpose_mul {P : Type} (c : ℝ) (f : P → ℝ) (e : EffCharges P) : c * superpose f e = superpose (fun q => c * f q) e := by
  simp only [superpose_weighted]
  rw [← List.sum_map_mul_left]
  congr 1
  exact List.map_congr_left fun w _ => by ring

theorem superpose_add' {P : Type} (f g : P → ℝ) (e : EffCharges P) : superpose f e + superpose g e = superpose (fun q => f q + g q) e := by
  simp only [superpose_weighted]
  rw [← List.sum_map_add]
  congr 1
  exact List.map_congr_left fun w _ => by ring

theorem superpose_neg' {P : Type} (f : P → ℝ) (e : EffCharges P) : -superpose f e = superpose (fun q => -f q) e := by
  have := superpose_mul (-1) f e
  simpa using this

theorem superpose_sub' {P : Type} (f g : P → ℝ) (e : EffCharges P) : superpose f e - superpose g e = superpose (fun q => f q - g q) e := by
  rw [sub_eq_add_neg, superpose_neg', superpose_add']
  rfl

/-! ## Three dimensions -/

theorem norm_flip (p q : V3) : V3.norm (q - p) = V3.norm (p - q) := by
  unfold V3.norm V3.dot
  congr 1
  simp only [V3.sub_x, V3.sub_y, V3.sub_z]
  ring

theorem potential_flip (p q : V3) : potential3dPoint p q = potential3dPoint q p := by
  unfold potential3dPoint; rw [norm_flip]

theorem field3d_eq (p : V3) (e : EffCharges V3) : field3d p e =
    ⟨superpose (fun q => (p.x - q.x) / (4 * Real.pi * V3.norm (p - q) ^ 3)) e, superpose (fun q => (p.y - q.y) / (4 * Real.pi * V3.norm (p - q) ^ 3)) e,
      superpose (fun q => (p.z - q.z) / (4 * Real.pi * V3.norm (p - q) ^ 3)) e⟩ := by
  unfold field3d
  simp only [EffCharges.loopSub_eq, superpose_neg']
  ext <;> simp only <;> congr 1 <;> funext q
  · unfold dx1Potential3dPoint; rw [norm_flip]; ring
  · unfold dy1Potential3dPoint; rw [norm_flip]; ring
  · unfold dz1Potential3dPoint; rw [norm_flip]; ring

/-- **C115**, three dimensions: the energy of the one charges in the potential of the others is that of the others in the potential of the one. -/
theorem C115_energy (f g : Field3DBEM) :
    energyIn (fun p => ((PyObj.threeD f).electrostaticPotential p).getD 0) g.elec = energyIn (fun p => ((PyObj.threeD g).electrostaticPotential p).getD 0) f.elec ∧
    energyIn (fun p => ((PyObj.threeD f).magnetostaticPotential p).getD 0) g.mag = energyIn (fun p => ((PyObj.threeD g).magnetostaticPotential p).getD 0) f.mag := by
  have key : ∀ A B : EffCharges V3, energyIn (fun p => potential3d p A) B = energyIn (fun p => potential3d p B) A := by
    intro A B
    unfold energyIn potential3d
    simp only [EffCharges.loop_eq]
    exact superpose_swap A B _ _ fun ra _ a _ rb _ b _ => potential_flip b a
  exact ⟨key _ _, key _ _⟩

theorem force_flip (A B : EffCharges V3) : forceOn (fun p => field3d p A) B = -forceOn (fun p => field3d p B) A := by
  unfold forceOn
  simp only [field3d_eq]
  ext <;> simp only [V3.neg_x, V3.neg_y, V3.neg_z, superpose_neg'] <;>
    refine superpose_swap A B _ _ fun ra _ a _ rb _ b _ => ?_ <;> rw [norm_flip] <;> ring

theorem torque_flip (A B : EffCharges V3) : torqueOn (fun p => field3d p A) B = -torqueOn (fun p => field3d p B) A := by
  unfold torqueOn forceOn
  simp only [field3d_eq, V3.cross]
  ext <;> simp only [V3.neg_x, V3.neg_y, V3.neg_z, superpose_neg', superpose_mul, superpose_sub'] <;>
    refine superpose_swap A B _ _ fun ra _ a _ rb _ b _ => ?_ <;> rw [norm_flip a b] <;> ring

/-- **C115**, three dimensions: action equals reaction. The force, and the torque, on the one charges in the field of the others is the opposite of that on the others in the field of the one. -/
theorem C115_force (f g : Field3DBEM) :
    (forceOn (fun p => ((PyObj.threeD f).electrostaticField p).getD 0) g.elec = -forceOn (fun p => ((PyObj.threeD g).electrostaticField p).getD 0) f.elec ∧
     torqueOn (fun p => ((PyObj.threeD f).electrostaticField p).getD 0) g.elec = -torqueOn (fun p => ((PyObj.threeD g).electrostaticField p).getD 0) f.elec) ∧
    forceOn (fun p => ((PyObj.threeD f).magnetostaticField p).getD 0) g.mag = -forceOn (fun p => ((PyObj.threeD g).magnetostaticField p).getD 0) f.mag ∧
    torqueOn (fun p => ((PyObj.threeD f).magnetostaticField p).getD 0) g.mag = -torqueOn (fun p => ((PyObj.threeD g).magnetostaticField p).getD 0) f.mag :=
  ⟨⟨force_flip _ _, torque_flip _ _⟩, force_flip _ _, torque_flip _ _⟩

/-! ## Radial symmetry -/

theorem norm2d_axis {r : ℝ} (hr : 0 ≤ r) : norm2d r 0 = r := by
  unfold norm2d
  rw [mul_zero, add_zero, Real.sqrt_mul_self hr]

/-- A ring of radius `a` in the potential of one of radius `b`, and the reverse. -/
theorem ring_flip (K : ℝ → ℝ) (a y b z : ℝ) : a * potentialRingWith K a y b z = b * potentialRingWith K b z a y := by
  unfold potentialRingWith
  have e1 : ((z - y) ^ 2 + (b - a) ^ 2 + 4 * a * (b - a) + 4 * a ^ 2) = ((y - z) ^ 2 + (a - b) ^ 2 + 4 * b * (a - b) + 4 * b ^ 2) := by ring
  have e2 : (z - y) ^ 2 + (b - a) ^ 2 = (y - z) ^ 2 + (a - b) ^ 2 := by ring
  have e3 : (z - y) ^ 2 + (b - a + 2 * a) ^ 2 = (y - z) ^ 2 + (a - b + 2 * b) ^ 2 := by ring
  simp only
  rw [e1, e2, e3]
  ring

theorem ring_force_flip (E : ℝ → ℝ) (a y b z : ℝ) : a * dz1RingWith E a y b z = -(b * dz1RingWith E b z a y) := by
  unfold dz1RingWith
  have e1 : 4 * a * a + 4 * (b - a) * a + (z - y) * (z - y) + (b - a) * (b - a) = 4 * b * b + 4 * (a - b) * b + (y - z) * (y - z) + (a - b) * (a - b) := by ring
  have e2 : (z - y) * (z - y) + (b - a) * (b - a) = (y - z) * (y - z) + (a - b) * (a - b) := by ring
  simp only
  rw [e1, e2]
  ring

theorem loop_force_flip (K E : ℝ → ℝ) (a y b z : ℝ) : a * (currentFieldRingWith K E a y b z).1 = -(b * (currentFieldRingWith K E b z a y).1) := by
  unfold currentFieldRingWith
  have e1 : (y - z) ^ 2 + (b + a) ^ 2 = (z - y) ^ 2 + (a + b) ^ 2 := by ring
  have e2 : (y - z) ^ 2 + (a - b) ^ 2 = (z - y) ^ 2 + (b - a) ^ 2 := by ring
  have e3 : 4 * a * b = 4 * b * a := by ring
  have e4 : (y - z) ^ 2 + a ^ 2 + b ^ 2 = (z - y) ^ 2 + b ^ 2 + a ^ 2 := by ring
  simp only
  rw [e1, e2, e3, e4]
  by_cases ha : a < minDistanceAxis <;> by_cases hb : b < minDistanceAxis <;> simp only [ha, hb, if_true, if_false, mul_zero, neg_zero]
  have hm : (0 : ℝ) < minDistanceAxis := by unfold minDistanceAxis; norm_num
  have ha' : a ≠ 0 := by intro h; rw [h] at ha; exact ha hm
  have hb' : b ≠ 0 := by intro h; rw [h] at hb; exact hb hm
  generalize E (4 * b * a / ((z - y) ^ 2 + (a + b) ^ 2)) = e
  generalize K (4 * b * a / ((z - y) ^ 2 + (a + b) ^ 2)) = k
  generalize Real.sqrt ((z - y) ^ 2 + (a + b) ^ 2) = s
  generalize ((z - y) ^ 2 + b ^ 2 + a ^ 2) / ((z - y) ^ 2 + (b - a) ^ 2) * e - k = m
  have : a * (1 / Real.pi * (y - z) / (2 * a * s) * m) = (y - z) * (1 / Real.pi / (2 * s) * m) := by
    by_cases hs : s = 0
    · subst hs; simp
    · field_simp
  rw [this]
  have : b * (1 / Real.pi * (z - y) / (2 * b * s) * m) = (z - y) * (1 / Real.pi / (2 * s) * m) := by
    by_cases hs : s = 0
    · subst hs; simp
    · field_simp
  rw [this]
  ring

/-- **C115**, radial symmetry: the energy of the one charged rings in the potential of the others. The rings of both fields are at or to the right of the axis. -/
theorem C115_rings_energy (f g : FieldRadialBEM) :
    (RightOfAxis f.elec → RightOfAxis g.elec →
      ringsEnergyIn (fun p => ((PyObj.radial f).electrostaticPotential p).getD 0) g.elec = ringsEnergyIn (fun p => ((PyObj.radial g).electrostaticPotential p).getD 0) f.elec) ∧
    (RightOfAxis f.mag → RightOfAxis g.mag →
      ringsEnergyIn (fun p => ((PyObj.radial f).magnetostaticPotential p).getD 0) g.mag = ringsEnergyIn (fun p => ((PyObj.radial g).magnetostaticPotential p).getD 0) f.mag) := by
  have key : ∀ A B : EffCharges (ℝ × ℝ), RightOfAxis A → RightOfAxis B → ringsEnergyIn (fun p => potentialRadial p A) B = ringsEnergyIn (fun p => potentialRadial p B) A := by
    intro A B hA hB
    unfold ringsEnergyIn potentialRadial
    simp only [EffCharges.loop_eq, superpose_mul]
    refine superpose_swap A B _ _ fun ra h1 a h2 rb h3 b h4 => ?_
    rw [norm2d_axis (hA ra h1 a h2), norm2d_axis (hB rb h3 b h4)]
    have := ring_flip ellipkm1 b.1 b.2 a.1 a.2
    unfold potentialRadialRing
    linear_combination (2 * Real.pi) * this
  exact ⟨key _ _, key _ _⟩

theorem fromRadial_z (p : V3) (er ez : ℝ) : (fromRadial p er ez).z = ez := by unfold fromRadial; split_ifs <;> rfl

theorem rings_force_flip (A B : EffCharges (ℝ × ℝ)) (hf : RightOfAxis A) (hg : RightOfAxis B) : ringsForceOn (fun p => fieldRadial p A) B = -ringsForceOn (fun p => fieldRadial p B) A := by
  unfold ringsForceOn fieldRadial
  simp only [fromRadial_z, EffCharges.loopSub_eq, superpose_neg', superpose_mul]
  refine superpose_swap A B _ _ fun ra h1 a h2 rb h3 b h4 => ?_
  rw [norm2d_axis (hf ra h1 a h2), norm2d_axis (hg rb h3 b h4)]
  have := ring_force_flip ellipem1 b.1 b.2 a.1 a.2
  unfold dz1PotentialRadialRing
  linear_combination (-2 * Real.pi) * this

theorem loops_force_flip (f g : EffCharges V3) (hf : LoopsRightOfAxis f) (hg : LoopsRightOfAxis g) :
    loopsForceOn (fun p => currentField p f) g = -loopsForceOn (fun p => currentField p g) f := by
  have ex : ∀ (p : V3) (e : EffCharges V3), p.y = 0 → 0 ≤ p.x → (currentField p e).x = superpose (fun q => (currentFieldRadialRing p.x p.z q.x q.z).1) e := by
    intro p e hy hx
    unfold currentField fromRadial
    rw [hy, norm2d_axis hx]
    simp only [EffCharges.loop_eq]
    by_cases h : minDistanceAxis ≤ p.x
    · have hm : (0 : ℝ) < minDistanceAxis := by unfold minDistanceAxis; norm_num
      rw [if_pos h, div_self (lt_of_lt_of_le hm h).ne', one_mul]
    · rw [if_neg h]
      have : (fun q : V3 => (currentFieldRadialRing p.x p.z q.x q.z).1) = fun _ => 0 := by
        funext q
        unfold currentFieldRadialRing currentFieldRingWith
        simp only [not_le.1 h, if_true]
        split_ifs <;> rfl
      rw [this]
      simp [superpose_weighted]
  have side : ∀ A B : EffCharges V3, LoopsRightOfAxis B → loopsForceOn (fun p => currentField p A) B =
      superpose (fun b => superpose (fun a => 2 * Real.pi * -(b.x * (currentFieldRadialRing b.x b.z a.x a.z).1)) A) B := by
    intro A B hB
    unfold loopsForceOn
    rw [superpose_weighted, superpose_weighted]
    congr 1
    refine List.map_congr_left fun w hw => ?_
    obtain ⟨row, h1, h2⟩ := mem_weighted hw
    rw [ex ⟨w.2.x, 0, w.2.z⟩ A rfl (hB row h1 w.2 h2), superpose_neg', superpose_mul]
    congr 2
    funext a
    ring
  rw [side f g hg, side g f hf, superpose_neg']
  simp only [superpose_neg']
  refine superpose_swap f g _ _ fun ra h1 a h2 rb h3 b h4 => ?_
  have := loop_force_flip ellipk ellipe b.x b.z a.x a.z
  unfold currentFieldRadialRing
  linear_combination (-2 * Real.pi) * this

/-- **C115**, radial symmetry: action equals reaction, for the force along the axis between charged rings. -/
theorem C115_rings_force (f g : FieldRadialBEM) (hf : RightOfAxis f.elec) (hg : RightOfAxis g.elec) :
    ringsForceOn (fun p => ((PyObj.radial f).electrostaticField p).getD 0) g.elec = -ringsForceOn (fun p => ((PyObj.radial g).electrostaticField p).getD 0) f.elec :=
  rings_force_flip f.elec g.elec hf hg

theorem fieldRadial_none (p : V3) (e : EffCharges (ℝ × ℝ)) (h : e.len = 0) : fieldRadial p e = 0 := by
  have hc : e.charges = [] := List.length_eq_zero_iff.1 h
  unfold fieldRadial EffCharges.loopSub
  simp only [hc, List.zip_nil_left, List.foldl_nil]
  unfold fromRadial
  split_ifs <;> ext <;> simp

/-- **C115**, radial symmetry: action equals reaction, for the force along the axis between two sets of coils. -/
theorem C115_coils_force (f g : FieldRadialBEM) (hf : f.mag.len = 0) (hg : g.mag.len = 0) (hf' : LoopsRightOfAxis f.cur) (hg' : LoopsRightOfAxis g.cur) :
    loopsForceOn (fun p => ((PyObj.radial f).magnetostaticField p).getD 0) g.cur = -loopsForceOn (fun p => ((PyObj.radial g).magnetostaticField p).getD 0) f.cur := by
  have e : ∀ h : FieldRadialBEM, h.mag.len = 0 → (fun p => ((PyObj.radial h).magnetostaticField p).getD 0) = fun p => currentField p h.cur := by
    intro h hh
    funext p
    show currentField p h.cur + fieldRadial p h.mag = _
    rw [fieldRadial_none p _ hh]
    ext <;> simp
  rw [e f hf, e g hg]
  exact loops_force_flip f.cur g.cur hf' hg'

/-! ## Cases -/

/-- Two point charges, 1 and 2, at distance 1: the energy and the force on the second one. -/
theorem C115_example_points : let f : Field3DBEM := ⟨⟨1, [1], [[1]], [[⟨0, 0, 0⟩]]⟩, EffCharges.empty3d, none⟩
    let g : Field3DBEM := ⟨⟨1, [2], [[1]], [[⟨0, 0, 1⟩]]⟩, EffCharges.empty3d, none⟩
    energyIn (fun p => ((PyObj.threeD f).electrostaticPotential p).getD 0) g.elec = 2 / (4 * Real.pi) ∧
    forceOn (fun p => ((PyObj.threeD f).electrostaticField p).getD 0) g.elec = ⟨0, 0, 2 / (4 * Real.pi)⟩ := by
  have h1 : V3.norm ((⟨0, 0, 0⟩ : V3) - ⟨0, 0, 1⟩) = 1 := by
    unfold V3.norm
    rw [Real.sqrt_eq_one]
    simp [V3.dot]
  intro f g
  constructor
  · simp [f, g, energyIn, superpose, PyObj.electrostaticPotential, potential3d, EffCharges.loop, potential3dPoint, h1]
    ring
  · ext <;> simp [f, g, forceOn, superpose, PyObj.electrostaticField, field3d, EffCharges.loopSub, dx1Potential3dPoint, dy1Potential3dPoint, dz1Potential3dPoint, h1]
    ring

/-- Rings and coils that meet the hypotheses. -/
theorem C115_example_rings : let f : FieldRadialBEM := ⟨⟨1, [1], [[1]], [[(1, 0)]]⟩, EffCharges.empty2d, ⟨1, [3], [[1]], [[⟨3, 0, -1⟩]]⟩, none⟩
    let g : FieldRadialBEM := ⟨⟨1, [2], [[1]], [[(2, 1)]]⟩, EffCharges.empty2d, ⟨1, [4], [[1]], [[⟨1, 0, 5⟩]]⟩, none⟩
    RightOfAxis f.elec ∧ RightOfAxis g.elec ∧ f.mag.len = 0 ∧ g.mag.len = 0 ∧ LoopsRightOfAxis f.cur ∧ LoopsRightOfAxis g.cur ∧ 0 < f.elec.len ∧ 0 < g.cur.len := by
  intro f g
  refine ⟨?_, ?_, rfl, rfl, ?_, ?_, ?_, ?_⟩ <;> simp [f, g, RightOfAxis, LoopsRightOfAxis, EffCharges.len]

end Traceon
