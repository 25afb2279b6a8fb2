import Verif.Props.Charges
import Mathlib.Tactic.LinearCombination

/-!
# C39: operators on fields; C40: `field_at_point` and `potential_at_point`
-/
namespace Traceon
open PyObj

/-! ## Specification -/
namespace Spec

/-- The fields that the constructors accept (solver.py:548-555, 859-862, 957-964, 1015-1016). -/
def FieldOk : PyObj → Prop
  | radial f => f.elec.Wf ∧ f.elec.nquad = 16 ∧ f.mag.Wf ∧ f.mag.nquad = 16 ∧ f.cur.Wf ∧ f.cur.nquad = 12
  | threeD f => f.elec.Wf ∧ f.elec.nquad = 12 ∧ f.mag.Wf ∧ f.mag.nquad = 12
  | axial f => CoeffShape (f.zs.length - 1) f.elec ∧ CoeffShape (f.zs.length - 1) f.mag ∧ f.zs.getD 0 0 < f.zs.getD (f.zs.length - 1) 0
  | _ => False

/-- `h` is, at every point at which both can be evaluated, `k` times `f` plus `l` times `g`: potentials and fields, electrostatic and magnetostatic. -/
structure IsCombination (k l : ℝ) (f g h : PyObj) : Prop where
  electrostaticPotential : ∀ p u v, f.electrostaticPotential p = some u → g.electrostaticPotential p = some v →
    h.electrostaticPotential p = some (k * u + l * v)
  magnetostaticPotential : ∀ p u v, f.magnetostaticPotential p = some u → g.magnetostaticPotential p = some v →
    h.magnetostaticPotential p = some (k * u + l * v)
  electrostaticField : ∀ p u v, f.electrostaticField p = some u → g.electrostaticField p = some v →
    h.electrostaticField p = some (k * u + l * v)
  magnetostaticField : ∀ p u v, f.magnetostaticField p = some u → g.magnetostaticField p = some v →
    h.magnetostaticField p = some (k * u + l * v)

end Spec

/-! ## C39 for radial fields -/

/-- **C39, partial,** for radially symmetric fields: `f + g` is the superposition.
Missing: `f - g`, `a*f`, `f*a` and `-f`, and 3D fields, for which `C39_refuted` proves the claim false. -/
theorem C39_radial_partial (f g : FieldRadialBEM) (hf : Spec.FieldOk (radial f)) (hg : Spec.FieldOk (radial g)) :
    ∃ h, add (radial f) (radial g) = some h ∧ Spec.FieldOk h ∧ Spec.IsCombination 1 1 (radial f) (radial g) h := by
  obtain ⟨a1, a2, a3, a4, a5, a6⟩ := hf
  obtain ⟨b1, b2, b3, b4, b5, b6⟩ := hg
  obtain ⟨e, e1, e2, e3, e4, _⟩ := EffCharges.add_spec a1 b1 (a2.trans b2.symm)
  obtain ⟨m, m1, m2, m3, m4, _⟩ := EffCharges.add_spec a3 b3 (a4.trans b4.symm)
  obtain ⟨c, c1, c2, c3, c4, _⟩ := EffCharges.add_spec a5 b5 (a6.trans b6.symm)
  refine ⟨radial ⟨e, m, c, none⟩, ?_, ⟨e2, e3.trans a2, m2, m3.trans a4, c2, c3.trans a6⟩, ?_⟩
  · simp [add, binary, method, bemBinary, attr, effMethod, e1, m1, c1, construct3]
  · refine ⟨?_, ?_, ?_, ?_⟩ <;> intro p u v hu hv
    · cases hu; cases hv; exact congrArg some (e4.potentialRadial p)
    · cases hu; cases hv; exact congrArg some (m4.potentialRadial p)
    · cases hu; cases hv; exact congrArg some (e4.fieldRadial p)
    · cases hu; cases hv
      refine congrArg some ?_
      simp only
      rw [c4.currentField p, m4.fieldRadial p]
      ext <;> simp <;> ring

/-! ## C39 for axial fields -/

theorem quintic_zip (k l : ℝ) (a b : List ℝ) (h : a.length = b.length) (d : ℝ) :
    quintic (List.zipWith (fun x y => k * x + l * y) a b) d = k * quintic a d + l * quintic b d := by
  have hg : ∀ i, (List.zipWith (fun x y => k * x + l * y) a b).getD i 0 = k * a.getD i 0 + l * b.getD i 0 := by
    intro i
    simp only [List.getD_eq_getElem?_getD, List.getElem?_zipWith]
    rcases lt_or_ge i a.length with hi | hi
    · rw [List.getElem?_eq_getElem hi, List.getElem?_eq_getElem (h ▸ hi)]; rfl
    · rw [List.getElem?_eq_none hi, List.getElem?_eq_none (h ▸ hi)]; simp
  unfold quintic
  simp only [hg]
  ring

theorem axialDerivs_zip (k l : ℝ) (zs : List ℝ) (a b : Coeffs) {n : Nat} (ha : CoeffShape n a) (hb : CoeffShape n b) (index : Nat) (z : ℝ)
    (u v : Nat → ℝ) (hu : axialDerivs zs a index z = some u) (hv : axialDerivs zs b index z = some v) :
    axialDerivs zs (coeffsZip (fun x y => k * x + l * y) a b) index z = some (fun i => k * u i + l * v i) := by
  unfold axialDerivs coeffsZip at *
  rw [List.getElem?_zipWith]
  cases hA : a[index]? with
  | none => rw [hA] at hu; cases hu
  | some A =>
    cases hB : b[index]? with
    | none => rw [hB] at hv; cases hv
    | some B =>
      rw [hA] at hu; rw [hB] at hv
      simp only [Option.map_some, Option.some.injEq] at hu hv ⊢
      subst hu; subst hv
      have hA' := ha.2 A (List.mem_of_getElem? hA)
      have hB' := hb.2 B (List.mem_of_getElem? hB)
      funext i
      simp only [List.getD_eq_getElem?_getD, List.getElem?_zipWith]
      rcases lt_or_ge i 9 with hi | hi
      · have i1 : i < A.length := by omega
        have i2 : i < B.length := by omega
        rw [List.getElem?_eq_getElem i1, List.getElem?_eq_getElem i2]
        simp only [Option.getD_some]
        have := quintic_zip k l A[i] B[i] ((hA'.2 _ (List.getElem_mem i1)).trans (hB'.2 _ (List.getElem_mem i2)).symm) (z - zs[index]?.getD 0)
        exact this
      · rw [List.getElem?_eq_none (by omega), List.getElem?_eq_none (by omega)]
        simp [quintic]

theorem potentialRadialDerivs_zip (k l : ℝ) (p : V3) (zs : List ℝ) (a b : Coeffs) {n : Nat} (ha : CoeffShape n a) (hb : CoeffShape n b)
    (u v : ℝ) (hu : potentialRadialDerivs p zs a = some u) (hv : potentialRadialDerivs p zs b = some v) :
    potentialRadialDerivs p zs (coeffsZip (fun x y => k * x + l * y) a b) = some (k * u + l * v) := by
  unfold potentialRadialDerivs at *
  cases hi : axialIndex zs p.z with
  | none => rw [hi] at hu hv; cases hu; cases hv; simp
  | some index =>
    rw [hi] at hu hv
    simp only [Option.map_eq_some_iff] at hu hv ⊢
    obtain ⟨du, h1, rfl⟩ := hu
    obtain ⟨dv, h2, rfl⟩ := hv
    refine ⟨_, axialDerivs_zip k l zs a b ha hb index p.z du dv h1 h2, ?_⟩
    unfold seriesPotential; ring

theorem fieldRadialDerivs_zip (k l : ℝ) (p : V3) (zs : List ℝ) (a b : Coeffs) {n : Nat} (ha : CoeffShape n a) (hb : CoeffShape n b)
    (u v : V3) (hu : fieldRadialDerivs p zs a = some u) (hv : fieldRadialDerivs p zs b = some v) :
    fieldRadialDerivs p zs (coeffsZip (fun x y => k * x + l * y) a b) = some (k * u + l * v) := by
  unfold fieldRadialDerivs at *
  cases hi : axialIndex zs p.z with
  | none =>
    rw [hi] at hu hv; cases hu; cases hv
    refine congrArg some ?_
    ext <;> simp
  | some index =>
    rw [hi] at hu hv
    simp only [Option.map_eq_some_iff] at hu hv ⊢
    obtain ⟨du, h1, rfl⟩ := hu
    obtain ⟨dv, h2, rfl⟩ := hv
    refine ⟨_, axialDerivs_zip k l zs a b ha hb index p.z du dv h1 h2, ?_⟩
    unfold seriesField
    ext <;> simp <;> ring

theorem coeffShape_zip (φ : ℝ → ℝ → ℝ) {n : Nat} {a b : Coeffs} (ha : CoeffShape n a) (hb : CoeffShape n b) : CoeffShape n (coeffsZip φ a b) := by
  refine ⟨by simp [coeffsZip, ha.1, hb.1], ?_⟩
  intro x hx
  unfold coeffsZip at hx
  obtain ⟨i, hi, rfl⟩ := List.mem_iff_getElem.1 hx
  rw [List.getElem_zipWith]
  simp only [List.length_zipWith] at hi
  have h1 := ha.2 a[i] (List.getElem_mem _)
  have h2 := hb.2 b[i] (List.getElem_mem _)
  refine ⟨by rw [List.length_zipWith]; omega, ?_⟩
  intro y hy
  obtain ⟨j, hj, rfl⟩ := List.mem_iff_getElem.1 hy
  rw [List.getElem_zipWith]
  simp only [List.length_zipWith] at hj
  rw [List.length_zipWith, h1.2 _ (List.getElem_mem _), h2.2 _ (List.getElem_mem _)]; rfl

/-- Multiplication entry by entry is a combination of an array with itself. -/
theorem coeffsMap_eq (k : ℝ) (a : Coeffs) : coeffsMap (k * ·) a = coeffsZip (fun x y => k * x + 0 * y) a a := by
  unfold coeffsMap coeffsZip
  have h1 : ∀ (l : List ℝ), l.map (k * ·) = List.zipWith (fun x y => k * x + 0 * y) l l := by
    intro l; rw [List.zipWith_self]; simp
  have h2 : ∀ (l : List (List ℝ)), l.map (List.map (k * ·)) = List.zipWith (List.zipWith (fun x y => k * x + 0 * y)) l l := by
    intro l; rw [List.zipWith_self]; exact List.map_congr_left (fun x _ => h1 x)
  rw [List.zipWith_self]
  exact List.map_congr_left (fun x _ => h2 x)

/-- A combination of the coefficients is a combination of the fields. -/
theorem axial_combination (k l : ℝ) (f g : FieldAxial) (hf : Spec.FieldOk (axial f)) (hg : Spec.FieldOk (axial g)) (hz : f.zs = g.zs) :
    Spec.IsCombination k l (axial f) (axial g)
      (axial ⟨false, f.zs, coeffsZip (fun x y => k * x + l * y) f.elec g.elec, coeffsZip (fun x y => k * x + l * y) f.mag g.mag⟩) := by
  obtain ⟨a1, a2, _⟩ := hf
  obtain ⟨b1, b2, _⟩ := hg
  rw [← hz] at b1 b2
  refine ⟨?_, ?_, ?_, ?_⟩ <;> intro p u v hu hv
  · exact potentialRadialDerivs_zip k l p f.zs _ _ a1 b1 u v hu (by rw [hz]; exact hv)
  · exact potentialRadialDerivs_zip k l p f.zs _ _ a2 b2 u v hu (by rw [hz]; exact hv)
  · exact fieldRadialDerivs_zip k l p f.zs _ _ a1 b1 u v hu (by rw [hz]; exact hv)
  · exact fieldRadialDerivs_zip k l p f.zs _ _ a2 b2 u v hu (by rw [hz]; exact hv)

theorem constructAxial_zip (φ : ℝ → ℝ → ℝ) (f g : FieldAxial) (hf : Spec.FieldOk (axial f)) (hg : Spec.FieldOk (axial g)) (hz : f.zs = g.zs) :
    constructAxial false f.zs (coeffsZip φ f.elec g.elec) (coeffsZip φ f.mag g.mag) =
      some (axial ⟨false, f.zs, coeffsZip φ f.elec g.elec, coeffsZip φ f.mag g.mag⟩) ∧
    Spec.FieldOk (axial ⟨false, f.zs, coeffsZip φ f.elec g.elec, coeffsZip φ f.mag g.mag⟩) := by
  obtain ⟨a1, a2, a3⟩ := hf
  obtain ⟨b1, b2, _⟩ := hg
  rw [← hz] at b1 b2
  have h1 := coeffShape_zip φ a1 b1
  have h2 := coeffShape_zip φ a2 b2
  refine ⟨?_, h1, h2, a3⟩
  unfold constructAxial
  rw [if_neg (by simp), if_pos ⟨h1, h2, a3⟩]

theorem axialScale_spec (k : ℝ) (f : FieldAxial) (h0 : f.fromInterpolation = false) (hf : Spec.FieldOk (axial f)) :
    ∃ h, axialScale k f = some (axial h) ∧ h.zs = f.zs ∧ h.fromInterpolation = false ∧ Spec.FieldOk (axial h) ∧ Spec.IsCombination k 0 (axial f) (axial f) (axial h) := by
  refine ⟨⟨false, f.zs, coeffsZip (fun x y => k * x + 0 * y) f.elec f.elec, coeffsZip (fun x y => k * x + 0 * y) f.mag f.mag⟩, ?_, rfl, rfl, (constructAxial_zip (fun x y => k * x + 0 * y) f f hf hf rfl).2, axial_combination k 0 f f hf hf rfl⟩
  unfold axialScale
  rw [h0, coeffsMap_eq, coeffsMap_eq]
  exact (constructAxial_zip _ f f hf hf rfl).1

theorem axialAdd_spec (f g : FieldAxial) (h0 : f.fromInterpolation = false) (h1 : g.fromInterpolation = false) (hf : Spec.FieldOk (axial f))
    (hg : Spec.FieldOk (axial g)) (hz : f.zs = g.zs) :
    ∃ h, axialAdd f g = some (axial h) ∧ h.zs = f.zs ∧ h.fromInterpolation = false ∧ Spec.FieldOk (axial h) ∧ Spec.IsCombination 1 1 (axial f) (axial g) (axial h) := by
  have e : (fun x y : ℝ => x + y) = (fun x y => 1 * x + 1 * y) := by funext x y; ring
  refine ⟨⟨false, f.zs, coeffsZip (fun x y => 1 * x + 1 * y) f.elec g.elec, coeffsZip (fun x y => 1 * x + 1 * y) f.mag g.mag⟩, ?_, rfl, rfl, (constructAxial_zip (fun x y => 1 * x + 1 * y) f g hf hg hz).2, axial_combination 1 1 f g hf hg hz⟩
  unfold axialAdd
  have hl : f.zs = g.zs ∧ f.elec.length = g.elec.length ∧ f.mag.length = g.mag.length :=
    ⟨hz, by rw [hf.1.1, hg.1.1, hz], by rw [hf.2.1.1, hg.2.1.1, hz]⟩
  rw [if_neg (by simp [h0, h1]), if_pos hl, h0]
  rw [e]
  exact (constructAxial_zip _ f g hf hg hz).1

theorem Spec.IsCombination.sub {f g h g' : PyObj} (h1 : Spec.IsCombination (-1) 0 g g g') (h2 : Spec.IsCombination 1 1 f g' h) :
    Spec.IsCombination 1 (-1) f g h := by
  have s : ∀ u v : ℝ, 1 * u + 1 * (-1 * v + 0 * v) = 1 * u + -1 * v := by intros; ring
  have t : ∀ u v : V3, (1 : ℝ) * u + (1 : ℝ) * ((-1 : ℝ) * v + (0 : ℝ) * v) = (1 : ℝ) * u + (-1 : ℝ) * v := by intros; ext <;> simp
  refine ⟨?_, ?_, ?_, ?_⟩ <;> intro p u v hu hv
  · rw [h2.1 p u _ hu (h1.1 p v v hv hv), s]
  · rw [h2.2 p u _ hu (h1.2 p v v hv hv), s]
  · rw [h2.3 p u _ hu (h1.3 p v v hv hv), t]
  · rw [h2.4 p u _ hu (h1.4 p v v hv hv), t]

/-- **C39, partial,** for the axial fields of the solver module over the same samples: all operators. Missing: the axial fields of the interpolation module, for which `C39_refuted` proves the claim false. -/
theorem C39_axial_partial (f g : FieldAxial) (h0 : f.fromInterpolation = false) (h1 : g.fromInterpolation = false) (hf : Spec.FieldOk (axial f))
    (hg : Spec.FieldOk (axial g)) (hz : f.zs = g.zs) (a : ℝ) :
    (∃ h, add (axial f) (axial g) = some h ∧ Spec.FieldOk h ∧ Spec.IsCombination 1 1 (axial f) (axial g) h) ∧
    (∃ h, sub (axial f) (axial g) = some h ∧ Spec.FieldOk h ∧ Spec.IsCombination 1 (-1) (axial f) (axial g) h) ∧
    (∃ h, mul (num a) (axial f) = some h ∧ Spec.FieldOk h ∧ Spec.IsCombination a 0 (axial f) (axial f) h) ∧
    (∃ h, mul (axial f) (num a) = some h ∧ Spec.FieldOk h ∧ Spec.IsCombination a 0 (axial f) (axial f) h) ∧
    (∃ h, neg (axial f) = some h ∧ Spec.FieldOk h ∧ Spec.IsCombination (-1) 0 (axial f) (axial f) h) := by
  refine ⟨?_, ?_, ?_, ?_, ?_⟩
  · obtain ⟨h, e, _, _, e2, e3⟩ := axialAdd_spec f g h0 h1 hf hg hz
    exact ⟨axial h, by simp [add, binary, method, e], e2, e3⟩
  · obtain ⟨n, n1, n2, n3, n4, n5⟩ := axialScale_spec (-1) g h1 hg
    obtain ⟨h, e, _, _, e2, e3⟩ := axialAdd_spec f n h0 n3 hf n4 (hz.trans n2.symm)
    refine ⟨axial h, ?_, e2, n5.sub e3⟩
    simp [sub, binary, method, PyObj.neg, n1, e]
  · obtain ⟨h, e, _, _, e2, e3⟩ := axialScale_spec a f h0 hf
    exact ⟨axial h, by simp [mul, binary, method, reflected, sameClass, e], e2, e3⟩
  · obtain ⟨h, e, _, _, e2, e3⟩ := axialScale_spec a f h0 hf
    exact ⟨axial h, by simp [mul, binary, method, e], e2, e3⟩
  · obtain ⟨h, e, _, _, e2, e3⟩ := axialScale_spec (-1) f h0 hf
    exact ⟨axial h, by simp [PyObj.neg, e], e2, e3⟩

/-- **C39 is false** for the remaining cases, whatever the fields and the number: subtraction, multiplication and negation of boundary element fields raise, as does the addition of fields of three dimensional geometries,
and every operator on the axial fields made by the interpolation module. -/
theorem C39_refuted (f g : FieldRadialBEM) (u v : Field3DBEM) (s t : FieldAxial) (hs : s.fromInterpolation = true) (ht : t.fromInterpolation = true) (a : ℝ) :
    (sub (radial f) (radial g) = none ∧ mul (num a) (radial f) = none ∧ mul (radial f) (num a) = none ∧ neg (radial f) = none) ∧
    (add (threeD u) (threeD v) = none ∧ sub (threeD u) (threeD v) = none ∧ mul (num a) (threeD u) = none ∧ mul (threeD u) (num a) = none ∧ neg (threeD u) = none) ∧
    (add (axial s) (axial t) = none ∧ sub (axial s) (axial t) = none ∧ mul (num a) (axial s) = none ∧ mul (axial s) (num a) = none ∧ neg (axial s) = none) := by
  have hc : ∀ zs e m, constructAxial true zs e m = none := by intros; simp [constructAxial]
  have hadd : axialAdd s t = none := by
    unfold axialAdd
    rw [hs, ht, if_neg (by simp)]
    split_ifs <;> simp [hc]
  have hsc : ∀ k, ∀ w : FieldAxial, w.fromInterpolation = true → axialScale k w = none := by
    intro k w hw; unfold axialScale; rw [hw]; exact hc _ _ _
  refine ⟨⟨?_, ?_, ?_, rfl⟩, ⟨?_, ?_, ?_, ?_, rfl⟩, ?_, ?_, ?_, ?_, ?_⟩
  · simp [sub, binary, method, bemBinary, attr, effMethod]
  · simp [mul, binary, method, reflected, sameClass, bemBinary, attr, effMethod]
  · simp [mul, binary, method, bemBinary, attr, effMethod]
  · have : ∀ e m c, construct3 (threeD u) e m c = none := by intros; rfl
    simp only [add, binary, method, List.mem_cons, true_or, if_true, bemBinary, attr, effMethod, this]
    rcases u.elec.add v.elec with _ | e <;> rcases u.mag.add v.mag with _ | m <;>
      rcases (EffCharges.empty3d (P := V3)).add EffCharges.empty3d with _ | c <;> simp
  · simp [sub, binary, method, bemBinary, attr, effMethod]
  · simp [mul, binary, method, reflected, sameClass, bemBinary, attr, effMethod]
  · simp [mul, binary, method, bemBinary, attr, effMethod]
  · simp [add, binary, method, hadd]
  · simp [sub, binary, method, PyObj.neg, hsc _ _ ht]
  · simp [mul, binary, method, reflected, sameClass, hsc _ _ hs]
  · simp [mul, binary, method, hsc _ _ hs]
  · simp [PyObj.neg, hsc _ _ hs]

/-- Adding two radial fields forgets the field bounds of both. -/
theorem C39_add_forgets_bounds (f g : FieldRadialBEM) (h : PyObj) (hh : add (radial f) (radial g) = some h) :
    ∃ r : FieldRadialBEM, h = radial r ∧ r.bounds = none := by
  simp only [add, binary, method, List.mem_cons, true_or, if_true, bemBinary, attr, effMethod] at hh
  rcases h1 : f.elec.add g.elec with _ | e <;> rcases h2 : f.mag.add g.mag with _ | m <;> rcases h3 : f.cur.add g.cur with _ | c <;>
    simp [h1, h2, h3, construct3] at hh
  exact ⟨_, hh.symm, rfl⟩

/-- A field with one ring and one without meet the hypotheses; an axial field with two samples does. -/
example : ∃ f : FieldRadialBEM, Spec.FieldOk (radial f) ∧ f.elec.len = 1 ∧
    Spec.FieldOk (radial ⟨EffCharges.empty2d, EffCharges.empty2d, EffCharges.empty3d, none⟩) := by
  have e2 : (EffCharges.empty2d (P := ℝ × ℝ)).Wf := ⟨rfl, by simp [EffCharges.empty2d], rfl, by simp [EffCharges.empty2d]⟩
  have e3 : (EffCharges.empty3d (P := V3)).Wf := ⟨rfl, by simp [EffCharges.empty3d], rfl, by simp [EffCharges.empty3d]⟩
  refine ⟨⟨⟨16, [1], [List.replicate 16 1], [List.replicate 16 (2, 3)]⟩, EffCharges.empty2d, EffCharges.empty3d, none⟩, ?_, rfl, ?_⟩
  · refine ⟨⟨rfl, ?_, rfl, ?_⟩, rfl, e2, rfl, e3, rfl⟩ <;> simp
  · exact ⟨e2, rfl, e2, rfl, e3, rfl⟩

example : Spec.FieldOk (axial ⟨false, [0, 1], [List.replicate 9 (List.replicate 6 2)], [List.replicate 9 (List.replicate 6 3)]⟩) := by
  refine ⟨⟨rfl, ?_⟩, ⟨rfl, ?_⟩, by simp⟩ <;> simp

/-! ## C40 -/

theorem loop_of_empty {P : Type} (e : EffCharges P) (h : ¬e.len > 0) (f : P → ℝ) : e.loop f = 0 := by
  have : e.charges = [] := List.eq_nil_of_length_eq_zero (by unfold EffCharges.len at h; omega)
  unfold EffCharges.loop; rw [this]; rfl

theorem fromRadial_zero (p : V3) : fromRadial p 0 0 = 0 := by
  unfold fromRadial; split_ifs <;> ext <;> simp

theorem fieldRadial_of_empty (e : EffCharges (ℝ × ℝ)) (h : ¬e.len > 0) (p : V3) : fieldRadial p e = 0 := by
  unfold fieldRadial; simp [EffCharges.loopSub_loop, loop_of_empty e h, fromRadial_zero]

theorem field3d_of_empty (e : EffCharges V3) (h : ¬e.len > 0) (p : V3) : field3d p e = 0 := by
  unfold field3d; simp only [EffCharges.loopSub_loop, loop_of_empty e h]; ext <;> simp

theorem currentField_of_empty (e : EffCharges V3) (h : ¬e.len > 0) (p : V3) : currentField p e = 0 := by
  unfold currentField; simp [loop_of_empty e h, fromRadial_zero]

theorem axialDerivs_of_zero (zs : List ℝ) (c : Coeffs) (h : ¬∃ a ∈ c, ∃ b ∈ a, ∃ x ∈ b, x ≠ (0 : ℝ)) (i : Nat) (z : ℝ) (d : Nat → ℝ)
    (hd : axialDerivs zs c i z = some d) : d = fun _ => 0 := by
  unfold axialDerivs at hd
  rw [Option.map_eq_some_iff] at hd
  obtain ⟨C, h1, rfl⟩ := hd
  have hC := List.mem_of_getElem? h1
  funext k
  have h0 : ∀ j, (C.getD k []).getD j 0 = 0 := by
    intro j
    simp only [List.getD_eq_getElem?_getD]
    cases hk : C[k]? with
    | none => simp
    | some b =>
      cases hj : b[j]? with
      | none => simp [hj]
      | some x =>
        simp only [Option.getD_some, hj]
        by_contra hx
        exact h ⟨C, hC, b, List.mem_of_getElem? hk, x, List.mem_of_getElem? hj, hx⟩
  simp only [quintic, h0]; ring

theorem potentialRadialDerivs_of_zero (p : V3) (zs : List ℝ) (c : Coeffs) (h : ¬∃ a ∈ c, ∃ b ∈ a, ∃ x ∈ b, x ≠ (0 : ℝ)) (u : ℝ)
    (hu : potentialRadialDerivs p zs c = some u) : u = 0 := by
  unfold potentialRadialDerivs at hu
  cases hi : axialIndex zs p.z with
  | none => rw [hi] at hu; cases hu; rfl
  | some i =>
    rw [hi] at hu
    simp only [Option.map_eq_some_iff] at hu
    obtain ⟨d, h1, rfl⟩ := hu
    rw [axialDerivs_of_zero zs c h i _ d h1]; simp [seriesPotential]

theorem fieldRadialDerivs_of_zero (p : V3) (zs : List ℝ) (c : Coeffs) (h : ¬∃ a ∈ c, ∃ b ∈ a, ∃ x ∈ b, x ≠ (0 : ℝ)) (u : V3)
    (hu : fieldRadialDerivs p zs c = some u) : u = 0 := by
  unfold fieldRadialDerivs at hu
  cases hi : axialIndex zs p.z with
  | none => rw [hi] at hu; cases hu; rfl
  | some i =>
    rw [hi] at hu
    simp only [Option.map_eq_some_iff] at hu
    obtain ⟨d, h1, rfl⟩ := hu
    rw [axialDerivs_of_zero zs c h i _ d h1]
    unfold seriesField
    ext <;> simp

/-- **C40.** `field_at_point` and `potential_at_point` answer exactly for the fields that are purely electrostatic or purely magnetostatic; they make the same choice; and what they leave out is zero everywhere:
a field that is not electrostatic has no electrostatic field, one that is not magnetostatic no magnetostatic field. -/
theorem C40_dispatch (f : PyObj) (p : V3) :
    (f.isElectrostatic ∧ ¬f.isMagnetostatic → f.fieldAtPoint p = f.electrostaticField p ∧ f.potentialAtPoint p = f.electrostaticPotential p) ∧
    (f.isMagnetostatic ∧ ¬f.isElectrostatic → f.fieldAtPoint p = f.magnetostaticField p ∧ f.potentialAtPoint p = f.magnetostaticPotential p) ∧
    (f.isElectrostatic ∧ f.isMagnetostatic → f.fieldAtPoint p = none ∧ f.potentialAtPoint p = none) ∧
    (¬f.isElectrostatic ∧ ¬f.isMagnetostatic → f.fieldAtPoint p = none ∧ f.potentialAtPoint p = none) ∧
    (¬f.isElectrostatic → (∀ q e, f.electrostaticField q = some e → e = 0) ∧ (∀ q u, f.electrostaticPotential q = some u → u = 0)) ∧
    (¬f.isMagnetostatic → (∀ q h, f.magnetostaticField q = some h → h = 0) ∧ (∀ q u, f.magnetostaticPotential q = some u → u = 0)) := by
  refine ⟨?_, ?_, ?_, ?_, ?_, ?_⟩
  · rintro ⟨h1, h2⟩; simp [fieldAtPoint, potentialAtPoint, h1, h2]
  · rintro ⟨h1, h2⟩; simp [fieldAtPoint, potentialAtPoint, h1, h2]
  · rintro ⟨h1, h2⟩; simp [fieldAtPoint, potentialAtPoint, h1, h2]
  · rintro ⟨h1, h2⟩; simp [fieldAtPoint, potentialAtPoint, h1, h2]
  · intro h
    cases f with
    | radial f => exact ⟨fun q e he => by (cases he; exact fieldRadial_of_empty _ h q), fun q u hu => by (cases hu; exact loop_of_empty _ h _)⟩
    | threeD f => exact ⟨fun q e he => by (cases he; exact field3d_of_empty _ h q), fun q u hu => by (cases hu; exact loop_of_empty _ h _)⟩
    | axial f => exact ⟨fun q e he => fieldRadialDerivs_of_zero q _ _ h e he, fun q u hu => potentialRadialDerivs_of_zero q _ _ h u hu⟩
    | _ => exact ⟨fun q e he => (nomatch he), fun q u hu => (nomatch hu)⟩
  · intro h
    cases f with
    | radial f =>
      refine ⟨fun q e he => ?_, fun q u hu => by (cases hu; exact loop_of_empty _ (fun hh => h (Or.inl hh)) _)⟩
      cases he
      rw [currentField_of_empty _ (fun hh => h (Or.inr hh)), fieldRadial_of_empty _ (fun hh => h (Or.inl hh))]
      ext <;> simp
    | threeD f => exact ⟨fun q e he => by (cases he; exact field3d_of_empty _ h q), fun q u hu => by (cases hu; exact loop_of_empty _ h _)⟩
    | axial f => exact ⟨fun q e he => fieldRadialDerivs_of_zero q _ _ h e he, fun q u hu => potentialRadialDerivs_of_zero q _ _ h u hu⟩
    | _ => exact ⟨fun q e he => (nomatch he), fun q u hu => (nomatch hu)⟩

/-- All four cases occur. -/
example : ∃ f g h k : PyObj, (f.isElectrostatic ∧ ¬f.isMagnetostatic) ∧ (g.isMagnetostatic ∧ ¬g.isElectrostatic) ∧ (h.isElectrostatic ∧ h.isMagnetostatic) ∧
    (¬k.isElectrostatic ∧ ¬k.isMagnetostatic) := by
  let e : EffCharges V3 := ⟨1, [1], [[1]], [[⟨0, 0, 0⟩]]⟩
  refine ⟨threeD ⟨e, EffCharges.empty3d, none⟩, threeD ⟨EffCharges.empty3d, e, none⟩, threeD ⟨e, e, none⟩, threeD ⟨EffCharges.empty3d, EffCharges.empty3d, none⟩, ?_⟩
  simp [isElectrostatic, isMagnetostatic, EffCharges.len, EffCharges.empty3d, e]

end Traceon
