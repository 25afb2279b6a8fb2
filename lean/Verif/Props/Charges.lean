import Verif.Model.FieldObj
import Mathlib.Algebra.BigOperators.Group.List.Basic

/-!
# C38: adding charge distributions superposes potentials
-/
namespace Traceon
open EffCharges

variable {P : Type}

/-! ## Specification -/
namespace Spec

/-- The potential, according to the principle of superposition, of charges whose unit kernel is `f`: every quadrature point of every element contributes charge times weight times kernel. -/
noncomputable def superpose (f : P → ℝ) (e : EffCharges P) : ℝ :=
  ((e.charges.zip (e.jacobians.zip e.positions)).map (fun x => ((x.2.1.zip x.2.2).map (fun y => x.1 * y.1 * f y.2)).sum)).sum

end Spec

theorem foldl_add_sum {α : Type} (g : α → ℝ) (l : List α) (s : ℝ) :
    l.foldl (fun s y => s + g y) s = s + (l.map g).sum := by
  induction l generalizing s with
  | nil => simp
  | cons a t ih => rw [List.foldl_cons, ih, List.map_cons, List.sum_cons]; ring

theorem foldl_sub_sum {α : Type} (g : α → ℝ) (l : List α) (s : ℝ) :
    l.foldl (fun s y => s - g y) s = s - (l.map g).sum := by
  induction l generalizing s with
  | nil => simp
  | cons a t ih => rw [List.foldl_cons, ih, List.map_cons, List.sum_cons]; ring

theorem EffCharges.loop_eq (e : EffCharges P) (f : P → ℝ) : e.loop f = Spec.superpose f e := by
  unfold loop Spec.superpose
  have : ∀ (s : ℝ) (x : ℝ × List ℝ × List P), (x.2.1.zip x.2.2).foldl (fun s y => s + x.1 * y.1 * f y.2) s =
      s + ((x.2.1.zip x.2.2).map (fun y => x.1 * y.1 * f y.2)).sum := fun s x => foldl_add_sum _ _ _
  simp only [this]
  rw [foldl_add_sum]; simp

theorem EffCharges.loopSub_eq (e : EffCharges P) (f : P → ℝ) : e.loopSub f = -Spec.superpose f e := by
  unfold loopSub Spec.superpose
  have : ∀ (s : ℝ) (x : ℝ × List ℝ × List P), (x.2.1.zip x.2.2).foldl (fun s y => s - x.1 * y.1 * f y.2) s =
      s - ((x.2.1.zip x.2.2).map (fun y => x.1 * y.1 * f y.2)).sum := fun s x => foldl_sub_sum _ _ _
  simp only [this]
  rw [foldl_sub_sum]; simp

theorem EffCharges.loopSub_loop (e : EffCharges P) (f : P → ℝ) : e.loopSub f = -e.loop f := by rw [loopSub_eq, loop_eq]

/-- Two charge distributions act the same up to arithmetic: `c` is the combination `k a + l b`. -/
def Combines (k l : ℝ) (a b c : EffCharges P) : Prop := ∀ f : P → ℝ, c.loop f = k * a.loop f + l * b.loop f

theorem superpose_zipWith (f : P → ℝ) (js : List (List ℝ)) (ps : List (List P)) :
    ∀ (cs ds : List ℝ), cs.length = ds.length → ∀ n,
    Spec.superpose f ⟨n, List.zipWith (· + ·) cs ds, js, ps⟩ = Spec.superpose f ⟨n, cs, js, ps⟩ + Spec.superpose f ⟨n, ds, js, ps⟩ := by
  unfold Spec.superpose
  simp only
  generalize js.zip ps = l
  induction l with
  | nil => intro cs ds _ n; simp
  | cons x t ih =>
    intro cs ds h n
    cases cs with
    | nil => cases ds with
      | nil => simp
      | cons => simp at h
    | cons c cs => cases ds with
      | nil => simp at h
      | cons d ds =>
        simp only [List.zipWith_cons_cons, List.zip_cons_cons, List.map_cons, List.sum_cons]
        rw [ih cs ds (by simpa using h) n]
        have : ((x.1.zip x.2).map (fun y => (c + d) * y.1 * f y.2)).sum =
            ((x.1.zip x.2).map (fun y => c * y.1 * f y.2)).sum + ((x.1.zip x.2).map (fun y => d * y.1 * f y.2)).sum := by
          generalize x.1.zip x.2 = m
          induction m with
          | nil => simp
          | cons a m ih => simp only [List.map_cons, List.sum_cons]; rw [ih]; ring
        rw [this]; ring

theorem superpose_map (f : P → ℝ) (k : ℝ) (js : List (List ℝ)) (ps : List (List P)) :
    ∀ (cs : List ℝ) (n : Nat), Spec.superpose f ⟨n, cs.map (k * ·), js, ps⟩ = k * Spec.superpose f ⟨n, cs, js, ps⟩ := by
  unfold Spec.superpose
  simp only
  generalize js.zip ps = l
  induction l with
  | nil => intro cs n; simp
  | cons x t ih =>
    intro cs n
    cases cs with
    | nil => simp
    | cons c cs =>
      simp only [List.map_cons, List.zip_cons_cons, List.sum_cons]
      rw [ih cs n]
      have : ((x.1.zip x.2).map (fun y => k * c * y.1 * f y.2)).sum = k * ((x.1.zip x.2).map (fun y => c * y.1 * f y.2)).sum := by
        generalize x.1.zip x.2 = m
        induction m with
        | nil => simp
        | cons a m ih => simp only [List.map_cons, List.sum_cons]; rw [ih]; ring
      rw [this]; ring

/-- Adding two sets of point charges with the same number of quadrature points never raises, and superposes. -/
theorem EffCharges.add_spec {a b : EffCharges P} (ha : a.Wf) (hb : b.Wf) (h : a.nquad = b.nquad) :
    ∃ c, a.add b = some c ∧ c.Wf ∧ c.nquad = a.nquad ∧ Combines 1 1 a b c ∧ (c.len = 0 ↔ a.len = 0 ∧ b.len = 0) := by
  unfold EffCharges.add
  split_ifs with h1
  · obtain ⟨_, hp, hj⟩ := h1
    have hl : a.charges.length = b.charges.length := by rw [← ha.1, ← hb.1, hj]
    have hw : (EffCharges.mk a.nquad (List.zipWith (· + ·) a.charges b.charges) a.jacobians a.positions).Wf := by
      refine ⟨?_, ha.2.1, ?_, ha.2.2.2⟩ <;> simp [List.length_zipWith, ← hl, ha.1, ha.2.2.1]
    refine ⟨_, by unfold EffCharges.new; rw [if_pos hw], hw, rfl, ?_, ?_⟩
    · intro f
      rw [loop_eq, loop_eq, loop_eq, superpose_zipWith f _ _ _ _ hl]
      have : b = ⟨b.nquad, b.charges, a.jacobians, a.positions⟩ := by rw [hp, hj]
      conv_rhs => rw [this]
      simp [Spec.superpose]
    · simp only [EffCharges.len, List.length_zipWith]; omega
  · have hw : (EffCharges.mk a.nquad (a.charges ++ b.charges) (a.jacobians ++ b.jacobians) (a.positions ++ b.positions)).Wf := by
      refine ⟨by simp [ha.1, hb.1], ?_, by simp [ha.2.2.1, hb.2.2.1], ?_⟩
      · intro row hr
        rcases List.mem_append.1 hr with hr | hr
        · exact ha.2.1 _ hr
        · exact (hb.2.1 _ hr).trans h.symm
      · intro row hr
        rcases List.mem_append.1 hr with hr | hr
        · exact ha.2.2.2 _ hr
        · exact (hb.2.2.2 _ hr).trans h.symm
    refine ⟨_, by unfold EffCharges.new; rw [if_pos hw], hw, rfl, ?_, ?_⟩
    · intro f
      rw [loop_eq, loop_eq, loop_eq]
      unfold Spec.superpose
      simp only
      rw [List.zip_append (by rw [ha.1, ha.2.2.1]), List.zip_append (by rw [List.length_zip, ha.1, ha.2.2.1]; simp), List.map_append, List.sum_append]
      ring
    · simp only [EffCharges.len, List.length_append]; omega

/-- Scaling never raises. -/
theorem EffCharges.scale_spec {a : EffCharges P} (ha : a.Wf) (k : ℝ) :
    ∃ c, a.scale k = some c ∧ c.Wf ∧ c.nquad = a.nquad ∧ Combines k 0 a a c ∧ c.len = a.len := by
  have hw : (EffCharges.mk a.nquad (a.charges.map (k * ·)) a.jacobians a.positions).Wf := by
    refine ⟨by simp [ha.1], ha.2.1, by simp [ha.2.2.1], ha.2.2.2⟩
  refine ⟨_, by unfold EffCharges.scale EffCharges.new; rw [if_pos hw], hw, rfl, ?_, by simp [EffCharges.len]⟩
  intro f
  rw [loop_eq, loop_eq, superpose_map]
  simp [Spec.superpose]

/-! ## What the combinations mean for potentials and fields -/

theorem Combines.potential3d {k l : ℝ} {a b c : EffCharges V3} (h : Combines k l a b c) (p : V3) :
    potential3d p c = k * potential3d p a + l * potential3d p b := h _

theorem Combines.field3d {k l : ℝ} {a b c : EffCharges V3} (h : Combines k l a b c) (p : V3) :
    field3d p c = k * field3d p a + l * field3d p b := by
  ext <;> simp only [Traceon.field3d, V3.add_x, V3.add_y, V3.add_z, V3.smul_x, V3.smul_y, V3.smul_z, loopSub_loop] <;> rw [h] <;> ring

theorem Combines.potentialRadial {k l : ℝ} {a b c : EffCharges (ℝ × ℝ)} (h : Combines k l a b c) (p : V3) :
    potentialRadial p c = k * potentialRadial p a + l * potentialRadial p b := h _

theorem fromRadial_lin (p : V3) (k l a b c d : ℝ) :
    fromRadial p (k * a + l * b) (k * c + l * d) = k * fromRadial p a c + l * fromRadial p b d := by
  unfold fromRadial
  split_ifs <;> ext <;> simp <;> ring

theorem Combines.fieldRadial {k l : ℝ} {a b c : EffCharges (ℝ × ℝ)} (h : Combines k l a b c) (p : V3) :
    fieldRadial p c = k * fieldRadial p a + l * fieldRadial p b := by
  unfold Traceon.fieldRadial
  rw [← fromRadial_lin]
  simp only [loopSub_loop]
  rw [h, h]
  congr 1 <;> ring

theorem Combines.currentField {k l : ℝ} {a b c : EffCharges V3} (h : Combines k l a b c) (p : V3) :
    currentField p c = k * currentField p a + l * currentField p b := by
  unfold Traceon.currentField
  rw [← fromRadial_lin, h, h]

/-- What the statements of C38 say about one operation: `c` produces `k` times what `a` produces plus `l` times what `b` produces, for charges in three dimensions. -/
structure Spec.Superposes3D (k l : ℝ) (a b c : EffCharges V3) : Prop where
  potential : ∀ p, potential3d p c = k * potential3d p a + l * potential3d p b
  field : ∀ p, field3d p c = k * field3d p a + l * field3d p b
  currentField : ∀ p, currentField p c = k * currentField p a + l * currentField p b

/-- The same for charged rings. -/
structure Spec.SuperposesRadial (k l : ℝ) (a b c : EffCharges (ℝ × ℝ)) : Prop where
  potential : ∀ p, potentialRadial p c = k * potentialRadial p a + l * potentialRadial p b
  field : ∀ p, fieldRadial p c = k * fieldRadial p a + l * fieldRadial p b
  axial : ∀ z n, axialDerivativesRadial z c n = k * axialDerivativesRadial z a n + l * axialDerivativesRadial z b n

theorem Combines.spec3D {k l : ℝ} {a b c : EffCharges V3} (h : Combines k l a b c) : Spec.Superposes3D k l a b c :=
  ⟨h.potential3d, h.field3d, h.currentField⟩

theorem Combines.specRadial {k l : ℝ} {a b c : EffCharges (ℝ × ℝ)} (h : Combines k l a b c) : Spec.SuperposesRadial k l a b c :=
  ⟨h.potentialRadial, h.fieldRadial, fun _ _ => h _⟩

/-- **C38**, three dimensions: sums, multiples and the negative of sets of point charges exist, are again well formed, and their potentials and fields are the sums, multiples and negatives, at every point,
whether the two sets live on the same elements or not. -/
theorem C38_threeD (a b : EffCharges V3) (ha : a.Wf) (hb : b.Wf) (h : a.nquad = b.nquad) (k : ℝ) :
    (∃ c, a.add b = some c ∧ c.Wf ∧ Spec.Superposes3D 1 1 a b c) ∧
    (∃ c, a.scale k = some c ∧ c.Wf ∧ Spec.Superposes3D k 0 a a c) ∧
    (∃ c, a.neg = some c ∧ c.Wf ∧ Spec.Superposes3D (-1) 0 a a c) := by
  refine ⟨?_, ?_, ?_⟩
  · obtain ⟨c, h1, h2, _, h3, _⟩ := add_spec ha hb h
    exact ⟨c, h1, h2, h3.spec3D⟩
  · obtain ⟨c, h1, h2, _, h3, _⟩ := scale_spec ha k
    exact ⟨c, h1, h2, h3.spec3D⟩
  · obtain ⟨c, h1, h2, _, h3, _⟩ := scale_spec ha (-1)
    exact ⟨c, h1, h2, h3.spec3D⟩

/-- **C38**, radial symmetry. -/
theorem C38_radial (a b : EffCharges (ℝ × ℝ)) (ha : a.Wf) (hb : b.Wf) (h : a.nquad = b.nquad) (k : ℝ) :
    (∃ c, a.add b = some c ∧ c.Wf ∧ Spec.SuperposesRadial 1 1 a b c) ∧
    (∃ c, a.scale k = some c ∧ c.Wf ∧ Spec.SuperposesRadial k 0 a a c) ∧
    (∃ c, a.neg = some c ∧ c.Wf ∧ Spec.SuperposesRadial (-1) 0 a a c) := by
  refine ⟨?_, ?_, ?_⟩
  · obtain ⟨c, h1, h2, _, h3, _⟩ := add_spec ha hb h
    exact ⟨c, h1, h2, h3.specRadial⟩
  · obtain ⟨c, h1, h2, _, h3, _⟩ := scale_spec ha k
    exact ⟨c, h1, h2, h3.specRadial⟩
  · obtain ⟨c, h1, h2, _, h3, _⟩ := scale_spec ha (-1)
    exact ⟨c, h1, h2, h3.specRadial⟩

/-- **C38**: the potentials and fields are those of the superposition principle. -/
theorem C38_principle :
    (∀ (e : EffCharges V3) p, potential3d p e = Spec.superpose (fun q => 1 / (4 * Real.pi * V3.norm (q - p))) e) ∧
    (∀ (e : EffCharges (ℝ × ℝ)) p, potentialRadial p e = Spec.superpose (fun q => potentialRadialRing (norm2d p.x p.y) p.z q.1 q.2) e) :=
  ⟨fun e _ => e.loop_eq _, fun e _ => e.loop_eq _⟩

/-- Two elements with two quadrature points each meet the hypotheses, on the same and on different positions, and the two branches of the code are both taken. -/
example : ∃ a b c : EffCharges V3, a.Wf ∧ b.Wf ∧ c.Wf ∧ a.nquad = b.nquad ∧ a.nquad = c.nquad ∧
    (∃ s, a.add b = some s ∧ s.len = 1) ∧ (∃ s, a.add c = some s ∧ s.len = 2) := by
  have w1 : ∀ q v, (EffCharges.mk (P := V3) 2 [q] [[1, 2]] [[⟨v, 0, 0⟩, ⟨0, 1, 0⟩]]).Wf := by
    intro q v; refine ⟨rfl, ?_, rfl, ?_⟩ <;> simp
  refine ⟨⟨2, [3], [[1, 2]], [[⟨0, 0, 0⟩, ⟨0, 1, 0⟩]]⟩, ⟨2, [5], [[1, 2]], [[⟨0, 0, 0⟩, ⟨0, 1, 0⟩]]⟩,
    ⟨2, [5], [[1, 2]], [[⟨7, 0, 0⟩, ⟨0, 1, 0⟩]]⟩, w1 _ _, w1 _ _, w1 _ _, rfl, rfl, ?_, ?_⟩
  · refine ⟨⟨2, [3 + 5], [[1, 2]], [[⟨0, 0, 0⟩, ⟨0, 1, 0⟩]]⟩, ?_, rfl⟩
    unfold EffCharges.add EffCharges.new
    rw [if_pos ⟨rfl, rfl, rfl⟩]; exact if_pos (w1 (3 + 5) 0)
  · have h0 : ¬((2 : Nat) = 2 ∧ ([[⟨0, 0, 0⟩, ⟨0, 1, 0⟩]] : List (List V3)) = [[⟨7, 0, 0⟩, ⟨0, 1, 0⟩]] ∧ ([[1, 2]] : List (List ℝ)) = [[1, 2]]) := by
      rintro ⟨_, h, _⟩
      have := congrArg (fun l : List (List V3) => ((l.headD []).headD 0).x) h
      norm_num at this
    refine ⟨⟨2, [3, 5], [[1, 2], [1, 2]], [[⟨0, 0, 0⟩, ⟨0, 1, 0⟩], [⟨7, 0, 0⟩, ⟨0, 1, 0⟩]]⟩, ?_, rfl⟩
    unfold EffCharges.add EffCharges.new
    rw [if_neg h0, if_pos rfl]
    exact if_pos (by refine ⟨rfl, ?_, rfl, ?_⟩ <;> simp)

end Traceon
