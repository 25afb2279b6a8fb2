import Verif.Lemmas.LoopFlux
import Verif.Props.GaussRadial
import Verif.Props.Ampere

/-!
# C116: no magnetic flux leaves a box
-/
namespace Traceon
open Spec V3 BoxFlux MeasureTheory Real

/-- **C116** (one loop). The flux of the magnetic field of a current loop out of any box whose surface it does not touch is zero. -/
theorem C116_loop {a b : V3} (hx : a.x ≤ b.x) (hy : a.y ≤ b.y) (hz : a.z ≤ b.z) (r z : ℝ) (h : RingInside a b r z ∨ RingOutside a b r z) : boxFlux (ringField r z) a b = 0 :=
  (LoopFlux.ringField_flux hx hy hz fun φ => h.elim (fun h => .inl (h φ)) fun h => .inr (h φ)).2

namespace LoopFlux

/-- The field of current loops, one after the other -/
noncomputable def loopsOf (l : List (ℝ × V3)) (p : V3) : V3 := l.foldr (fun x s => x.1 * ringField x.2.x x.2.z p + s) 0

theorem loopsOf_flux {a b : V3} (hx : a.x ≤ b.x) (hy : a.y ≤ b.y) (hz : a.z ≤ b.z) (l : List (ℝ × V3)) (h : ∀ x ∈ l, RingInside a b x.2.x x.2.z ∨ RingOutside a b x.2.x x.2.z) :
    Flat6 (loopsOf l) a b ∧ boxFlux (loopsOf l) a b = 0 := by
  induction l with
  | nil => exact Flat6.zero a b
  | cons x l ih =>
    obtain ⟨f1, f2⟩ := LoopFlux.ringField_flux hx hy hz fun φ => (h x List.mem_cons_self).elim (fun h => .inl (h φ)) fun h => .inr (h φ)
    obtain ⟨h1, h2⟩ := f1.smul x.1
    obtain ⟨i1, i2⟩ := ih fun y hy => h y (List.mem_cons_of_mem _ hy)
    obtain ⟨h3, h4⟩ := h1.add hx hy hz i1
    refine ⟨h3, ?_⟩
    rw [h2, i2, f2] at h4
    rw [mul_zero, add_zero] at h4
    exact h4

theorem loopsOf_sum (l : List (ℝ × V3)) (p : V3) : loopsOf l p =
    ⟨(l.map fun x => x.1 * (ringField x.2.x x.2.z p).x).sum, (l.map fun x => x.1 * (ringField x.2.x x.2.z p).y).sum, (l.map fun x => x.1 * (ringField x.2.x x.2.z p).z).sum⟩ := by
  induction l with
  | nil => rfl
  | cons x l ih =>
    change x.1 * ringField x.2.x x.2.z p + loopsOf l p = _
    rw [ih]
    ext <;> simp

theorem loopsField_eq (e : EffCharges V3) : loopsField e = loopsOf ((Fp.points e).map fun x => (x.1 * x.2.1, x.2.2)) := by
  funext p
  rw [loopsOf_sum]
  unfold loopsField
  simp only [List.map_map, Function.comp_def, ← EffCharges.loop_eq, ← Fp.points_sum]

theorem loopsField_flux (e : EffCharges V3) {a b : V3} (hx : a.x ≤ b.x) (hy : a.y ≤ b.y) (hz : a.z ≤ b.z)
    (h : ∀ row ∈ e.positions, ∀ q ∈ row, RingInside a b q.x q.z ∨ RingOutside a b q.x q.z) : Flat6 (loopsField e) a b ∧ boxFlux (loopsField e) a b = 0 := by
  rw [loopsField_eq]
  refine loopsOf_flux hx hy hz _ fun x hx' => ?_
  obtain ⟨y, hy', rfl⟩ := List.mem_map.1 hx'
  unfold Fp.points at hy'
  obtain ⟨c, hc, hy'⟩ := List.mem_flatMap.1 hy'
  obtain ⟨d, hd, rfl⟩ := List.mem_map.1 hy'
  exact h c.2.2 (List.of_mem_zip (List.of_mem_zip hc).2).2 d.2 (List.of_mem_zip hd).2

end LoopFlux

/-- **C116** (all the loops of a field). The flux of the field of the current loops, each according to the law of Biot and Savart, out of a box whose surface they do not touch is zero, whichever loops
are inside the box and whichever surround it or are beyond it; `current_field` returns this field up to the error of **C75**. -/
theorem C116_loops (e : EffCharges V3) :
    (∀ a b : V3, a.x ≤ b.x → a.y ≤ b.y → a.z ≤ b.z → (∀ row ∈ e.positions, ∀ q ∈ row, RingInside a b q.x q.z ∨ RingOutside a b q.x q.z) → boxFlux (loopsField e) a b = 0) ∧
    ∀ p, ClearOfLoops e p → (1e-10 ≤ axisDist p → V3.norm (currentField p e - loopsField e p) ≤ loopsError e p) ∧
      (p.x = 0 ∧ p.y = 0 → V3.norm (currentField p e - loopsField e p) ≤ 2e-13 * absSuperpose (fun q => 1 / ringNear q.x q.z p) e) := by
  refine ⟨fun a b hx hy hz h => (LoopFlux.loopsField_flux e hx hy hz h).2, fun p hoff => ?_⟩
  have hl : loopsField e p = ⟨e.loop (fun t => (ringField t.x t.z p).x), e.loop (fun t => (ringField t.x t.z p).y), e.loop (fun t => (ringField t.x t.z p).z)⟩ := by
    unfold loopsField; rw [EffCharges.loop_eq, EffCharges.loop_eq, EffCharges.loop_eq]
  rw [hl]
  exact C75_current_field e p hoff

/-- **C116** (coils). For every excitation with coils, the flux of their magnetic field out of a box is zero, if every triangle of a coil, rotated around the axis, is inside the box or outside of it. -/
theorem C116_coils (x : Excitation ℝ V3) (hv : Spec.Valid x.mesh) (hnum : ∀ nv ∈ x.types, nv.2.1 = .current → ∃ v, nv.2.2 = .num v)
    (harea : ∀ c ∈ Spec.coils x, ∃ t ∈ c.2, Spec.area t ≠ 0) :
    ∃ e, x.currentCharges = some e ∧
      (∀ a b : V3, a.x ≤ b.x → a.y ≤ b.y → a.z ≤ b.z →
        (∀ c ∈ Spec.coils x, ∀ t ∈ c.2, ∀ q, Spec.InTriangle3 t q → RingInside a b q.x q.z ∨ RingOutside a b q.x q.z) → boxFlux (loopsField e) a b = 0) ∧
      ∀ p, (∀ c ∈ Spec.coils x, ∀ t ∈ c.2, ∀ q, Spec.InTriangle3 t q → 1e-10 ≤ q.x ∧ OffRing p q.x q.z) →
        (1e-10 ≤ axisDist p → V3.norm (currentField p e - loopsField e p) ≤ loopsError e p) ∧
        (p.x = 0 ∧ p.y = 0 → V3.norm (currentField p e - loopsField e p) ≤ 2e-13 * absSuperpose (fun q => 1 / ringNear q.x q.z p) e) := by
  refine ⟨_, currentCharges_join x hv hnum harea, fun a b hx hy hz h => (C116_loops _).1 a b hx hy hz fun row hr q hq => ?_, fun p h => (C116_loops _).2 p fun row hr q hq => ?_⟩
  · obtain ⟨c, hc, t, ht, hi⟩ := joinParts_inside row hr q hq
    exact h c hc t ht q hi
  · obtain ⟨c, hc, t, ht, hi⟩ := joinParts_inside row hr q hq
    exact h c hc t ht q hi

/-- **C116** (the field with magnetic material). For every field object, the flux of the magnetic field strength, of the charged rings of the magnetic material and of the current loops together, out of a box whose
surface none of them touches, is that of the charged rings alone: the coils do not contribute. If the magnetic material is outside of the box, it is zero. `magnetostatic_field` returns this field, up to the accuracy
of the elliptic integrals. -/
theorem C116_magnetic (f : FieldRadialBEM) :
    (∀ a b : V3, a.x ≤ b.x → a.y ≤ b.y → a.z ≤ b.z → (∀ row ∈ f.mag.positions, ∀ q ∈ row, RingInside a b q.1 q.2 ∨ RingOutside a b q.1 q.2) →
      (∀ row ∈ f.cur.positions, ∀ q ∈ row, RingInside a b q.x q.z ∨ RingOutside a b q.x q.z) →
      boxFlux (fun p => coulombRings f.mag p + loopsField f.cur p) a b = boxFlux (coulombRings f.mag) a b ∧
      ((∀ row ∈ f.mag.positions, ∀ q ∈ row, RingOutside a b q.1 q.2) → boxFlux (fun p => coulombRings f.mag p + loopsField f.cur p) a b = 0)) ∧
    ∀ p, ClearOfRings f.mag p → ClearOfLoops f.cur p → ∃ H, PyObj.magnetostaticField p (.radial f) = some H ∧
      (1e-10 ≤ axisDist p → V3.norm (H - (coulombRings f.mag p + loopsField f.cur p)) ≤ ringsError f.mag p + loopsError f.cur p) ∧
      (p.x = 0 → p.y = 0 → V3.norm (H - (coulombRings f.mag p + loopsField f.cur p)) ≤
        2e-13 * absSuperpose (fun q => q.1 / ringNear q.1 q.2 p ^ 2) f.mag + 2e-13 * absSuperpose (fun q => 1 / ringNear q.x q.z p) f.cur) := by
  refine ⟨fun a b hx hy hz hmag hcur => ?_, fun p hm hc => ⟨_, rfl, ?_⟩⟩
  · obtain ⟨h1, h2⟩ := LoopFlux.loopsField_flux f.cur hx hy hz hcur
    have mem : ∀ x ∈ (Fp.points f.mag).map fun x => (x.1 * x.2.1, x.2.2), ∃ row ∈ f.mag.positions, x.2 ∈ row := fun x hx' => by
      obtain ⟨y, hy', rfl⟩ := List.mem_map.1 hx'
      unfold Fp.points at hy'
      obtain ⟨c, hc, hy'⟩ := List.mem_flatMap.1 hy'
      obtain ⟨d, hd, rfl⟩ := List.mem_map.1 hy'
      exact ⟨_, (List.of_mem_zip (List.of_mem_zip hc).2).2, (List.of_mem_zip hd).2⟩
    have h3 := ringsOf_flux hx hy hz _ fun x hx' => by
      obtain ⟨row, hr, hq⟩ := mem x hx'
      exact hmag row hr _ hq
    rw [← coulombRings_eq] at h3
    have e : boxFlux (fun p => coulombRings f.mag p + loopsField f.cur p) a b = boxFlux (coulombRings f.mag) a b := by
      rw [(h3.1.add hx hy hz h1).2, h2, add_zero]
    refine ⟨e, fun hout => ?_⟩
    rw [e, h3.2]
    refine List.sum_eq_zero fun t ht => ?_
    obtain ⟨x, hx', rfl⟩ := List.mem_map.1 ht
    obtain ⟨row, hr, hq⟩ := mem x hx'
    rw [(C112_ring hx hy hz x.2.1 x.2.2).2 (hout row hr _ hq), mul_zero]
  · have e1 : currentField p f.cur + fieldRadial p f.mag - (coulombRings f.mag p + loopsField f.cur p) =
        (fieldRadial p f.mag - coulombRings f.mag p) + (currentField p f.cur - loopsField f.cur p) := by
      ext <;> simp <;> ring
    rw [e1]
    obtain ⟨h1, h2⟩ := C112_field f.mag p hm
    obtain ⟨h3, h4⟩ := (C116_loops f.cur).2 p hc
    exact ⟨fun h => (norm_add_three _ _).trans (add_le_add (h1 h) (h3 h)), fun hx hy => (norm_add_three _ _).trans (add_le_add (h2 hx hy) (h4 ⟨hx, hy⟩))⟩

/-- A coil with a current of 3: no flux leaves a box around it, a box in its bore (although the field along the axis does not vanish there) or a box above it. -/
theorem C116_example : ∃ e, coilExample.currentCharges = some e ∧ ((Spec.coils coilExample).map Prod.fst).sum = 3 ∧
    boxFlux (loopsField e) ⟨-5, -5, -1⟩ ⟨5, 5, 2⟩ = 0 ∧ boxFlux (loopsField e) ⟨-1 / 2, -1 / 2, -1⟩ ⟨1 / 2, 1 / 2, 2⟩ = 0 ∧ boxFlux (loopsField e) ⟨-5, -5, 2⟩ ⟨5, 5, 3⟩ = 0 := by
  have hv : Spec.Valid coilExample.mesh := by
    refine ⟨Or.inl rfl, by simp [coilExample], ?_, by simp [coilExample], ?_, by simp [coilExample], by simp [coilExample]⟩
    · simp [coilExample]
    · simp [coilExample]
  have hc : Spec.coils coilExample = [(3, [⟨⟨1, 0, 0⟩, ⟨2, 0, 0⟩, ⟨2, 0, 1⟩⟩, ⟨⟨1, 0, 0⟩, ⟨2, 0, 1⟩, ⟨1, 0, 1⟩⟩])] := rfl
  obtain ⟨e, he, h, -⟩ := C116_coils coilExample hv (by
    intro nv h _
    simp only [coilExample, List.mem_singleton] at h
    exact ⟨3, by rw [h]⟩) (by
    rw [hc]
    intro c h
    rw [List.mem_singleton] at h
    subst h
    refine ⟨_, List.mem_cons_self .., ?_⟩
    have : Spec.area ⟨⟨1, 0, 0⟩, ⟨2, 0, 0⟩, ⟨2, 0, 1⟩⟩ = 1 / 2 := by
      unfold Spec.area V3.norm cross V3.dot
      simp
      norm_num
    rw [this]; norm_num)
  have hin : ∀ c ∈ Spec.coils coilExample, ∀ t ∈ c.2, ∀ q, Spec.InTriangle3 t q → (1 ≤ q.x ∧ q.x ≤ 2) ∧ 0 ≤ q.z ∧ q.z ≤ 1 := by
    rw [hc]
    intro c h t ht q hq
    rw [List.mem_singleton] at h
    subst h
    simp only [List.mem_cons, List.not_mem_nil, or_false] at ht
    obtain ⟨u, v, w, hu, hv, hw, h1, rfl⟩ := hq
    rcases ht with rfl | rfl <;> simp only [V3.add_x, V3.add_z, V3.smul_x, V3.smul_z] <;> refine ⟨⟨?_, ?_⟩, ?_, ?_⟩ <;> linarith
  refine ⟨e, he, by rw [hc]; simp, h _ _ (by norm_num) (by norm_num) (by norm_num) ?_, h _ _ (by norm_num) (by norm_num) (by norm_num) ?_, h _ _ (by norm_num) (by norm_num) (by norm_num) ?_⟩
  · intro c hc' t ht q hq
    obtain ⟨⟨h1, h2⟩, h3, h4⟩ := hin c hc' t ht q hq
    exact .inl (ring_in_box (by linarith) (by linarith) (by linarith) (by linarith))
  · intro c hc' t ht q hq
    obtain ⟨⟨h1, h2⟩, h3, h4⟩ := hin c hc' t ht q hq
    refine .inr fun φ => ?_
    simp only [OutsideBox, ringPoint]
    by_contra hn
    push Not at hn
    obtain ⟨⟨n1, n2⟩, ⟨n3, n4⟩, -⟩ := hn
    have c1 : (q.x * cos φ) ^ 2 ≤ 1 / 4 := by nlinarith
    have c2 : (q.x * sin φ) ^ 2 ≤ 1 / 4 := by nlinarith
    have c3 : (q.x * cos φ) ^ 2 + (q.x * sin φ) ^ 2 = q.x ^ 2 := by linear_combination q.x ^ 2 * Real.sin_sq_add_cos_sq φ
    nlinarith
  · intro c hc' t ht q hq
    obtain ⟨⟨h1, h2⟩, h3, h4⟩ := hin c hc' t ht q hq
    refine .inr fun φ => .inr (.inr (.inl ?_))
    simp only [ringPoint]
    linarith

end Traceon
