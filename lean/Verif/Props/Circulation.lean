import Verif.Lemmas.Circulation
import Verif.Props.LoopFlux

/-!
# C117: Ampère's law around any rectangle
-/
namespace Traceon
open Real Spec V3 Filter Topology MeasureTheory

/-- **C117** (one loop). The circulation of the field of a loop with unit current around a rectangle is 1 if the rectangle encloses the wire, and 0 if the wire is outside. -/
theorem C117_loop {r z x₁ x₂ z₁ z₂ : ℝ} (hr : 0 ≤ r) (hx₁ : 0 ≤ x₁) (hx : x₁ ≤ x₂) (hz : z₁ ≤ z₂) :
    (InRectangle x₁ x₂ z₁ z₂ ⟨r, 0, z⟩ → circulation (ringField r z) x₁ x₂ z₁ z₂ = 1) ∧ (OutRectangle x₁ x₂ z₁ z₂ ⟨r, 0, z⟩ → circulation (ringField r z) x₁ x₂ z₁ z₂ = 0) := by
  refine ⟨fun ⟨h1, h2, h3, h4⟩ => Circulation.ring hx₁ h1 h2 h3 h4, fun h => Circulation.green hx hz fun x hx' z' hz' => ringField_vacuum hr (Circulation.off_plane hr (hx₁.trans hx'.1) ?_)⟩
  rintro ⟨rfl, rfl⟩
  simp only [OutRectangle] at h
  obtain ⟨h1, h2⟩ := hx'
  obtain ⟨h3, h4⟩ := hz'
  rcases h with h | h | h | h <;> linarith

namespace Circulation

/-- The circulation of a combination of fields -/
theorem circulation_add {F G : V3 → V3} {x₁ x₂ z₁ z₂ : ℝ} (hF : ∀ x z, (x ∈ Set.uIcc x₁ x₂ ∧ (z = z₁ ∨ z = z₂)) ∨ ((x = x₁ ∨ x = x₂) ∧ z ∈ Set.uIcc z₁ z₂) → VacuumField F ⟨x, 0, z⟩)
    (hG : ∀ x z, (x ∈ Set.uIcc x₁ x₂ ∧ (z = z₁ ∨ z = z₂)) ∨ ((x = x₁ ∨ x = x₂) ∧ z ∈ Set.uIcc z₁ z₂) → VacuumField G ⟨x, 0, z⟩) :
    circulation (fun p => F p + G p) x₁ x₂ z₁ z₂ = circulation F x₁ x₂ z₁ z₂ + circulation G x₁ x₂ z₁ z₂ := by
  have sz : ∀ x, x = x₁ ∨ x = x₂ → ∫ z in z₁..z₂, ((F ⟨x, 0, z⟩).z + (G ⟨x, 0, z⟩).z) = (∫ z in z₁..z₂, (F ⟨x, 0, z⟩).z) + ∫ z in z₁..z₂, (G ⟨x, 0, z⟩).z := fun x hx =>
    intervalIntegral.integral_add (edge_z fun z hz => hF x z (.inr ⟨hx, hz⟩)) (edge_z fun z hz => hG x z (.inr ⟨hx, hz⟩))
  have sx : ∀ z, z = z₁ ∨ z = z₂ → ∫ x in x₁..x₂, ((F ⟨x, 0, z⟩).x + (G ⟨x, 0, z⟩).x) = (∫ x in x₁..x₂, (F ⟨x, 0, z⟩).x) + ∫ x in x₁..x₂, (G ⟨x, 0, z⟩).x := fun z hz =>
    intervalIntegral.integral_add (edge_x fun x hx => hF x z (.inl ⟨hx, hz⟩)) (edge_x fun x hx => hG x z (.inl ⟨hx, hz⟩))
  unfold circulation
  simp only [V3.add_x, V3.add_z]
  rw [sz _ (.inl rfl), sz _ (.inr rfl), sx _ (.inl rfl), sx _ (.inr rfl)]
  ring

theorem circulation_smul (F : V3 → V3) (k x₁ x₂ z₁ z₂ : ℝ) : circulation (fun p => k * F p) x₁ x₂ z₁ z₂ = k * circulation F x₁ x₂ z₁ z₂ := by
  unfold circulation
  simp only [V3.smul_x, V3.smul_z, intervalIntegral.integral_const_mul]
  ring

/-- A wire that is inside or outside the rectangle is not on its boundary. -/
theorem boundary_off {q : V3} {x₁ x₂ z₁ z₂ x z : ℝ} (hr : 0 ≤ q.x) (hx₁ : 0 ≤ x₁) (hx : x₁ ≤ x₂) (hz : z₁ ≤ z₂) (h : InRectangle x₁ x₂ z₁ z₂ q ∨ OutRectangle x₁ x₂ z₁ z₂ q)
    (hb : (x ∈ Set.uIcc x₁ x₂ ∧ (z = z₁ ∨ z = z₂)) ∨ ((x = x₁ ∨ x = x₂) ∧ z ∈ Set.uIcc z₁ z₂)) : OffRing ⟨x, 0, z⟩ q.x q.z := by
  rw [Set.uIcc_of_le hx, Set.uIcc_of_le hz] at hb
  have h0 : 0 ≤ x := by
    rcases hb with ⟨hb, -⟩ | ⟨rfl | rfl, -⟩
    · exact hx₁.trans hb.1
    · exact hx₁
    · exact hx₁.trans hx
  refine off_plane hr h0 fun ⟨e1, e2⟩ => ?_
  rw [e1, e2] at hb
  unfold InRectangle OutRectangle at h
  rcases hb with ⟨hb, hb' | hb'⟩ | ⟨hb | hb, hb'⟩
  all_goals
    try obtain ⟨b1, b2⟩ := hb
    try obtain ⟨b3, b4⟩ := hb'
    rcases h with ⟨h1, h2, h3, h4⟩ | h | h | h | h <;> linarith

theorem loopsOf_circulation {x₁ x₂ z₁ z₂ : ℝ} (hx₁ : 0 ≤ x₁) (hx : x₁ ≤ x₂) (hz : z₁ ≤ z₂) (l : List (ℝ × V3)) (h : ∀ x ∈ l, 0 ≤ x.2.x ∧ (InRectangle x₁ x₂ z₁ z₂ x.2 ∨ OutRectangle x₁ x₂ z₁ z₂ x.2)) :
    (∀ x z, (x ∈ Set.uIcc x₁ x₂ ∧ (z = z₁ ∨ z = z₂)) ∨ ((x = x₁ ∨ x = x₂) ∧ z ∈ Set.uIcc z₁ z₂) → VacuumField (LoopFlux.loopsOf l) ⟨x, 0, z⟩) ∧
    circulation (LoopFlux.loopsOf l) x₁ x₂ z₁ z₂ = (l.map fun x => x.1 * circulation (ringField x.2.x x.2.z) x₁ x₂ z₁ z₂).sum := by
  induction l with
  | nil =>
    refine ⟨fun _ _ _ => Spec.VacuumField.zero _, ?_⟩
    simp [LoopFlux.loopsOf, circulation]
  | cons y l ih =>
    obtain ⟨i1, i2⟩ := ih fun x hx => h x (List.mem_cons_of_mem _ hx)
    obtain ⟨hr, hb⟩ := h y List.mem_cons_self
    have v : ∀ x z, (x ∈ Set.uIcc x₁ x₂ ∧ (z = z₁ ∨ z = z₂)) ∨ ((x = x₁ ∨ x = x₂) ∧ z ∈ Set.uIcc z₁ z₂) → VacuumField (fun p => y.1 * ringField y.2.x y.2.z p) ⟨x, 0, z⟩ := fun x z hxz =>
      (ringField_vacuum hr (boundary_off hr hx₁ hx hz hb hxz)).smul _
    refine ⟨fun x z hxz => (v x z hxz).add (i1 x z hxz), ?_⟩
    rw [List.map_cons, List.sum_cons, ← i2, ← circulation_smul, ← circulation_add v i1]
    rfl

/-- Around a rectangle the circulation of a gradient is zero. -/
theorem gradient {F : V3 → V3} {φ : V3 → ℝ} {x₁ x₂ z₁ z₂ : ℝ}
    (hF : ∀ x z, (x ∈ Set.uIcc x₁ x₂ ∧ (z = z₁ ∨ z = z₂)) ∨ ((x = x₁ ∨ x = x₂) ∧ z ∈ Set.uIcc z₁ z₂) → VacuumField F ⟨x, 0, z⟩ ∧ IsGradient φ (-F ⟨x, 0, z⟩) ⟨x, 0, z⟩) :
    circulation F x₁ x₂ z₁ z₂ = 0 := by
  have sz : ∀ x, x = x₁ ∨ x = x₂ → ∫ z in z₁..z₂, (F ⟨x, 0, z⟩).z = φ ⟨x, 0, z₁⟩ - φ ⟨x, 0, z₂⟩ := fun x hx => by
    have hi := edge_z fun z hz => (hF x z (.inr ⟨hx, hz⟩)).1
    have := intervalIntegral.integral_eq_sub_of_hasDerivAt (f := fun z => -φ ⟨x, 0, z⟩) (f' := fun z => (F ⟨x, 0, z⟩).z) (a := z₁) (b := z₂) (fun z hz => by
      have h1 := plane_deriv (v := (x, z)) (hF x z (.inr ⟨hx, hz⟩)).2
      have h2 : HasDerivAt (fun z : ℝ => ((x, z) : ℝ × ℝ)) (0, 1) z := (hasDerivAt_const z x).prodMk (hasDerivAt_id z)
      have h3 := (h1.comp_hasDerivAt z h2).neg
      exact h3.congr_deriv (by simp)) hi
    rw [this]; ring
  have sx : ∀ z, z = z₁ ∨ z = z₂ → ∫ x in x₁..x₂, (F ⟨x, 0, z⟩).x = φ ⟨x₁, 0, z⟩ - φ ⟨x₂, 0, z⟩ := fun z hz => by
    have hi := edge_x fun x hx => (hF x z (.inl ⟨hx, hz⟩)).1
    have := intervalIntegral.integral_eq_sub_of_hasDerivAt (f := fun x => -φ ⟨x, 0, z⟩) (f' := fun x => (F ⟨x, 0, z⟩).x) (a := x₁) (b := x₂) (fun x hx => by
      have h1 := plane_deriv (v := (x, z)) (hF x z (.inl ⟨hx, hz⟩)).2
      have h2 : HasDerivAt (fun x : ℝ => ((x, z) : ℝ × ℝ)) (1, 0) x := (hasDerivAt_id x).prodMk (hasDerivAt_const x z)
      have h3 := (h1.comp_hasDerivAt x h2).neg
      exact h3.congr_deriv (by simp)) hi
    rw [this]; ring
  unfold circulation
  rw [sz _ (.inl rfl), sz _ (.inr rfl), sx _ (.inl rfl), sx _ (.inr rfl)]
  ring

end Circulation

open Classical in
/-- **C117** (all the loops of a field). The circulation of the field of the current loops around a rectangle is the sum of the currents inside. -/
theorem C117_loops (e : EffCharges V3) {x₁ x₂ z₁ z₂ : ℝ} (hx₁ : 0 ≤ x₁) (hx : x₁ ≤ x₂) (hz : z₁ ≤ z₂)
    (h : ∀ row ∈ e.positions, ∀ q ∈ row, 0 ≤ q.x ∧ (InRectangle x₁ x₂ z₁ z₂ q ∨ OutRectangle x₁ x₂ z₁ z₂ q)) :
    circulation (loopsField e) x₁ x₂ z₁ z₂ = superpose (fun q => if InRectangle x₁ x₂ z₁ z₂ q then 1 else 0) e := by
  have mem : ∀ y ∈ (Fp.points e).map fun x => (x.1 * x.2.1, x.2.2), ∃ row ∈ e.positions, y.2 ∈ row := fun x hx' => by
    obtain ⟨y, hy', rfl⟩ := List.mem_map.1 hx'
    unfold Fp.points at hy'
    obtain ⟨c, hc, hy'⟩ := List.mem_flatMap.1 hy'
    obtain ⟨d, hd, rfl⟩ := List.mem_map.1 hy'
    exact ⟨_, (List.of_mem_zip (List.of_mem_zip hc).2).2, (List.of_mem_zip hd).2⟩
  have h' : ∀ y ∈ (Fp.points e).map fun x => (x.1 * x.2.1, x.2.2), 0 ≤ y.2.x ∧ (InRectangle x₁ x₂ z₁ z₂ y.2 ∨ OutRectangle x₁ x₂ z₁ z₂ y.2) := fun y hy => by
    obtain ⟨row, hr, hq⟩ := mem y hy
    exact h row hr _ hq
  rw [LoopFlux.loopsField_eq, (Circulation.loopsOf_circulation hx₁ hx hz _ h').2, ← EffCharges.loop_eq, ← Fp.points_sum]
  rw [show (fun x : ℝ × ℝ × V3 => x.1 * x.2.1 * if InRectangle x₁ x₂ z₁ z₂ x.2.2 then (1 : ℝ) else 0) =
    (fun y : ℝ × V3 => y.1 * if InRectangle x₁ x₂ z₁ z₂ y.2 then (1 : ℝ) else 0) ∘ fun x : ℝ × ℝ × V3 => (x.1 * x.2.1, x.2.2) from rfl, ← List.map_map]
  congr 1
  refine List.map_congr_left fun y hy => ?_
  obtain ⟨hr, hb⟩ := h' y hy
  obtain ⟨c1, c2⟩ := C117_loop (z := y.2.z) hr hx₁ hx hz
  congr 1
  by_cases hi : InRectangle x₁ x₂ z₁ z₂ y.2
  · rw [if_pos hi]; exact c1 hi
  · rw [if_neg hi]; exact c2 (hb.resolve_left hi)

open Classical in
/-- **C117** (coils). For every excitation with coils, each of which is inside the rectangle or outside of it, the circulation of their magnetic field around the rectangle is the sum of the currents that were asked for of the
coils inside. -/
theorem C117_coils (x : Excitation ℝ V3) (hv : Spec.Valid x.mesh) (hnum : ∀ nv ∈ x.types, nv.2.1 = .current → ∃ v, nv.2.2 = .num v)
    (harea : ∀ c ∈ Spec.coils x, ∃ t ∈ c.2, Spec.area t ≠ 0) (hright : ∀ c ∈ Spec.coils x, ∀ t ∈ c.2, 0 ≤ t.v0.x ∧ 0 ≤ t.v1.x ∧ 0 ≤ t.v2.x) {x₁ x₂ z₁ z₂ : ℝ} (hx₁ : 0 ≤ x₁) (hx : x₁ ≤ x₂) (hz : z₁ ≤ z₂)
    (h : ∀ c ∈ Spec.coils x, (∀ t ∈ c.2, ∀ q, Spec.InTriangle3 t q → InRectangle x₁ x₂ z₁ z₂ q) ∨ ∀ t ∈ c.2, ∀ q, Spec.InTriangle3 t q → OutRectangle x₁ x₂ z₁ z₂ q) :
    ∃ e, x.currentCharges = some e ∧ circulation (loopsField e) x₁ x₂ z₁ z₂ =
      ((Spec.coils x).map fun c => if ∀ t ∈ c.2, ∀ q, Spec.InTriangle3 t q → InRectangle x₁ x₂ z₁ z₂ q then c.1 else 0).sum := by
  refine ⟨_, currentCharges_join x hv hnum harea, ?_⟩
  have part : ∀ c ∈ Spec.coils x, ∀ row ∈ (coilPart c).positions, ∀ q ∈ row, ∃ t ∈ c.2, Spec.InTriangle3 t q := fun c hc row hr q hq => by
    simp only [coilPart, List.mem_map] at hr
    obtain ⟨t, ht, rfl⟩ := hr
    exact ⟨t, ht, (posRow_inside t).2 q hq⟩
  rw [C117_loops _ hx₁ hx hz, joinParts_superpose]
  · congr 1
    refine List.map_congr_left fun c hc => ?_
    have ends : ∀ k : ℝ, (∀ row ∈ (coilPart c).positions, ∀ q ∈ row, (if InRectangle x₁ x₂ z₁ z₂ q then (1 : ℝ) else 0) = k) →
        superpose (fun q => if InRectangle x₁ x₂ z₁ z₂ q then (1 : ℝ) else 0) (coilPart c) = k * c.1 := fun k hk => by
      rw [← EffCharges.loop_eq, loop_congr (coilPart c) hk, EffCharges.loop_eq, superpose_constant]
      congr 1
      exact coilPart_total c.1 c.2 (harea c hc)
    by_cases hin : ∀ t ∈ c.2, ∀ q, Spec.InTriangle3 t q → InRectangle x₁ x₂ z₁ z₂ q
    · rw [if_pos hin, ends 1 fun row hr q hq => ?_, one_mul]
      obtain ⟨t, ht, hi⟩ := part c hc row hr q hq
      exact if_pos (hin t ht q hi)
    · rw [if_neg hin, ends 0 fun row hr q hq => ?_, zero_mul]
      obtain ⟨t, ht, hi⟩ := part c hc row hr q hq
      refine if_neg fun hq' => ?_
      have := (h c hc).resolve_left hin t ht q hi
      obtain ⟨k1, k2, k3, k4⟩ := hq'
      rcases this with k | k | k | k <;> linarith
  · intro row hr q hq
    obtain ⟨c, hc, t, ht, hi⟩ := joinParts_inside row hr q hq
    refine ⟨?_, (h c hc).elim (fun h => .inl (h t ht q hi)) fun h => .inr (h t ht q hi)⟩
    obtain ⟨a, b, d, ha, hb, hd, -, rfl⟩ := hi
    obtain ⟨k1, k2, k3⟩ := hright c hc t ht
    simp only [V3.add_x, V3.smul_x]
    positivity

open Classical in
/-- **C117** (the field with magnetic material). For every field object, the circulation of the magnetic field strength, of the charged rings of the magnetic material and of the current loops together, around a rectangle
whose boundary none of them touches is the current through the rectangle: the material does not contribute. `magnetostatic_field` returns this field, up to the accuracy of the elliptic integrals. -/
theorem C117_magnetic (f : FieldRadialBEM) :
    (∀ x₁ x₂ z₁ z₂ : ℝ, 0 ≤ x₁ → x₁ ≤ x₂ → z₁ ≤ z₂ →
      (∀ row ∈ f.mag.positions, ∀ q ∈ row, 0 < q.1 ∧ (InRectangle x₁ x₂ z₁ z₂ ⟨q.1, 0, q.2⟩ ∨ OutRectangle x₁ x₂ z₁ z₂ ⟨q.1, 0, q.2⟩)) →
      (∀ row ∈ f.cur.positions, ∀ q ∈ row, 0 ≤ q.x ∧ (InRectangle x₁ x₂ z₁ z₂ q ∨ OutRectangle x₁ x₂ z₁ z₂ q)) →
      circulation (fun p => coulombRings f.mag p + loopsField f.cur p) x₁ x₂ z₁ z₂ = superpose (fun q => if InRectangle x₁ x₂ z₁ z₂ q then 1 else 0) f.cur) ∧
    ∀ p, ClearOfRings f.mag p → ClearOfLoops f.cur p → ∃ H, PyObj.magnetostaticField p (.radial f) = some H ∧
      (1e-10 ≤ axisDist p → V3.norm (H - (coulombRings f.mag p + loopsField f.cur p)) ≤ ringsError f.mag p + loopsError f.cur p) ∧
      (p.x = 0 → p.y = 0 → V3.norm (H - (coulombRings f.mag p + loopsField f.cur p)) ≤
        2e-13 * absSuperpose (fun q => q.1 / ringNear q.1 q.2 p ^ 2) f.mag + 2e-13 * absSuperpose (fun q => 1 / ringNear q.x q.z p) f.cur) := by
  refine ⟨fun x₁ x₂ z₁ z₂ hx₁ hx hz hm hc => ?_, (C116_magnetic f).2⟩
  have clear : ∀ x z, (x ∈ Set.uIcc x₁ x₂ ∧ (z = z₁ ∨ z = z₂)) ∨ ((x = x₁ ∨ x = x₂) ∧ z ∈ Set.uIcc z₁ z₂) → ClearOfRings f.mag ⟨x, 0, z⟩ := fun x z hb row hr q hq =>
    ⟨(hm row hr q hq).1, Circulation.boundary_off (q := ⟨q.1, 0, q.2⟩) (hm row hr q hq).1.le hx₁ hx hz (hm row hr q hq).2 hb⟩
  have v : ∀ x z, (x ∈ Set.uIcc x₁ x₂ ∧ (z = z₁ ∨ z = z₂)) ∨ ((x = x₁ ∨ x = x₂) ∧ z ∈ Set.uIcc z₁ z₂) →
      VacuumField (coulombRings f.mag) ⟨x, 0, z⟩ ∧ IsGradient (ringsPotential f.mag) (-coulombRings f.mag ⟨x, 0, z⟩) ⟨x, 0, z⟩ := fun x z hb =>
    ⟨(C109_rings_everywhere f.mag _ (clear x z hb)).1, (C109_rings_everywhere f.mag _ (clear x z hb)).2.1⟩
  have w : ∀ x z, (x ∈ Set.uIcc x₁ x₂ ∧ (z = z₁ ∨ z = z₂)) ∨ ((x = x₁ ∨ x = x₂) ∧ z ∈ Set.uIcc z₁ z₂) → VacuumField (loopsField f.cur) ⟨x, 0, z⟩ := fun x z hb =>
    vacuum_superpose (fun (q : V3) v => ringField q.x q.z v) f.cur _ fun row hr q hq =>
      ringField_vacuum (hc row hr q hq).1 (Circulation.boundary_off (hc row hr q hq).1 hx₁ hx hz (hc row hr q hq).2 hb)
  rw [Circulation.circulation_add (fun x z hb => (v x z hb).1) w, Circulation.gradient v, zero_add]
  exact C117_loops f.cur hx₁ hx hz hc

/-- Around the coil with a current of 3 the circulation is 3, around a rectangle next to it 0. -/
theorem C117_example : ∃ e, coilExample.currentCharges = some e ∧ circulation (loopsField e) 0 5 (-1) 2 = 3 ∧ circulation (loopsField e) (1 / 2) 3 (-1) 2 = 3 ∧
    circulation (loopsField e) 0 (1 / 2) (-1) 2 = 0 := by
  have hv : Spec.Valid coilExample.mesh := by
    refine ⟨Or.inl rfl, by simp [coilExample], ?_, by simp [coilExample], ?_, by simp [coilExample], by simp [coilExample]⟩
    · simp [coilExample]
    · simp [coilExample]
  have hc : Spec.coils coilExample = [(3, [⟨⟨1, 0, 0⟩, ⟨2, 0, 0⟩, ⟨2, 0, 1⟩⟩, ⟨⟨1, 0, 0⟩, ⟨2, 0, 1⟩, ⟨1, 0, 1⟩⟩])] := rfl
  have hnum : ∀ nv ∈ coilExample.types, nv.2.1 = .current → ∃ v, nv.2.2 = .num v := by
    intro nv h _
    simp only [coilExample, List.mem_singleton] at h
    exact ⟨3, by rw [h]⟩
  have harea : ∀ c ∈ Spec.coils coilExample, ∃ t ∈ c.2, Spec.area t ≠ 0 := by
    rw [hc]
    intro c h
    rw [List.mem_singleton] at h
    subst h
    refine ⟨_, List.mem_cons_self .., ?_⟩
    have : Spec.area ⟨⟨1, 0, 0⟩, ⟨2, 0, 0⟩, ⟨2, 0, 1⟩⟩ = 1 / 2 := by
      unfold Spec.area V3.norm cross V3.dot
      simp
      norm_num
    rw [this]; norm_num
  have hright : ∀ c ∈ Spec.coils coilExample, ∀ t ∈ c.2, 0 ≤ t.v0.x ∧ 0 ≤ t.v1.x ∧ 0 ≤ t.v2.x := fun c hc t ht => by
    obtain ⟨h1, h2, h3⟩ := C110_example.1 c hc t ht
    exact ⟨h1.le, h2.le, h3.le⟩
  have hin : ∀ c ∈ Spec.coils coilExample, ∀ t ∈ c.2, ∀ q, Spec.InTriangle3 t q → (1 ≤ q.x ∧ q.x ≤ 2) ∧ 0 ≤ q.z ∧ q.z ≤ 1 := by
    rw [hc]
    intro c h t ht q hq
    rw [List.mem_singleton] at h
    subst h
    simp only [List.mem_cons, List.not_mem_nil, or_false] at ht
    obtain ⟨u, v, w, hu, hv, hw, h1, rfl⟩ := hq
    rcases ht with rfl | rfl <;> simp only [V3.add_x, V3.add_z, V3.smul_x, V3.smul_z] <;> refine ⟨⟨?_, ?_⟩, ?_, ?_⟩ <;> linarith
  have one : ∃ q, Spec.InTriangle3 ⟨⟨1, 0, 0⟩, ⟨2, 0, 0⟩, ⟨2, 0, 1⟩⟩ q := ⟨_, 1 / 3, 1 / 3, 1 / 3, by norm_num, by norm_num, by norm_num, by norm_num, rfl⟩
  have inside : ∀ x₁ x₂, 0 ≤ x₁ → x₁ < 1 → 2 < x₂ → ∃ e, coilExample.currentCharges = some e ∧ circulation (loopsField e) x₁ x₂ (-1) 2 = 3 := fun x₁ x₂ h0 h1 h2 => by
    have hall : ∀ c ∈ Spec.coils coilExample, ∀ t ∈ c.2, ∀ q, Spec.InTriangle3 t q → InRectangle x₁ x₂ (-1) 2 q := fun c hc' t ht q hq => by
      obtain ⟨⟨k1, k2⟩, k3, k4⟩ := hin c hc' t ht q hq
      exact ⟨by linarith, by linarith, by linarith, by linarith⟩
    obtain ⟨e, he, h⟩ := C117_coils coilExample hv hnum harea hright (x₁ := x₁) (x₂ := x₂) (z₁ := -1) (z₂ := 2) h0 (by linarith) (by norm_num) fun c hc' => .inl (hall c hc')
    refine ⟨e, he, h.trans ?_⟩
    rw [hc] at hall ⊢
    rw [List.map_singleton, if_pos (hall _ (List.mem_singleton_self _))]
    simp
  obtain ⟨e, he, h1⟩ := inside 0 5 le_rfl (by norm_num) (by norm_num)
  obtain ⟨e', he', h2⟩ := inside (1 / 2) 3 (by norm_num) (by norm_num) (by norm_num)
  have hout : ∀ c ∈ Spec.coils coilExample, ∀ t ∈ c.2, ∀ q, Spec.InTriangle3 t q → OutRectangle 0 (1 / 2) (-1) 2 q := fun c hc' t ht q hq => by
    obtain ⟨⟨k1, k2⟩, k3, k4⟩ := hin c hc' t ht q hq
    exact .inr (.inl (by linarith))
  obtain ⟨e'', he'', h3⟩ := C117_coils coilExample hv hnum harea hright (x₁ := 0) (x₂ := 1 / 2) (z₁ := -1) (z₂ := 2) le_rfl (by norm_num) (by norm_num) fun c hc' => .inr (hout c hc')
  rw [he] at he' he''
  obtain rfl := Option.some.inj he'
  obtain rfl := Option.some.inj he''
  refine ⟨e, he, h1, h2, h3.trans ?_⟩
  rw [hc] at hin ⊢
  rw [List.map_singleton, if_neg]
  · simp
  · intro hall
    obtain ⟨q, hq⟩ := one
    obtain ⟨-, k, -⟩ := hall _ List.mem_cons_self q hq
    have := (hin _ (List.mem_singleton_self _) _ List.mem_cons_self q hq).1.1
    linarith

end Traceon
