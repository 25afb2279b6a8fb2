import Verif.Model.Coil
import Verif.Props.Charges
import Verif.Spec.Mesh
import Verif.Lemmas.List
import Mathlib.Tactic.NormNum

/-!
# C41: the total current of a coil is the requested current
-/
namespace Traceon
open V3

/-! ## Specification -/
namespace Spec

/-- The area of a triangle. -/
noncomputable def area (t : Tri3) : ℝ := V3.norm (cross (t.v1 - t.v0) (t.v2 - t.v0)) / 2

/-- The point lies in the triangle. -/
def InTriangle3 (t : Tri3) (p : V3) : Prop :=
  ∃ a b c : ℝ, 0 < a ∧ 0 < b ∧ 0 < c ∧ a + b + c = 1 ∧ p = a * t.v0 + b * t.v1 + c * t.v2

/-- Triangle number `i` of the mesh. -/
def triangle (m : Mesh V3) (i : Nat) : Option Tri3 :=
  match m.triangles[i]? with
  | some [a, b, c] =>
    match m.points[a]?, m.points[b]?, m.points[c]? with
    | some p, some q, some r => some ⟨p, q, r⟩
    | _, _, _ => none
  | _ => none

/-- The coils of an excitation, in the order in which they were added: the requested current and the triangles. -/
def coils (x : Excitation ℝ V3) : List (ℝ × List Tri3) :=
  x.types.filterMap (fun nv =>
    match nv.2 with
    | (.current, .num I) =>
      match x.mesh.physTris.get nv.1 with
      | some (i :: is) => some (I, (i :: is).filterMap (triangle x.mesh))
      | _ => none
    | _ => none)

/-- The charges `e` are a current `I` that is uniformly distributed over the triangles: there is one element per triangle, with its quadrature points in the triangle and
positive weights; the current through a triangle is `I` times its share of the area. -/
structure UniformCurrent (I : ℝ) (ts : List Tri3) (e : EffCharges V3) : Prop where
  wf : e.Wf
  number : e.charges.length = ts.length
  inside : ∀ (k : ℕ) t row, ts[k]? = some t → e.positions[k]? = some row → row ≠ [] ∧ ∀ p ∈ row, InTriangle3 t p
  share : ∀ (k : ℕ) t c row, ts[k]? = some t → e.charges[k]? = some c → e.jacobians[k]? = some row →
    (row.map (c * ·)).sum = I * (area t / (ts.map area).sum)

end Spec

/-! ## Proofs -/

theorem triArea_eq (t : Tri3) : triArea t = Spec.area t := by
  unfold triArea Spec.area V3.norm V3.dot cross
  simp only [sub_x, sub_y, sub_z]
  rw [show (0.5 : ℝ) = 1 / 2 by norm_num, one_div_mul_eq_div]
  congr 2
  ring

theorem area_nonneg (t : Tri3) : 0 ≤ Spec.area t := div_nonneg (Real.sqrt_nonneg _) (by norm_num)

/-- Twice the sum of the weights. -/
theorem jacRow_sum (t : Tri3) : (jacRow t).sum = 1.000000000000002 * Spec.area t := by
  unfold jacRow quadRule
  rw [triArea_eq]
  simp only [List.map_cons, List.map_nil, List.sum_cons, List.sum_nil]
  ring

theorem posRow_inside (t : Tri3) : posRow t ≠ [] ∧ ∀ p ∈ posRow t, Spec.InTriangle3 t p := by
  constructor
  · simp [posRow, quadRule]
  · have key : ∀ q ∈ quadRule, 0 < 1 - q.2.1 - q.2.2 ∧ 0 < q.2.1 ∧ 0 < q.2.2 := by
      unfold quadRule; simp only [List.forall_mem_cons]; norm_num
    intro p hp
    obtain ⟨q, hq, rfl⟩ := List.mem_map.1 hp
    obtain ⟨h1, h2, h3⟩ := key q hq
    exact ⟨_, _, _, h1, h2, h3, by ring, by ext <;> simp <;> ring⟩

/-- The charges of one coil. -/
noncomputable def coilPart (c : ℝ × List Tri3) : EffCharges V3 :=
  ⟨12, List.replicate c.2.length (c.1 / ((c.2.map jacRow).map List.sum).sum), c.2.map jacRow, c.2.map posRow⟩

theorem sum_jac (ts : List Tri3) : ((ts.map jacRow).map List.sum).sum = 1.000000000000002 * (ts.map Spec.area).sum := by
  induction ts with
  | nil => simp
  | cons t ts ih => simp only [List.map_cons, List.sum_cons, ih, jacRow_sum]; ring

theorem sum_area_pos {ts : List Tri3} (h : ∃ t ∈ ts, Spec.area t ≠ 0) : 0 < (ts.map Spec.area).sum := by
  induction ts with
  | nil => simp at h
  | cons t ts ih =>
    have nn : 0 ≤ (ts.map Spec.area).sum := List.sum_nonneg (by simp only [List.mem_map]; rintro _ ⟨t, _, rfl⟩; exact area_nonneg t)
    rw [List.map_cons, List.sum_cons]
    by_cases h0 : Spec.area t = 0
    · obtain ⟨u, hu, hn⟩ := h
      rcases List.mem_cons.1 hu with rfl | hu
      · exact absurd h0 hn
      · rw [h0]; linarith [ih ⟨u, hu, hn⟩]
    · have := lt_of_le_of_ne (area_nonneg t) (Ne.symm h0); linarith

theorem coilPart_wf (c : ℝ × List Tri3) : (coilPart c).Wf := by
  refine ⟨by simp [coilPart], ?_, by simp [coilPart], ?_⟩ <;>
  · intro row hr
    obtain ⟨t, _, rfl⟩ := List.mem_map.1 hr
    simp [coilPart, jacRow, posRow, quadRule]

theorem coilPart_uniform (I : ℝ) (ts : List Tri3) (h : ∃ t ∈ ts, Spec.area t ≠ 0) : Spec.UniformCurrent I ts (coilPart (I, ts)) where
  wf := coilPart_wf _
  number := by simp [coilPart]
  inside := by
    intro k t row ht hr
    simp only [coilPart, List.getElem?_map, ht, Option.map_some, Option.some.injEq] at hr
    exact hr ▸ posRow_inside t
  share := by
    intro k t c row ht hc hr
    simp only [coilPart, List.getElem?_map, ht, Option.map_some, Option.some.injEq] at hr
    simp only [coilPart, List.getElem?_replicate] at hc
    split at hc
    · cases hc
      rw [List.sum_map_mul_left, List.map_id', ← hr, jacRow_sum, sum_jac]
      have := sum_area_pos h
      field_simp
    · cases hc

/-- Splitting the charges. -/
theorem superpose_append {P : Type} (f : P → ℝ) (n m : Nat) (a b : EffCharges P) (ha : a.Wf) :
    Spec.superpose f ⟨n, a.charges ++ b.charges, a.jacobians ++ b.jacobians, a.positions ++ b.positions⟩ = Spec.superpose f a + Spec.superpose f b := by
  unfold Spec.superpose
  rw [List.zip_append (by rw [ha.1, ha.2.2.1]), List.zip_append (by rw [List.length_zip, ha.1, ha.2.2.1]; simp), List.map_append, List.sum_append]

/-- `Spec.coils` for a part of the excitations. -/
def coilsOf (x : Excitation ℝ V3) (l : List (String × ExcType × ExcVal ℝ V3)) : List (ℝ × List Tri3) :=
  Spec.coils { x with types := l }

theorem triVerts_spec {m : Mesh V3} {verts : List Tri3} (h : m.triangles.mapM (triVerts m.points) = some verts) (i : Nat) :
    Spec.triangle m i = verts[i]? := by
  have h1 := mapM_eq_some_iff.1 h
  have h2 := congrArg (fun l : List (Option Tri3) => l[i]?) h1
  simp only [List.getElem?_map] at h2
  unfold Spec.triangle
  cases ht : m.triangles[i]? with
  | none => simp [ht] at h2; simp [h2]
  | some t =>
    rw [ht] at h2
    cases hv : verts[i]? with
    | none => rw [hv] at h2; simp at h2
    | some v =>
      rw [hv] at h2; simp only [Option.map_some, Option.some.injEq] at h2
      unfold triVerts at h2
      split at h2
      · rename_i a b c
        simp only [Option.bind_eq_bind, Option.bind_eq_some_iff] at h2
        obtain ⟨p, hp, q, hq, r, hr, h3⟩ := h2
        simp only [Option.pure_def, Option.some.injEq] at h3
        simp [hp, hq, hr, h3]
      · cases h2

theorem filterMap_of_gather {α : Type} {arr r : List α} {idx : List Nat} (h : gather arr idx = some r) : idx.filterMap (fun i => arr[i]?) = r := by
  have h1 := congrArg (List.filterMap id) (gather_eq_some_iff.1 h)
  simpa [List.filterMap_map, Function.comp_def] using h1

theorem gather_map {α β : Type} (f : α → β) {arr r : List α} {idx : List Nat} (h : gather arr idx = some r) : gather (arr.map f) idx = some (r.map f) := by
  have h1 := congrArg (List.map (Option.map f)) (gather_eq_some_iff.1 h)
  rw [gather_eq_some_iff]
  simpa [List.map_map, Function.comp_def, List.getElem?_map] using h1

/-- The loop of the code collects the coils one after the other. -/
theorem currentLoop_spec (x : Excitation ℝ V3) (hv : Spec.Valid x.mesh) {verts : List Tri3} (hverts : x.mesh.triangles.mapM (triVerts x.mesh.points) = some verts)
    (l : List (String × ExcType × ExcVal ℝ V3)) (hnum : ∀ nv ∈ l, nv.2.1 = .current → ∃ v, nv.2.2 = .num v)
    (s : List ℝ × List (List ℝ) × List (List V3)) :
    l.foldlM (x.currentStep (verts.map jacRow) (verts.map posRow)) s = some
      (s.1 ++ (coilsOf x l).flatMap (fun c => (coilPart c).charges), s.2.1 ++ (coilsOf x l).flatMap (fun c => (coilPart c).jacobians),
        s.2.2 ++ (coilsOf x l).flatMap (fun c => (coilPart c).positions)) := by
  induction l generalizing s with
  | nil => simp [coilsOf, Spec.coils]
  | cons nv l ih =>
    have hnum' := fun y (hy : y ∈ l) => hnum y (List.mem_cons_of_mem _ hy)
    rw [List.foldlM_cons]
    obtain ⟨n, ty, v⟩ := nv
    have skip : coilsOf x ((n, ty, v) :: l) = coilsOf x l → x.currentStep (verts.map jacRow) (verts.map posRow) s (n, ty, v) = some s →
        (x.currentStep (verts.map jacRow) (verts.map posRow) s (n, ty, v) >>= fun s' => l.foldlM (x.currentStep (verts.map jacRow) (verts.map posRow)) s') = some
      (s.1 ++ (coilsOf x ((n, ty, v) :: l)).flatMap (fun c => (coilPart c).charges), s.2.1 ++ (coilsOf x ((n, ty, v) :: l)).flatMap (fun c => (coilPart c).jacobians),
        s.2.2 ++ (coilsOf x ((n, ty, v) :: l)).flatMap (fun c => (coilPart c).positions)) := by
      intro h1 h2
      rw [h2, h1]
      exact ih hnum' s
    by_cases hc : ty = .current
    · subst hc
      obtain ⟨I, hI⟩ := hnum (n, .current, v) (by simp) rfl
      simp only at hI
      subst hI
      cases hg : x.mesh.physTris.get n with
      | none =>
        apply skip
        · simp [coilsOf, Spec.coils, hg]
        · have : x.mesh.physTris.has n = false := by
            rw [Bool.eq_false_iff]; intro h
            rw [Dict.has_iff] at h
            exact (Dict.get_none_iff.1 hg) h
          simp [Excitation.currentStep, this]
      | some idx =>
        have hhas : x.mesh.physTris.has n = true := by
          rw [Dict.has_iff]
          exact Dict.get_isSome_iff.1 (by simp [hg])
        cases idx with
        | nil =>
          apply skip
          · simp [coilsOf, Spec.coils, hg]
          · simp [Excitation.currentStep, hhas, hg]
        | cons i is =>
          have hlt : ∀ k ∈ i :: is, k < verts.length := by
            intro k hk
            rw [mapM_length hverts]
            exact hv.groupTris _ (Dict.mem_of_get hg) k hk
          obtain ⟨ts, hts⟩ := gather_isSome hlt
          have hcoil : coilsOf x ((n, .current, .num I) :: l) = (I, ts) :: coilsOf x l := by
            have : (i :: is).filterMap (Spec.triangle x.mesh) = ts := by
              rw [← filterMap_of_gather hts]
              exact congrArg (fun f => (i :: is).filterMap f) (funext (triVerts_spec hverts))
            have h0 : coilsOf x ((n, .current, .num I) :: l) = (I, (i :: is).filterMap (Spec.triangle x.mesh)) :: coilsOf x l := by
              unfold coilsOf Spec.coils
              rw [List.filterMap_cons]
              simp only [hg]
            rw [h0, this]
          have hstep : x.currentStep (verts.map jacRow) (verts.map posRow) s (n, .current, .num I) = some
              (s.1 ++ (coilPart (I, ts)).charges, s.2.1 ++ (coilPart (I, ts)).jacobians, s.2.2 ++ (coilPart (I, ts)).positions) := by
            simp [Excitation.currentStep, hhas, hg, coilPart, gather_length hts]
            simp only [gather_map _ hts, Option.bind_some, List.map_map]
          rw [hstep, hcoil]
          show l.foldlM _ _ = _
          rw [ih hnum']
          simp [List.append_assoc]
    · apply skip
      · simp only [coilsOf, Spec.coils, List.filterMap_cons]
        cases ty <;> first | rfl | exact absurd rfl hc
      · simp [Excitation.currentStep, hc]

/-- The charges of several coils together. -/
noncomputable def joinParts (cs : List (ℝ × List Tri3)) : EffCharges V3 :=
  ⟨12, cs.flatMap (fun c => (coilPart c).charges), cs.flatMap (fun c => (coilPart c).jacobians), cs.flatMap (fun c => (coilPart c).positions)⟩

theorem joinParts_wf (cs : List (ℝ × List Tri3)) : (joinParts cs).Wf := by
  induction cs with
  | nil => simp [joinParts, EffCharges.Wf]
  | cons c cs ih =>
    have hc := coilPart_wf c
    obtain ⟨h1, h2, h3, h4⟩ := hc
    obtain ⟨i1, i2, i3, i4⟩ := ih
    refine ⟨?_, ?_, ?_, ?_⟩
    · simp only [joinParts, List.flatMap_cons, List.length_append] at *; omega
    · intro row hr
      simp only [joinParts, List.flatMap_cons, List.mem_append] at hr
      exact hr.elim (h2 row) (i2 row)
    · simp only [joinParts, List.flatMap_cons, List.length_append] at *; omega
    · intro row hr
      simp only [joinParts, List.flatMap_cons, List.mem_append] at hr
      exact hr.elim (h4 row) (i4 row)

theorem joinParts_superpose (f : V3 → ℝ) (cs : List (ℝ × List Tri3)) :
    Spec.superpose f (joinParts cs) = (cs.map (fun c => Spec.superpose f (coilPart c))).sum := by
  induction cs with
  | nil => simp [joinParts, Spec.superpose]
  | cons c cs ih =>
    rw [List.map_cons, List.sum_cons, ← ih]
    exact superpose_append f 12 12 (coilPart c) (joinParts cs) (coilPart_wf c)

theorem coilPart_total (I : ℝ) (ts : List Tri3) (h : ∃ t ∈ ts, Spec.area t ≠ 0) : Spec.superpose (fun _ => 1) (coilPart (I, ts)) = I := by
  have key : ∀ (us : List Tri3) (d : ℝ), Spec.superpose (fun _ => 1) ⟨12, List.replicate us.length d, us.map jacRow, us.map posRow⟩ =
      d * ((us.map jacRow).map List.sum).sum := by
    intro us d
    unfold Spec.superpose
    induction us with
    | nil => simp
    | cons u us ih =>
      simp only [List.length_cons, List.replicate_succ, List.map_cons, List.zip_cons_cons, List.sum_cons] at ih ⊢
      rw [ih, mul_add]
      congr 1
      simp only [mul_one]
      rw [show (fun y : ℝ × V3 => d * y.1) = (fun r => d * r) ∘ Prod.fst from rfl, ← List.map_map, List.map_fst_zip (by simp [jacRow, posRow]),
        List.sum_map_mul_left, List.map_id']
  unfold coilPart
  rw [key, sum_jac]
  have := sum_area_pos h
  field_simp

theorem coils_nil_of_no_triangles (x : Excitation ℝ V3) (hv : Spec.Valid x.mesh) (h : x.mesh.triangles = []) : Spec.coils x = [] := by
  unfold Spec.coils
  rw [List.filterMap_eq_nil_iff]
  rintro ⟨n, ty, v⟩ _
  split
  · split
    · rename_i hg
      have := hv.groupTris _ (Dict.mem_of_get hg) _ (List.mem_cons_self ..)
      rw [h] at this; cases this
    · rfl
  · rfl

theorem coils_nil_of_no_current (x : Excitation ℝ V3) (h : ¬x.hasCurrent) : Spec.coils x = [] := by
  unfold Spec.coils
  rw [List.filterMap_eq_nil_iff]
  rintro ⟨n, ty, v⟩ hm
  split
  · rename_i I heq
    exfalso; apply h
    unfold Excitation.hasCurrent
    rw [List.any_eq_true]
    refine ⟨_, hm, ?_⟩
    rw [show ty = .current from (Prod.mk.inj heq).1]; rfl
  · rfl

theorem currentCharges_join (x : Excitation ℝ V3) (hv : Spec.Valid x.mesh) (hnum : ∀ nv ∈ x.types, nv.2.1 = .current → ∃ v, nv.2.2 = .num v)
    (harea : ∀ c ∈ Spec.coils x, ∃ t ∈ c.2, Spec.area t ≠ 0) :
    x.currentCharges = some (joinParts (Spec.coils x)) := by
  unfold Excitation.currentCharges
  split
  · rename_i h
    have : Spec.coils x = [] := h.elim (coils_nil_of_no_triangles x hv) (coils_nil_of_no_current x)
    rw [this]; rfl
  · have ⟨verts, hverts⟩ : ∃ verts, x.mesh.triangles.mapM (triVerts x.mesh.points) = some verts := by
      apply mapM_isSome
      intro t ht
      obtain ⟨h1, h2⟩ := hv.tris t ht
      match t, h1 with
      | [a, b, c], _ =>
        have ha : a < x.mesh.points.length := h2 a (by simp)
        have hb : b < x.mesh.points.length := h2 b (by simp)
        have hc : c < x.mesh.points.length := h2 c (by simp)
        exact ⟨_, by simp only [triVerts, List.getElem?_eq_getElem ha, List.getElem?_eq_getElem hb, List.getElem?_eq_getElem hc]; rfl⟩
    simp only [hverts, Option.bind_eq_bind, Option.bind_some]
    rw [currentLoop_spec x hv hverts x.types hnum]
    simp only [Option.bind_some, List.nil_append]
    have hco : coilsOf x x.types = Spec.coils x := rfl
    rw [hco]
    split
    · rename_i h
      have : Spec.coils x = [] := by
        cases hcs : Spec.coils x with
        | nil => rfl
        | cons c cs =>
          exfalso
          rw [hcs, List.flatMap_cons] at h
          have h1 := congrArg List.length (List.append_eq_nil_iff.1 h).1
          obtain ⟨t, ht, _⟩ := harea c (by rw [hcs]; simp)
          simp [coilPart] at h1
          rw [h1] at ht; cases ht
      rw [this]; rfl
    · unfold EffCharges.new
      exact if_pos (joinParts_wf (Spec.coils x))

/-- The current flows in the triangles of the coils only. -/
theorem joinParts_inside {cs : List (ℝ × List Tri3)} : ∀ row ∈ (joinParts cs).positions, ∀ q ∈ row, ∃ c ∈ cs, ∃ t ∈ c.2, Spec.InTriangle3 t q := by
  intro row hr q hq
  simp only [joinParts, coilPart, List.mem_flatMap, List.mem_map] at hr
  obtain ⟨c, hc, t, ht, rfl⟩ := hr
  exact ⟨c, hc, t, ht, (posRow_inside t).2 q hq⟩

/-- **C41.** For every excitation of a valid mesh, whose currents are numbers and whose coils have an area, the charges computed for the currents are made of one part per coil; any
potential or field (any kernel `f`) is the sum over the parts, and the part of each coil is the requested current, uniformly distributed over the triangles of the coil. -/
theorem C41_total_current (x : Excitation ℝ V3) (hv : Spec.Valid x.mesh) (hnum : ∀ nv ∈ x.types, nv.2.1 = .current → ∃ v, nv.2.2 = .num v)
    (harea : ∀ c ∈ Spec.coils x, ∃ t ∈ c.2, Spec.area t ≠ 0) :
    ∃ (e : EffCharges V3) (parts : List (EffCharges V3)), x.currentCharges = some e ∧ e.Wf ∧ parts.length = (Spec.coils x).length ∧
      (∀ f : V3 → ℝ, Spec.superpose f e = (parts.map (Spec.superpose f)).sum) ∧
      ∀ (k : ℕ) I ts part, (Spec.coils x)[k]? = some (I, ts) → parts[k]? = some part →
        Spec.superpose (fun _ => 1) part = I ∧ Spec.UniformCurrent I ts part := by
  have main := currentCharges_join x hv hnum harea
  refine ⟨_, (Spec.coils x).map coilPart, main, joinParts_wf _, by simp, fun f => by rw [joinParts_superpose, List.map_map]; rfl, ?_⟩
  intro k I ts part hk hp
  rw [List.getElem?_map, hk] at hp
  cases hp
  have := harea (I, ts) (List.mem_of_getElem? hk)
  exact ⟨coilPart_total I ts this, coilPart_uniform I ts this⟩

/-- A coil of two triangles with a current of 3. -/
noncomputable def coilExample : Excitation ℝ V3 where
  mesh := { points := [⟨1, 0, 0⟩, ⟨2, 0, 0⟩, ⟨2, 0, 1⟩, ⟨1, 0, 1⟩], triangles := [[0, 1, 2], [0, 2, 3]], physTris := [("coil", [0, 1])] }
  electrodes := ["coil"]
  symmetry := .radial
  types := [("coil", .current, .num 3)]

/-- The hypotheses of `C41_total_current` are met by a coil. -/
example : Spec.Valid coilExample.mesh ∧ (∀ nv ∈ coilExample.types, nv.2.1 = .current → ∃ v, nv.2.2 = .num v) ∧
    (∀ c ∈ Spec.coils coilExample, ∃ t ∈ c.2, Spec.area t ≠ 0) ∧ (Spec.coils coilExample).length = 1 := by
  have hc : Spec.coils coilExample = [(3, [⟨⟨1, 0, 0⟩, ⟨2, 0, 0⟩, ⟨2, 0, 1⟩⟩, ⟨⟨1, 0, 0⟩, ⟨2, 0, 1⟩, ⟨1, 0, 1⟩⟩])] := rfl
  refine ⟨⟨Or.inl rfl, by simp [coilExample], ?_, by simp [coilExample], ?_, by simp [coilExample], by simp [coilExample]⟩, ?_, ?_, by rw [hc]; rfl⟩
  · simp [coilExample]
  · simp [coilExample]
  · intro nv h _
    simp only [coilExample, List.mem_singleton] at h
    exact ⟨3, by rw [h]⟩
  · rw [hc]
    intro c h
    rw [List.mem_singleton] at h
    subst h
    refine ⟨_, List.mem_cons_self .., ?_⟩
    have : Spec.area ⟨⟨1, 0, 0⟩, ⟨2, 0, 0⟩, ⟨2, 0, 1⟩⟩ = 1 / 2 := by
      unfold Spec.area V3.norm cross V3.dot
      simp
      norm_num
    rw [this]; norm_num

end Traceon
