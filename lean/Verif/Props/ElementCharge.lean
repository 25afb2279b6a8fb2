import Verif.Model.ElementCharge
import Verif.Props.MatrixRadial2
import Verif.Props.Coil
import Mathlib.Analysis.Complex.ExponentialBounds
import Mathlib.Analysis.Real.Pi.Bounds

/-!
# C73: areas and charges of elements
-/
namespace Traceon
open Spec Filter Topology

/-! ## Areas -/

/-- **C73.** In three dimensions `area_of_element` is the area of the triangle, apart from the rounding of the weights of the 12-point rule. -/
theorem C73_area_3d (ts : List Tri3) (q : List ℝ) (i : Nat) (hi : i < ts.length) :
    ∃ a, areaOfElement3d (triCharges ts q) i = some a ∧
      a = 1.000000000000002 * triIntegral ts[i].v0 ts[i].v1 ts[i].v2 (fun _ => 1) := by
  refine ⟨(jacRow ts[i]).sum, ?_, ?_⟩
  · simp [areaOfElement3d, triCharges, hi]
  · rw [jacRow_sum]
    congr 1
    unfold triIntegral Spec.area
    have : ∀ v : ℝ, ∫ _u in (0 : ℝ)..(1 - v), V3.norm (V3.cross (ts[i].v1 - ts[i].v0) (ts[i].v2 - ts[i].v0)) * 1 =
        (1 - v) * V3.norm (V3.cross (ts[i].v1 - ts[i].v0) (ts[i].v2 - ts[i].v0)) := by
      intro v
      rw [intervalIntegral.integral_const, smul_eq_mul]
      ring
    simp only [this]
    rw [intervalIntegral.integral_mul_const]
    have : ∫ v in (0 : ℝ)..1, (1 - v) = 1 / 2 := by
      rw [intervalIntegral.integral_sub (by simp) (by simp)]
      simp
      norm_num
    rw [this]
    ring

/-- **C73.** `triangle_areas` gives the exact area. -/
theorem C73_triangle_areas (t : Tri3) : triangleAreas1 t = triIntegral t.v0 t.v1 t.v2 (fun _ => 1) := by
  unfold triangleAreas1 triIntegral
  have : ∀ v : ℝ, ∫ _u in (0 : ℝ)..(1 - v), V3.norm (V3.cross (t.v1 - t.v0) (t.v2 - t.v0)) * 1 =
      (1 - v) * V3.norm (V3.cross (t.v1 - t.v0) (t.v2 - t.v0)) := by
    intro v
    rw [intervalIntegral.integral_const, smul_eq_mul]
    ring
  simp only [this]
  rw [intervalIntegral.integral_mul_const]
  have : ∫ v in (0 : ℝ)..1, (1 - v) = 1 / 2 := by
    rw [intervalIntegral.integral_sub (by simp) (by simp)]
    simp
    norm_num
  rw [this]
  norm_num

/-- **C73.** In radial symmetry, for a straight element (as made by the upgrade to higher order) from `p` to `q`, `area_of_element` is exactly the area of the frustum
of a cone that it sweeps out around the axis, which is also `2 π ∫ r ds`. Curved elements: `C73_area_radial`. -/
theorem C73_area_straight (ls : List Line4) (c : List ℝ) (i : Nat) (p q : V3)
    (hi : ls[i]? = some ⟨p, q, realThirds.one p q, realThirds.two p q⟩) (hp : p.y = 0) (hq : q.y = 0) (hr : 0 ≤ p.x) (hr' : 0 ≤ q.x) :
    ∃ a, areaOfElementRadial (lineCharges ls c) i = some a ∧ a = Real.pi * (p.x + q.x) * V3.norm (q - p) ∧
      a = 2 * Real.pi * alongElem ⟨p, q, realThirds.one p q, realThirds.two p q⟩ fun s => s.x := by
  have hpos := fun α => (C12_straight p q α).1
  have hjac := fun α => (C12_straight p q α).2
  have hn : V3.norm (q - p) = Real.sqrt ((q.x - p.x) ^ 2 + (q.z - p.z) ^ 2) := by
    unfold V3.norm V3.dot
    simp only [V3.sub_x, V3.sub_y, V3.sub_z, hp, hq]
    congr 1; ring
  set l : Line4 := ⟨p, q, realThirds.one p q, realThirds.two p q⟩ with hl
  have hplane : InHalfPlane l := by
    refine ⟨⟨hp, hq, ?_, ?_⟩, ?_⟩
    · simp [hl, realThirds, hp, hq]
    · simp [hl, realThirds, hp, hq]
    · have := congrArg Prod.fst (elemPoint_linePos l 0)
      simp only at this
      rw [← this]
      unfold linePos
      rw [hpos]
      simp only
      linarith
  have ex : ∀ α, (elemPoint l α).x = p.x + (α + 1) / 2 * (q.x - p.x) := by
    intro α
    have := congrArg Prod.fst (elemPoint_linePos l α)
    simp only at this
    rw [← this]
    unfold linePos
    rw [hpos]
  have ej : ∀ α, lineJac l α = V3.norm (q - p) / 2 := by
    intro α
    unfold lineJac
    rw [hjac, hn]
  have e1 : areaOfElementRadial (lineCharges ls c) i = some (Real.pi * (p.x + q.x) * V3.norm (q - p)) := by
    unfold areaOfElementRadial lineCharges
    simp only [List.getElem?_map, hi, Option.map_some, Option.bind_eq_bind, Option.bind_some, Option.pure_def, Option.some.injEq]
    unfold lineJacRow linePosRow
    rw [List.zipWith_map]
    simp only [ej, elemPoint_linePos, ex, List.zipWith_self]
    unfold gaussRule
    simp only [List.map_cons, List.map_nil, List.sum_cons, List.sum_nil]
    ring
  refine ⟨_, e1, rfl, ?_⟩
  unfold alongElem
  simp only [elemTangent_norm hplane, ej, ex]
  rw [intervalIntegral.integral_const_mul]
  have : ∫ α in (-1 : ℝ)..1, (p.x + (α + 1) / 2 * (q.x - p.x)) = p.x + q.x := by
    have e : ∀ α : ℝ, p.x + (α + 1) / 2 * (q.x - p.x) = (p.x + q.x) / 2 + α * ((q.x - p.x) / 2) := by intro α; ring
    simp only [e]
    rw [intervalIntegral.integral_add (by simp) (Continuous.intervalIntegrable (by fun_prop) _ _), intervalIntegral.integral_mul_const, integral_id,
      intervalIntegral.integral_const, smul_eq_mul]
    ring
  rw [this]
  ring

/-! ## Sums over elements -/

theorem foldlM_some {f : Nat → Option ℝ} {g : Nat → ℝ} (l : List Nat) (h : ∀ i ∈ l, f i = some (g i)) (s : ℝ) :
    l.foldlM (fun s i => do return s + (← f i)) s = some (s + (l.map g).sum) := by
  induction l generalizing s with
  | nil => simp
  | cons a l ih =>
    simp only [List.foldlM_cons, h a (by simp), Option.bind_eq_bind, Option.bind_some, Option.pure_def, List.map_cons, List.sum_cons]
    have := ih (fun i hi => h i (by simp [hi])) (s + g a)
    simp only [Option.bind_eq_bind, Option.pure_def] at this
    rw [this, add_assoc]

theorem foldlM_none {f : Nat → Option ℝ} (l : List Nat) {i : Nat} (hi : i ∈ l) (h : f i = none) (s : ℝ) :
    l.foldlM (fun s i => do return s + (← f i)) s = none := by
  induction l generalizing s with
  | nil => simp at hi
  | cons a l ih =>
    simp only [List.foldlM_cons, Option.bind_eq_bind, Option.pure_def]
    rcases List.mem_cons.1 hi with rfl | hm
    · simp [h]
    · cases hf : f a with
      | none => simp
      | some v =>
        have := ih hm (s + v)
        simp only [Option.bind_eq_bind, Option.pure_def] at this
        simp [this]

/-- **C73.** The area or charge of several elements is the sum over the elements; joining or rearranging lists of elements adds or keeps the results, and an index that is
not there raises. -/
theorem C73_sums (f : Nat → Option ℝ) (a b : List Nat) :
    (∀ x y, areaOfElements f a = some x → areaOfElements f b = some y → areaOfElements f (a ++ b) = some (x + y)) ∧
    (a.Perm b → areaOfElements f a = areaOfElements f b) ∧
    ((∃ i ∈ a, f i = none) → areaOfElements f a = none) ∧ (∀ i, areaOfElements f [i] = f i) := by
  unfold areaOfElements
  have dich : ∀ l : List Nat, (∃ i ∈ l, f i = none) ∨ ∃ g : Nat → ℝ, ∀ i ∈ l, f i = some (g i) := by
    intro l
    by_cases h : ∃ i ∈ l, f i = none
    · exact Or.inl h
    · push Not at h
      exact Or.inr ⟨fun i => (f i).getD 0, fun i hi => by
        cases hf : f i with
        | none => exact absurd hf (h i hi)
        | some v => simp [hf]⟩
  refine ⟨?_, ?_, ?_, ?_⟩
  · intro x y hx hy
    rcases dich a with ⟨i, hi, h⟩ | ⟨g, hg⟩
    · rw [foldlM_none a hi h] at hx; simp at hx
    rcases dich b with ⟨i, hi, h⟩ | ⟨g', hg'⟩
    · rw [foldlM_none b hi h] at hy; simp at hy
    rw [foldlM_some a hg] at hx
    rw [foldlM_some b hg'] at hy
    rw [List.foldlM_append, foldlM_some a hg]
    simp only [Option.bind_eq_bind, Option.bind_some, Option.pure_def]
    have := foldlM_some b hg' (0 + (a.map g).sum)
    simp only [Option.bind_eq_bind, Option.pure_def] at this
    rw [this]
    simp only [Option.some.injEq] at hx hy ⊢
    linarith
  · intro hp
    rcases dich a with ⟨i, hi, h⟩ | ⟨g, hg⟩
    · rw [foldlM_none a hi h, foldlM_none b (hp.subset hi) h]
    · rw [foldlM_some a hg, foldlM_some b (fun i hi => hg i (hp.symm.subset hi)), (hp.map g).sum_eq]
  · rintro ⟨i, hi, h⟩
    exact foldlM_none a hi h 0
  · intro i
    cases hf : f i <;> simp [hf]

/-- `charge_on_elements` is the same sum, of charges. -/
theorem chargeOnElements_eq (f : Nat → Option ℝ) (c : List ℝ) (l : List Nat) : chargeOnElements f c l = areaOfElements (chargeOnElement f c) l := rfl

/-! ## The total charge -/

theorem total_aux {P : Type} (area : List ℝ → List P → ℝ) (e : EffCharges P) (he : e.Wf) (f : Nat → Option ℝ)
    (hf : ∀ i js ps, e.jacobians[i]? = some js → e.positions[i]? = some ps → f i = some (area js ps)) :
    chargeOnElements f e.charges (List.range e.len) = some ((e.charges.zip (e.jacobians.zip e.positions)).map fun x => area x.2.1 x.2.2 * x.1).sum := by
  obtain ⟨h1, _, h2, _⟩ := he
  have key : ∀ i ∈ List.range e.len, chargeOnElement f e.charges i =
      some ((((e.charges.zip (e.jacobians.zip e.positions)).map fun x => area x.2.1 x.2.2 * x.1)).getD i 0) := by
    intro i hi
    rw [List.mem_range] at hi
    unfold EffCharges.len at hi
    have hj : i < e.jacobians.length := by omega
    have hp : i < e.positions.length := by omega
    unfold chargeOnElement
    rw [hf i e.jacobians[i] e.positions[i] (List.getElem?_eq_getElem hj) (List.getElem?_eq_getElem hp)]
    simp [hi, hj, hp]
  unfold chargeOnElements
  rw [foldlM_some _ key, zero_add]
  congr 2
  have hlen : ((e.charges.zip (e.jacobians.zip e.positions)).map fun x => area x.2.1 x.2.2 * x.1).length = e.len := by
    simp [EffCharges.len, h1, h2]
  rw [← hlen]
  apply List.ext_getElem
  · simp
  · intro i h1 h2
    rw [List.getElem_map, List.getElem_range, List.getD_eq_getElem?_getD, List.getElem?_eq_getElem h2, Option.getD_some]

theorem total_3d (e : EffCharges V3) (he : e.Wf) :
    chargeOnElements (areaOfElement3d e) e.charges (List.range e.len) = some (superpose (fun _ => 1) e) := by
  rw [total_aux (fun js _ => js.sum) e he]
  · unfold superpose
    congr 2
    refine List.map_congr_left fun x hx => ?_
    have hj := (List.of_mem_zip (List.of_mem_zip hx).2).1
    have hp := (List.of_mem_zip (List.of_mem_zip hx).2).2
    have hlen : x.2.1.length ≤ x.2.2.length := by rw [he.2.1 _ hj, he.2.2.2 _ hp]
    have : (x.2.1.zip x.2.2).map (fun y => x.1 * y.1 * 1) = x.2.1.map fun j => x.1 * j := by
      conv_rhs => rw [← List.map_fst_zip hlen, List.map_map]
      refine List.map_congr_left fun y _ => ?_
      simp
    rw [this, List.sum_map_mul_left, List.map_id', mul_comm]
  · intro i js ps h1 h2
    simp [areaOfElement3d, h1]

theorem total_radial (e : EffCharges (ℝ × ℝ)) (he : e.Wf) :
    chargeOnElements (areaOfElementRadial e) e.charges (List.range e.len) = some (superpose (fun q => 2 * Real.pi * q.1) e) := by
  rw [total_aux (fun js ps => 2 * Real.pi * (List.zipWith (fun j p => j * p.1) js ps).sum) e he]
  · unfold superpose
    congr 2
    refine List.map_congr_left fun x _ => ?_
    rw [← List.map_uncurry_zip_eq_zipWith, mul_comm, ← List.sum_map_mul_left, ← List.sum_map_mul_left]
    congr 1
    refine List.map_congr_left fun y _ => ?_
    simp [Function.uncurry]
    ring
  · intro i js ps h1 h2
    simp [areaOfElementRadial, h1, h2]

/-! ## Far away -/

theorem V3.norm_le_add (a b : V3) : V3.norm a ≤ V3.norm (a - b) + V3.norm b := by
  have h1 : 0 ≤ V3.norm (a - b) := Real.sqrt_nonneg _
  have h2 : 0 ≤ V3.norm b := Real.sqrt_nonneg _
  have e1 : V3.norm (a - b) ^ 2 = V3.dot (a - b) (a - b) := Real.sq_sqrt (by simp only [V3.dot]; nlinarith [mul_self_nonneg (a - b).x, mul_self_nonneg (a - b).y, mul_self_nonneg (a - b).z])
  have e2 : V3.norm b ^ 2 = V3.dot b b := Real.sq_sqrt (by simp only [V3.dot]; nlinarith [mul_self_nonneg b.x, mul_self_nonneg b.y, mul_self_nonneg b.z])
  have cs : V3.dot (a - b) b ≤ V3.norm (a - b) * V3.norm b := by
    apply le_of_sq_le_sq _ (by positivity)
    rw [mul_pow, e1, e2]
    simp only [V3.dot, V3.sub_x, V3.sub_y, V3.sub_z]
    nlinarith [sq_nonneg ((a.x - b.x) * b.y - (a.y - b.y) * b.x), sq_nonneg ((a.x - b.x) * b.z - (a.z - b.z) * b.x), sq_nonneg ((a.y - b.y) * b.z - (a.z - b.z) * b.y)]
  rw [show V3.norm a = Real.sqrt (V3.dot a a) from rfl]
  rw [Real.sqrt_le_left (by positivity)]
  have : V3.dot a a = V3.dot (a - b) (a - b) + V3.dot b b + 2 * V3.dot (a - b) b := by
    simp only [V3.dot, V3.sub_x, V3.sub_y, V3.sub_z]; ring
  rw [this]
  nlinarith

theorem V3.abs_norm_sub_le (a b : V3) : |V3.norm a - V3.norm b| ≤ V3.norm (a - b) := by
  rw [abs_le]
  have h1 := V3.norm_le_add a b
  have h2 := V3.norm_le_add b a
  rw [norm_sub_comm' b a] at h2
  constructor <;> linarith

/-- Far away from the origin, in any direction. -/
noncomputable def Spec.far : Filter V3 := comap V3.norm atTop

theorem tendsto_norm_far : Tendsto V3.norm far atTop := tendsto_comap

/-- A quantity that differs from the distance by a bounded amount grows like it. -/
theorem tendsto_ratio {a : V3 → ℝ} {C : ℝ} (h : ∀ p, |a p - V3.norm p| ≤ C) : Tendsto (fun p => a p / V3.norm p) far (𝓝 1) := by
  have h0 : Tendsto (fun p : V3 => C / V3.norm p) far (𝓝 0) := tendsto_norm_far.const_div_atTop C
  have h1 : Tendsto (fun p : V3 => (a p - V3.norm p) / V3.norm p) far (𝓝 0) := by
    refine squeeze_zero_norm (fun p => ?_) h0
    have hn : 0 ≤ V3.norm p := Real.sqrt_nonneg _
    rw [Real.norm_eq_abs, abs_div, abs_of_nonneg hn]
    exact div_le_div_of_nonneg_right (h p) hn
  have h2 := h1.add_const 1
  rw [zero_add] at h2
  refine h2.congr' ?_
  filter_upwards [tendsto_norm_far.eventually_gt_atTop 0] with p hp
  field_simp
  ring

theorem tendsto_superpose {P : Type} {c : V3 → ℝ} {f : V3 → P → ℝ} {g : P → ℝ} (e : EffCharges P)
    (h : ∀ row ∈ e.positions, ∀ q ∈ row, Tendsto (fun p => c p * f p q) far (𝓝 (g q))) :
    Tendsto (fun p => c p * superpose (f p) e) far (𝓝 (superpose g e)) := by
  unfold superpose
  have inner : ∀ (x : ℝ) (l : List (ℝ × P)), (∀ y ∈ l, Tendsto (fun p => c p * f p y.2) far (𝓝 (g y.2))) →
      Tendsto (fun p => c p * (l.map fun y => x * y.1 * f p y.2).sum) far (𝓝 (l.map fun y => x * y.1 * g y.2).sum) := by
    intro x l
    induction l with
    | nil => intro _; simpa using tendsto_const_nhds
    | cons y l ih =>
      intro hl
      simp only [List.map_cons, List.sum_cons, mul_add]
      refine Tendsto.add ?_ (ih fun z hz => hl z (by simp [hz]))
      have := (hl y (by simp)).const_mul (x * y.1)
      refine this.congr fun p => ?_
      ring
  have outer : ∀ (l : List (ℝ × List ℝ × List P)), (∀ x ∈ l, ∀ y ∈ x.2.1.zip x.2.2, Tendsto (fun p => c p * f p y.2) far (𝓝 (g y.2))) →
      Tendsto (fun p => c p * (l.map fun x => ((x.2.1.zip x.2.2).map fun y => x.1 * y.1 * f p y.2).sum).sum) far
        (𝓝 (l.map fun x => ((x.2.1.zip x.2.2).map fun y => x.1 * y.1 * g y.2).sum).sum) := by
    intro l
    induction l with
    | nil => intro _; simpa using tendsto_const_nhds
    | cons x l ih =>
      intro hl
      simp only [List.map_cons, List.sum_cons, mul_add]
      exact Tendsto.add (inner x.1 _ (hl x (by simp))) (ih fun z hz => hl z (by simp [hz]))
  refine outer _ fun x hx y hy => ?_
  exact h x.2.2 (List.of_mem_zip (List.of_mem_zip hx).2).2 y.2 (List.of_mem_zip hy).2

/-- **C73**, three dimensions: far away the potential is that of a point charge, the charge being what `charge_on_elements` gives for all elements. -/
theorem C73_total_3d (e : EffCharges V3) (he : e.Wf) : ∃ Q, chargeOnElements (areaOfElement3d e) e.charges (List.range e.len) = some Q ∧
    Tendsto (fun p => 4 * Real.pi * V3.norm p * potential3d p e) far (𝓝 Q) := by
  refine ⟨_, total_3d e he, ?_⟩
  unfold potential3d
  simp only [EffCharges.loop_eq]
  refine tendsto_superpose e fun row _ q _ => ?_
  have h := tendsto_ratio (a := fun p => V3.norm (q - p)) (C := V3.norm q) fun p => by
    have h1 := V3.norm_le_add p q
    have h2 := V3.norm_le_add q p
    have h3 := V3.norm_le_add (q - p) q
    rw [norm_sub_comm' q p] at *
    have h4 : V3.norm (p - q) ≤ V3.norm p + V3.norm q := by
      have := V3.norm_le_add (p - q) p
      have e : V3.norm (p - q - p) = V3.norm q := by
        unfold V3.norm V3.dot; congr 1; simp only [V3.sub_x, V3.sub_y, V3.sub_z]; ring
      linarith
    rw [abs_le]; constructor <;> linarith
  have h2 := h.inv₀ one_ne_zero
  rw [inv_one] at h2
  refine h2.congr fun p => ?_
  unfold potential3dPoint
  have := Real.pi_ne_zero
  rw [inv_div]
  field_simp

theorem continuousAt_ellipkm1 : ContinuousAt ellipkm1 1 := by
  unfold ellipkm1
  obtain ⟨P, Q, hP, hQ, h⟩ := chebSum_parts [(Real.log 4, 1 / 2), (9.65736020516771e-2, 1.24999998585309e-1), (3.08909633861795e-2, 7.03114105853296e-2),
   (1.52618320622534e-2, 4.87379510945218e-2), (1.25565693543211e-2, 3.57218443007327e-2), (1.68695685967517e-2, 2.09857677336790e-2),
   (1.09423810688623e-2, 5.81807961871996e-3), (1.40704915496101e-3, 3.42805719229748e-4)]
  simp only [h]
  have hl : ContinuousAt (fun p : ℝ => Real.log (1 / p)) 1 := by
    apply ContinuousAt.log
    · exact continuousAt_const.div continuousAt_id one_ne_zero
    · norm_num
  exact hP.continuousAt.add (hl.mul hQ.continuousAt)

theorem ellipkm1_one : |ellipkm1 1 - Real.pi / 2| ≤ 1e-9 := by
  have h : ellipkm1 1 = 2 * Real.log 2 + 0.18450196567500611 := by
    have h4 : Real.log 4 = 2 * Real.log 2 := by
      rw [show (4 : ℝ) = 2 ^ 2 by norm_num, Real.log_pow]; norm_num
    simp only [ellipkm1, chebSum, List.range, List.range.loop, List.length_cons, List.length_nil, List.zip_cons_cons, List.zip_nil_right, List.foldl_cons, List.foldl_nil,
      one_pow, div_one, Real.log_one, h4]
    norm_num
    ring
  rw [h]
  have h2 := abs_le.1 Real.log_two_near_10
  have h3 := Real.pi_gt_d20
  have h4 := Real.pi_lt_d20
  rw [abs_le]
  constructor <;> norm_num at * <;> linarith [h2.1, h2.2]

/-- **C73**, radial symmetry: far away the potential is that of a point charge, the charge being what `charge_on_elements` gives for all elements, apart from the accuracy of the
approximated elliptic integral. -/
theorem C73_total_radial (e : EffCharges (ℝ × ℝ)) (he : e.Wf) : ∃ Q L, chargeOnElements (areaOfElementRadial e) e.charges (List.range e.len) = some Q ∧
    Tendsto (fun p => 4 * Real.pi * V3.norm p * potentialRadial p e) far (𝓝 L) ∧ |L - Q| ≤ 1e-9 * |Q| := by
  refine ⟨_, superpose (fun q => 4 * ellipkm1 1 * q.1) e, total_radial e he, ?_, ?_⟩
  · unfold potentialRadial
    simp only [EffCharges.loop_eq]
    refine tendsto_superpose e fun row _ q _ => ?_
    have red : ∀ p : V3, V3.norm p = V3.norm ⟨norm2d p.x p.y, 0, p.z⟩ := by
      intro p
      unfold V3.norm V3.dot norm2d
      congr 1
      have := Real.mul_self_sqrt (show 0 ≤ p.x * p.x + p.y * p.y by nlinarith [mul_self_nonneg p.x, mul_self_nonneg p.y])
      simp only
      linarith
    have hfar : ∀ s : ℝ, s ^ 2 = 1 → Tendsto (fun p : V3 => V3.norm ⟨norm2d p.x p.y + s * q.1, 0, p.z - q.2⟩ / V3.norm p) far (𝓝 1) := by
      intro s hs
      refine tendsto_ratio (C := V3.norm ⟨q.1, 0, q.2⟩) fun p => ?_
      rw [red p]
      refine (V3.abs_norm_sub_le _ _).trans (le_of_eq ?_)
      unfold V3.norm V3.dot
      congr 1
      simp only [V3.sub_x, V3.sub_y, V3.sub_z]
      linear_combination (q.1 ^ 2) * hs
    have hD := hfar 1 (by norm_num)
    have hd := hfar (-1) (by norm_num)
    have ht : Tendsto (fun p : V3 => ((q.2 - p.z) ^ 2 + (q.1 - norm2d p.x p.y) ^ 2) / ((q.2 - p.z) ^ 2 + (q.1 - norm2d p.x p.y) ^ 2 + 4 * norm2d p.x p.y * (q.1 - norm2d p.x p.y) + 4 * norm2d p.x p.y ^ 2))
        far (𝓝 1) := by
      have h := (hd.div hD one_ne_zero).pow 2
      rw [div_one, one_pow] at h
      refine h.congr' ?_
      filter_upwards [tendsto_norm_far.eventually_gt_atTop 0] with p hp
      rw [Pi.div_apply, div_div_div_cancel_right₀ hp.ne', div_pow]
      unfold V3.norm
      rw [Real.sq_sqrt (by simp only [V3.dot]; nlinarith [mul_self_nonneg (norm2d p.x p.y + -1 * q.1), mul_self_nonneg (p.z - q.2)]),
        Real.sq_sqrt (by simp only [V3.dot]; nlinarith [mul_self_nonneg (norm2d p.x p.y + 1 * q.1), mul_self_nonneg (p.z - q.2)])]
      simp only [V3.dot]
      congr 1 <;> ring
    have hK := (continuousAt_ellipkm1.tendsto).comp ht
    have hDi := hD.inv₀ one_ne_zero
    rw [inv_one] at hDi
    have main := (hK.mul hDi).const_mul (4 * q.1)
    rw [mul_one] at main
    rw [show 4 * ellipkm1 1 * q.1 = 4 * q.1 * ellipkm1 1 by ring]
    refine main.congr fun p => ?_
    unfold potentialRadialRing potentialRingWith
    simp only [Function.comp]
    have e1 : Real.sqrt ((q.2 - p.z) ^ 2 + (q.1 - norm2d p.x p.y + 2 * norm2d p.x p.y) ^ 2) = V3.norm ⟨norm2d p.x p.y + 1 * q.1, 0, p.z - q.2⟩ := by
      unfold V3.norm V3.dot
      congr 1
      ring
    rw [e1, inv_div]
    have := Real.pi_ne_zero
    field_simp
    ring
  · have hsc : ∀ k : ℝ, superpose (fun q : ℝ × ℝ => k * q.1) e = k * superpose (fun q => q.1) e := by
      intro k
      unfold superpose
      rw [← List.sum_map_mul_left]
      congr 1
      refine List.map_congr_left fun x _ => ?_
      rw [← List.sum_map_mul_left]
      congr 1
      refine List.map_congr_left fun y _ => ?_
      ring
    rw [hsc, hsc]
    generalize superpose (fun q : ℝ × ℝ => q.1) e = S
    have h := ellipkm1_one
    rw [show 4 * ellipkm1 1 * S - 2 * Real.pi * S = 4 * (ellipkm1 1 - Real.pi / 2) * S by ring, abs_mul, abs_mul, abs_mul]
    have hp : |2 * Real.pi| = 2 * Real.pi := abs_of_pos (by positivity)
    rw [hp]
    have h3 := Real.pi_gt_three
    have hS := abs_nonneg S
    have : |(4 : ℝ)| = 4 := abs_of_pos (by norm_num)
    rw [this]
    have : 4 * |ellipkm1 1 - Real.pi / 2| ≤ 1e-9 * (2 * Real.pi) := by nlinarith
    nlinarith

/-- **C73.** `charge_radial` agrees with `charge_on_element`. -/
theorem C73_charge_radial (ls : List Line4) (q : List ℝ) (i : Nat) (l : Line4) (c : ℝ) (hl : ls[i]? = some l) (hc : q[i]? = some c) :
    chargeOnElement (areaOfElementRadial (lineCharges ls q)) (lineCharges ls q).charges i = some (chargeRadial l c) := by
  unfold chargeOnElement areaOfElementRadial lineCharges chargeRadial
  simp only [List.getElem?_map, hl, hc, Option.map_some, Option.bind_eq_bind, Option.bind_some, Option.pure_def, Option.some.injEq]
  rw [foldl_add_sum, zero_add]
  unfold lineJacRow linePosRow
  rw [List.zipWith_map, List.zipWith_self, ← List.sum_map_mul_left, mul_comm, ← List.sum_map_mul_left]
  congr 1
  refine List.map_congr_left fun g _ => ?_
  ring

/-- A square of two triangles with unit charge density: the hypotheses hold and the charge is not zero. -/
example : (triCharges [⟨⟨0, 0, 0⟩, ⟨1, 0, 0⟩, ⟨0, 1, 0⟩⟩, ⟨⟨1, 1, 0⟩, ⟨0, 1, 0⟩, ⟨1, 0, 0⟩⟩] [1, 1]).Wf := by
  refine ⟨rfl, ?_, rfl, ?_⟩ <;> simp [triCharges, jacRow, posRow, quadRule]

/-- A cylinder. -/
example : ∃ a, areaOfElementRadial (lineCharges [⟨⟨1, 0, 0⟩, ⟨1, 0, 3⟩, realThirds.one ⟨1, 0, 0⟩ ⟨1, 0, 3⟩, realThirds.two ⟨1, 0, 0⟩ ⟨1, 0, 3⟩⟩] [1]) 0 = some a ∧
    a = 2 * Real.pi * 3 := by
  obtain ⟨a, h1, h2, _⟩ := C73_area_straight [⟨⟨1, 0, 0⟩, ⟨1, 0, 3⟩, realThirds.one ⟨1, 0, 0⟩ ⟨1, 0, 3⟩, realThirds.two ⟨1, 0, 0⟩ ⟨1, 0, 3⟩⟩] [1] 0
    ⟨1, 0, 0⟩ ⟨1, 0, 3⟩ rfl rfl rfl (by norm_num) (by norm_num)
  refine ⟨a, h1, ?_⟩
  rw [h2, show V3.norm ((⟨1, 0, 3⟩ : V3) - ⟨1, 0, 0⟩) = 3 from norm_eq_of_sq (by norm_num) (by simp [V3.dot])]
  simp only
  ring

end Traceon
