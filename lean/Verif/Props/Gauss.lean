import Verif.Lemmas.BoxFlux
import Verif.Props.Rounding
import Verif.Props.ElementCharge

/-!
# C107: Gauss's law
-/
namespace Traceon
open Spec BoxFlux MeasureTheory

namespace BoxFlux

theorem Nice.shift {f : ℝ → ℝ → ℝ} {p q c d : ℝ} (s t : ℝ) (h : Nice f (p - s) (q - s) (c - t) (d - t)) : Nice (fun y z => f (y - s) (z - t)) p q c d ∧
    ∫ y in p..q, ∫ z in c..d, f (y - s) (z - t) = ∫ y in (p - s)..(q - s), ∫ z in (c - t)..(d - t), f y z := by
  have e : ∀ y, ∫ z in c..d, f (y - s) (z - t) = ∫ z in (c - t)..(d - t), f (y - s) z := fun y => intervalIntegral.integral_comp_sub_right (fun z => f (y - s) z) t
  refine ⟨⟨fun y => ?_, ?_⟩, ?_⟩
  · have := (h.inner (y - s)).comp_sub_right t
    simpa using this
  · simp only [e]
    have := h.outer.comp_sub_right s
    simpa using this
  · simp only [e]
    exact intervalIntegral.integral_comp_sub_right (fun y => ∫ z in (c - t)..(d - t), f y z) s

/-- A field whose flux through each of the six faces can be computed. -/
structure Nice6 (E : V3 → V3) (a b : V3) : Prop where
  x : ∀ c, Nice (fun y z => (E ⟨c, y, z⟩).x) a.y b.y a.z b.z
  y : ∀ c, Nice (fun x z => (E ⟨x, c, z⟩).y) a.x b.x a.z b.z
  z : ∀ c, Nice (fun x y => (E ⟨x, y, c⟩).z) a.x b.x a.y b.y

theorem Nice6.add {E F : V3 → V3} {a b : V3} (h : Nice6 E a b) (h' : Nice6 F a b) : Nice6 (fun p => E p + F p) a b ∧ boxFlux (fun p => E p + F p) a b = boxFlux E a b + boxFlux F a b := by
  refine ⟨⟨fun c => ((h.x c).add (h'.x c)).1, fun c => ((h.y c).add (h'.y c)).1, fun c => ((h.z c).add (h'.z c)).1⟩, ?_⟩
  unfold boxFlux
  simp only [V3.add_x, V3.add_y, V3.add_z]
  rw [((h.x b.x).add (h'.x b.x)).2, ((h.x a.x).add (h'.x a.x)).2, ((h.y b.y).add (h'.y b.y)).2, ((h.y a.y).add (h'.y a.y)).2, ((h.z b.z).add (h'.z b.z)).2, ((h.z a.z).add (h'.z a.z)).2]
  ring

theorem Nice6.smul {E : V3 → V3} {a b : V3} (h : Nice6 E a b) (w : ℝ) : Nice6 (fun p => w * E p) a b ∧ boxFlux (fun p => w * E p) a b = w * boxFlux E a b := by
  refine ⟨⟨fun c => (h.x c).smul w, fun c => (h.y c).smul w, fun c => (h.z c).smul w⟩, ?_⟩
  unfold boxFlux
  simp only [V3.smul_x, V3.smul_y, V3.smul_z, intervalIntegral.integral_const_mul]
  ring

theorem Nice6.zero (a b : V3) : Nice6 (fun _ => (0 : V3)) a b ∧ boxFlux (fun _ => (0 : V3)) a b = 0 := by
  have : ∀ p q c d : ℝ, Nice (fun _ _ => (0 : ℝ)) p q c d := fun p q c d => ⟨fun _ => by simp, by simp⟩
  exact ⟨⟨fun _ => this _ _ _ _, fun _ => this _ _ _ _, fun _ => this _ _ _ _⟩, by simp [boxFlux]⟩

/-- The field of a unit charge. -/
noncomputable def unit (q p : V3) : V3 := ⟨-dx1Potential3dPoint p q, -dy1Potential3dPoint p q, -dz1Potential3dPoint p q⟩

theorem side (a s t p q c d : ℝ) : Nice (fun y z => 1 / (4 * Real.pi) * (a / dst a (y - s) (z - t) ^ 3)) p q c d ∧
    ∫ y in p..q, ∫ z in c..d, 1 / (4 * Real.pi) * (a / dst a (y - s) (z - t) ^ 3) =
      1 / (4 * Real.pi) * (G a (q - s) (d - t) - G a (p - s) (d - t) - (G a (q - s) (c - t) - G a (p - s) (c - t))) := by
  obtain ⟨h1, h2⟩ := face a (p - s) (q - s) (c - t) (d - t)
  obtain ⟨h3, h4⟩ := h1.shift s t
  refine ⟨h3.smul _, ?_⟩
  simp only [intervalIntegral.integral_const_mul]
  rw [h4, h2]

theorem unit_x (q : V3) (c y z : ℝ) : (unit q ⟨c, y, z⟩).x = 1 / (4 * Real.pi) * ((c - q.x) / dst (c - q.x) (y - q.y) (z - q.z) ^ 3) := by
  have : V3.norm (q - ⟨c, y, z⟩) = dst (c - q.x) (y - q.y) (z - q.z) := by
    unfold V3.norm dst V3.dot; congr 1; simp only [V3.sub_x, V3.sub_y, V3.sub_z]; ring
  simp only [unit, dx1Potential3dPoint, this]
  rw [← neg_div, neg_sub, one_div, div_mul_eq_div_div_swap]
  ring

theorem unit_y (q : V3) (c x z : ℝ) : (unit q ⟨x, c, z⟩).y = 1 / (4 * Real.pi) * ((c - q.y) / dst (c - q.y) (x - q.x) (z - q.z) ^ 3) := by
  have : V3.norm (q - ⟨x, c, z⟩) = dst (c - q.y) (x - q.x) (z - q.z) := by
    unfold V3.norm dst V3.dot; congr 1; simp only [V3.sub_x, V3.sub_y, V3.sub_z]; ring
  simp only [unit, dy1Potential3dPoint, this]
  rw [← neg_div, neg_sub, one_div, div_mul_eq_div_div_swap]
  ring

theorem unit_z (q : V3) (c x y : ℝ) : (unit q ⟨x, y, c⟩).z = 1 / (4 * Real.pi) * ((c - q.z) / dst (c - q.z) (x - q.x) (y - q.y) ^ 3) := by
  have : V3.norm (q - ⟨x, y, c⟩) = dst (c - q.z) (x - q.x) (y - q.y) := by
    unfold V3.norm dst V3.dot; congr 1; simp only [V3.sub_x, V3.sub_y, V3.sub_z]; ring
  simp only [unit, dz1Potential3dPoint, this]
  rw [← neg_div, neg_sub, one_div, div_mul_eq_div_div_swap]
  ring

theorem unit_nice (q a b : V3) : Nice6 (unit q) a b :=
  ⟨fun c => by simp only [unit_x]; exact (side _ _ _ _ _ _ _).1, fun c => by simp only [unit_y]; exact (side _ _ _ _ _ _ _).1, fun c => by simp only [unit_z]; exact (side _ _ _ _ _ _ _).1⟩

/-- The flux of a unit charge, wherever it is. -/
theorem unit_flux (q a b : V3) : boxFlux (unit q) a b = (sg (b.x - q.x) - sg (a.x - q.x)) / 2 * ((sg (b.y - q.y) - sg (a.y - q.y)) / 2) * ((sg (b.z - q.z) - sg (a.z - q.z)) / 2) := by
  unfold boxFlux
  simp only [unit_x, unit_y, unit_z]
  rw [(side _ _ _ _ _ _ _).2, (side _ _ _ _ _ _ _).2, (side _ _ _ _ _ _ _).2, (side _ _ _ _ _ _ _).2, (side _ _ _ _ _ _ _).2, (side _ _ _ _ _ _ _).2]
  generalize b.x - q.x = X2
  generalize a.x - q.x = X1
  generalize b.y - q.y = Y2
  generalize a.y - q.y = Y1
  generalize b.z - q.z = Z2
  generalize a.z - q.z = Z1
  have c1 := G_corner X1 Y1 Z1
  have c2 := G_corner X1 Y1 Z2
  have c3 := G_corner X1 Y2 Z1
  have c4 := G_corner X1 Y2 Z2
  have c5 := G_corner X2 Y1 Z1
  have c6 := G_corner X2 Y1 Z2
  have c7 := G_corner X2 Y2 Z1
  have c8 := G_corner X2 Y2 Z2
  have hpi := Real.pi_pos
  have key : (G X2 Y2 Z2 - G X2 Y1 Z2 - (G X2 Y2 Z1 - G X2 Y1 Z1)) - (G X1 Y2 Z2 - G X1 Y1 Z2 - (G X1 Y2 Z1 - G X1 Y1 Z1)) +
      ((G Y2 X2 Z2 - G Y2 X1 Z2 - (G Y2 X2 Z1 - G Y2 X1 Z1)) - (G Y1 X2 Z2 - G Y1 X1 Z2 - (G Y1 X2 Z1 - G Y1 X1 Z1))) +
      ((G Z2 X2 Y2 - G Z2 X1 Y2 - (G Z2 X2 Y1 - G Z2 X1 Y1)) - (G Z1 X2 Y2 - G Z1 X1 Y2 - (G Z1 X2 Y1 - G Z1 X1 Y1))) =
      (sg X2 - sg X1) * (sg Y2 - sg Y1) * (sg Z2 - sg Z1) * (Real.pi / 2) := by linarith
  have e : (sg X2 - sg X1) / 2 * ((sg Y2 - sg Y1) / 2) * ((sg Z2 - sg Z1) / 2) = 1 / (4 * Real.pi) * ((sg X2 - sg X1) * (sg Y2 - sg Y1) * (sg Z2 - sg Z1) * (Real.pi / 2)) := by
    field_simp
    ring
  rw [e, ← key]
  ring

theorem sg_of_pos {x : ℝ} (h : 0 < x) : sg x = 1 := by simp [sg, h]
theorem sg_of_neg {x : ℝ} (h : x < 0) : sg x = -1 := by simp [sg, h, not_lt.2 h.le]

theorem unit_inside {q a b : V3} (h : InsideBox a b q) : boxFlux (unit q) a b = 1 := by
  obtain ⟨⟨x1, x2⟩, ⟨y1, y2⟩, z1, z2⟩ := h
  rw [unit_flux, sg_of_pos (sub_pos.2 x2), sg_of_pos (sub_pos.2 y2), sg_of_pos (sub_pos.2 z2), sg_of_neg (sub_neg.2 x1), sg_of_neg (sub_neg.2 y1), sg_of_neg (sub_neg.2 z1)]
  norm_num

theorem unit_outside {q a b : V3} (hx : a.x ≤ b.x) (hy : a.y ≤ b.y) (hz : a.z ≤ b.z) (h : OutsideBox a b q) : boxFlux (unit q) a b = 0 := by
  rw [unit_flux]
  rcases h with (h | h) | (h | h) | (h | h)
  · rw [sg_of_pos (show 0 < a.x - q.x by linarith), sg_of_pos (show 0 < b.x - q.x by linarith)]; ring
  · rw [sg_of_neg (show a.x - q.x < 0 by linarith), sg_of_neg (show b.x - q.x < 0 by linarith)]; ring
  · rw [sg_of_pos (show 0 < a.y - q.y by linarith), sg_of_pos (show 0 < b.y - q.y by linarith)]; ring
  · rw [sg_of_neg (show a.y - q.y < 0 by linarith), sg_of_neg (show b.y - q.y < 0 by linarith)]; ring
  · rw [sg_of_pos (show 0 < a.z - q.z by linarith), sg_of_pos (show 0 < b.z - q.z by linarith)]; ring
  · rw [sg_of_neg (show a.z - q.z < 0 by linarith), sg_of_neg (show b.z - q.z < 0 by linarith)]; ring

/-- The field of charges, one after the other -/
noncomputable def fieldOf (l : List (ℝ × V3)) (p : V3) : V3 := l.foldr (fun x s => x.1 * unit x.2 p + s) 0

theorem fieldOf_flux (a b : V3) (l : List (ℝ × V3)) : Nice6 (fieldOf l) a b ∧ boxFlux (fieldOf l) a b = (l.map fun x => x.1 * boxFlux (unit x.2) a b).sum := by
  induction l with
  | nil => exact Nice6.zero a b
  | cons x l ih =>
    obtain ⟨h1, h2⟩ := (unit_nice x.2 a b).smul x.1
    obtain ⟨h3, h4⟩ := h1.add ih.1
    refine ⟨h3, ?_⟩
    change boxFlux (fun p => x.1 * unit x.2 p + fieldOf l p) a b = _
    rw [h4, h2, ih.2, List.map_cons, List.sum_cons]

theorem fieldOf_sum (l : List (ℝ × V3)) (p : V3) : fieldOf l p = ⟨(l.map fun x => x.1 * (unit x.2 p).x).sum, (l.map fun x => x.1 * (unit x.2 p).y).sum, (l.map fun x => x.1 * (unit x.2 p).z).sum⟩ := by
  induction l with
  | nil => rfl
  | cons x l ih =>
    change x.1 * unit x.2 p + fieldOf l p = _
    rw [ih]
    ext <;> simp

theorem field3d_eq (e : EffCharges V3) : (fun p => field3d p e) = fieldOf ((Fp.points e).map fun x => (x.1 * x.2.1, x.2.2)) := by
  funext p
  rw [fieldOf_sum]
  unfold field3d
  simp only [EffCharges.loopSub_loop, ← Fp.points_sum, List.map_map, Function.comp_def, unit, mul_neg, Fp.sum_neg]

end BoxFlux

/-- **C107.** The flux of the computed field out of a box is the sum of the charges times Jacobians of the integration points inside. -/
theorem C107_points (e : EffCharges V3) {a b : V3} (hx : a.x ≤ b.x) (hy : a.y ≤ b.y) (hz : a.z ≤ b.z) (hq : ∀ x ∈ Fp.points e, InsideBox a b x.2.2 ∨ OutsideBox a b x.2.2) :
    open Classical in boxFlux (fun p => field3d p e) a b = (((Fp.points e).filter fun x => InsideBox a b x.2.2).map fun x => x.1 * x.2.1).sum := by
  classical
  rw [field3d_eq, (fieldOf_flux a b _).2, List.map_map]
  revert hq
  generalize Fp.points e = l
  intro hq
  induction l with
  | nil => rfl
  | cons x l ih =>
    rw [List.map_cons, List.sum_cons, ih fun y hy => hq y (List.mem_cons_of_mem _ hy)]
    simp only [Function.comp_apply]
    by_cases hi : InsideBox a b x.2.2
    · rw [List.filter_cons_of_pos (by simpa using hi), List.map_cons, List.sum_cons, unit_inside hi, mul_one]
    · rw [List.filter_cons_of_neg (by simpa using hi), unit_outside hx hy hz ((hq x List.mem_cons_self).resolve_left hi), mul_zero, zero_add]

theorem getD_of_lt {α : Type} (l : List α) (d : α) {i : ℕ} (h : i < l.length) : l.getD i d = l[i] := by
  simp [List.getD, List.getElem?_eq_getElem h]

/-- **C107**, elements: if every element lies inside or outside of the box, the flux is what `charge_on_elements` gives for those inside. -/
theorem C107_elements (e : EffCharges V3) (he : e.Wf) {a b : V3} (hx : a.x ≤ b.x) (hy : a.y ≤ b.y) (hz : a.z ≤ b.z) (js : List Nat) (hn : js.Nodup) (hjs : ∀ j ∈ js, j < e.len)
    (hin : ∀ i ∈ js, ∀ ps, e.positions[i]? = some ps → ∀ q ∈ ps, InsideBox a b q) (hout : ∀ i, i ∉ js → ∀ ps, e.positions[i]? = some ps → ∀ q ∈ ps, OutsideBox a b q) :
    chargeOnElements (areaOfElement3d e) e.charges js = some (boxFlux (fun p => field3d p e) a b) := by
  classical
  obtain ⟨hj, hjr, hp, hpr⟩ := he
  -- the flux, element by element
  have hflux : boxFlux (fun p => field3d p e) a b = ((List.range e.len).map fun i => if i ∈ js then (e.jacobians.getD i []).sum * e.charges.getD i 0 else 0).sum := by
    rw [field3d_eq, (fieldOf_flux a b _).2, List.map_map]
    have : ((fun x : ℝ × V3 => x.1 * boxFlux (unit x.2) a b) ∘ fun x : ℝ × ℝ × V3 => (x.1 * x.2.1, x.2.2)) = fun x : ℝ × ℝ × V3 => x.1 * x.2.1 * boxFlux (unit x.2.2) a b := rfl
    rw [this]
    have hl : e.charges.zip (e.jacobians.zip e.positions) = (List.range e.len).map fun i => (e.charges.getD i 0, e.jacobians.getD i [], e.positions.getD i []) := by
      apply List.ext_getElem
      · simp [EffCharges.len]; omega
      · intro i h1 h2
        simp only [List.getElem_zip, List.getElem_map, List.getElem_range]
        have h3 : i < e.charges.length := by simp at h1; omega
        rw [getD_of_lt _ _ h3, getD_of_lt _ _ (by omega), getD_of_lt _ _ (by omega)]
    unfold Fp.points
    rw [hl, List.flatMap_map]
    have hcore : ∀ l : List Nat, (∀ i ∈ l, i < e.len) → ((l.flatMap fun i => ((e.jacobians.getD i []).zip (e.positions.getD i [])).map fun y => (e.charges.getD i 0, y.1, y.2)).map
        fun x : ℝ × ℝ × V3 => x.1 * x.2.1 * boxFlux (unit x.2.2) a b).sum = (l.map fun i => if i ∈ js then (e.jacobians.getD i []).sum * e.charges.getD i 0 else 0).sum := by
      intro l
      induction l with
      | nil => intro _; rfl
      | cons i l ih =>
        intro hi
        rw [List.flatMap_cons, List.map_append, List.sum_append, ih fun j hj => hi j (List.mem_cons_of_mem _ hj), List.map_cons, List.sum_cons, List.map_map]
        congr 1
        have hil : i < e.charges.length := hi i List.mem_cons_self
        have hP : e.positions[i]? = some (e.positions.getD i []) := by
          rw [getD_of_lt _ _ (by omega), List.getElem?_eq_getElem (by omega)]
        have hlen : (e.jacobians.getD i []).length ≤ (e.positions.getD i []).length := by
          rw [getD_of_lt _ _ (by omega), getD_of_lt _ _ (by omega), hjr _ (List.getElem_mem _), hpr _ (List.getElem_mem _)]
        by_cases hm : i ∈ js
        · rw [if_pos hm]
          have e1 : ((e.jacobians.getD i []).zip (e.positions.getD i [])).map ((fun x : ℝ × ℝ × V3 => x.1 * x.2.1 * boxFlux (unit x.2.2) a b) ∘ fun y => (e.charges.getD i 0, y.1, y.2)) =
              (e.jacobians.getD i []).map fun j => e.charges.getD i 0 * j := by
            conv_rhs => rw [← List.map_fst_zip hlen, List.map_map]
            refine List.map_congr_left fun y hy => ?_
            simp only [Function.comp_apply]
            rw [unit_inside (hin i hm _ hP _ (List.of_mem_zip hy).2), mul_one]
          rw [e1, List.sum_map_mul_left, List.map_id', mul_comm]
        · rw [if_neg hm]
          refine List.sum_eq_zero fun v hv => ?_
          obtain ⟨y, hy', rfl⟩ := List.mem_map.1 hv
          simp only [Function.comp_apply]
          rw [unit_outside hx hy hz (hout i hm _ hP _ (List.of_mem_zip hy').2), mul_zero]
    exact hcore _ fun i hi => List.mem_range.1 hi
  have hch : ∀ i ∈ js, chargeOnElement (areaOfElement3d e) e.charges i = some ((e.jacobians.getD i []).sum * e.charges.getD i 0) := by
    intro i hi
    have hil : i < e.charges.length := hjs i hi
    unfold chargeOnElement areaOfElement3d
    rw [getD_of_lt _ _ (by omega), getD_of_lt _ _ hil, List.getElem?_eq_getElem (by omega), List.getElem?_eq_getElem hil]
    rfl
  rw [hflux]
  unfold chargeOnElements
  rw [foldlM_some js hch 0, zero_add]
  have hperm : js.Perm ((List.range e.len).filter (· ∈ js)) := by
    rw [List.perm_ext_iff_of_nodup hn (List.nodup_range.filter _)]
    intro i
    simp only [List.mem_filter, List.mem_range, decide_eq_true_eq]
    exact ⟨fun h => ⟨hjs i h, h⟩, fun h => h.2⟩
  rw [(hperm.map _).sum_eq]
  congr 1
  generalize List.range e.len = l
  clear hflux hperm
  induction l with
  | nil => rfl
  | cons i l ih =>
    by_cases hm : i ∈ js
    · rw [List.filter_cons_of_pos (by simpa using hm), List.map_cons, List.sum_cons, List.map_cons, List.sum_cons, if_pos hm, ih]
    · rw [List.filter_cons_of_neg (by simpa using hm), List.map_cons, List.sum_cons, if_neg hm, zero_add, ih]

end Traceon
