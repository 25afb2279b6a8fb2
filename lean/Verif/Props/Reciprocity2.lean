import Verif.Props.Reciprocity
import Verif.Lemmas.MaxPrinciple
import Verif.Props.Interface

/-!
# C115: the force is what the energy says
-/
namespace Traceon
open Spec

theorem weighted_moved (d : V3) (e : EffCharges V3) : weighted (movedBy d e) = (weighted e).map fun w => (w.1, w.2 + d) := by
  unfold weighted movedBy
  simp only [List.map_flatMap, List.map_map]
  rw [List.zip_map_right, List.zip_map_right, List.flatMap_map]
  refine List.flatMap_congr fun x _ => ?_
  rw [Prod.map_snd, Prod.map_fst, Prod.map_snd, Prod.map_fst, List.zip_map_right, List.map_map]
  rfl

theorem hasDerivAt_listSum {α : Type} (l : List α) (f : α → ℝ → ℝ) (f' : α → ℝ) (t : ℝ) (h : ∀ a ∈ l, HasDerivAt (f a) (f' a) t) :
    HasDerivAt (fun s => (l.map fun a => f a s).sum) (l.map f').sum t := by
  induction l with
  | nil => simpa using hasDerivAt_const t (0 : ℝ)
  | cons a l ih =>
    simp only [List.map_cons, List.sum_cons]
    exact (h a List.mem_cons_self).add (ih fun b hb => h b (List.mem_cons_of_mem _ hb))

theorem work_moved (A B : EffCharges V3) (d : V3) (t : ℝ) (h : ∀ rb ∈ B.positions, ∀ b ∈ rb, ∀ ra ∈ A.positions, b + t * d ∉ ra) :
    HasDerivAt (fun s => energyIn (fun p => potential3d p A) (movedBy (s * d) B)) (-V3.dot (forceOn (fun p => field3d p A) (movedBy (t * d) B)) d) t := by
  unfold energyIn
  simp only [superpose_weighted, weighted_moved, List.map_map]
  refine (hasDerivAt_listSum (weighted B) (fun w s => w.1 * potential3d (w.2 + s * d) A) (fun w => w.1 * V3.dot (-field3d (w.2 + t * d) A) d) t fun w hw => ?_).congr_deriv ?_
  · obtain ⟨row, h1, h2⟩ := mem_weighted hw
    exact (C43_gradient A (w.2 + t * d) fun ra hra => h row h1 w.2 h2 ra hra).alongAt.const_mul w.1
  · unfold forceOn
    simp only [superpose_weighted, weighted_moved, List.map_map, V3.dot]
    induction weighted B with
    | nil => simp
    | cons w l ih =>
      simp only [List.map_cons, List.sum_cons] at ih ⊢
      rw [ih]
      simp only [Function.comp, V3.neg_x, V3.neg_y, V3.neg_z]
      ring

/-- **C115**, virtual work: move the charges of one field along a line. As long as no charge meets a charge of the other field, the energy in the potential of the other field changes by minus the work of the
force that the other field exerts. -/
theorem C115_work (f : Field3DBEM) (B : EffCharges V3) (d : V3) (t : ℝ) :
    ((∀ rb ∈ B.positions, ∀ b ∈ rb, ∀ ra ∈ f.elec.positions, b + t * d ∉ ra) →
      HasDerivAt (fun s => energyIn (fun p => ((PyObj.threeD f).electrostaticPotential p).getD 0) (movedBy (s * d) B))
        (-V3.dot (forceOn (fun p => ((PyObj.threeD f).electrostaticField p).getD 0) (movedBy (t * d) B)) d) t) ∧
    ((∀ rb ∈ B.positions, ∀ b ∈ rb, ∀ ra ∈ f.mag.positions, b + t * d ∉ ra) →
      HasDerivAt (fun s => energyIn (fun p => ((PyObj.threeD f).magnetostaticPotential p).getD 0) (movedBy (s * d) B))
        (-V3.dot (forceOn (fun p => ((PyObj.threeD f).magnetostaticField p).getD 0) (movedBy (t * d) B)) d) t) :=
  ⟨work_moved f.elec B d t, work_moved f.mag B d t⟩

/-- A case: a charge 2 moved upwards from height 1, above a unit charge at the origin. -/
theorem C115_example_work : let f : Field3DBEM := ⟨⟨1, [1], [[1]], [[⟨0, 0, 0⟩]]⟩, EffCharges.empty3d, none⟩
    let B : EffCharges V3 := ⟨1, [2], [[1]], [[⟨0, 0, 1⟩]]⟩
    (∀ t : ℝ, 0 ≤ t → ∀ rb ∈ B.positions, ∀ b ∈ rb, ∀ ra ∈ f.elec.positions, b + t * (⟨0, 0, 1⟩ : V3) ∉ ra) ∧ 0 < B.len := by
  intro f B
  refine ⟨fun t ht => ?_, by simp [B, EffCharges.len]⟩
  simp only [B, f, List.mem_singleton, forall_eq]
  intro h
  have := congrArg V3.z h
  simp at this
  linarith

end Traceon
