import Verif.Props.Invisible2

/-!
# C88: materials with relative permittivity or permeability one are invisible
-/
namespace Traceon
open Spec Excitation

/-- The groups of the elements used for solving are those of the mesh. -/
theorem upgraded_physicals {G : Geo V3} (hG : G.Lawful) {x y : Excitation ℝ V3} (hv : Valid x.mesh) (u : x.upgraded G = some y) (hs : Shaped y) : y.physicals = x.physicals := by
  unfold upgraded at u
  obtain ⟨M, hM, rfl⟩ := Option.map_eq_some_iff.1 u
  unfold Mesh.solverMesh at hM
  split at hM
  · rename_i hc
    have h2 : x.mesh.lineCols = 2 := by
      simp only [Bool.and_eq_true, Bool.not_eq_eq_eq_not, Bool.not_true, Mesh.isHigherOrder, beq_eq_false_iff_ne] at hc
      rcases hv.cols with h | h
      · exact h
      · exact absurd h hc.2
    obtain ⟨M', h1, -, h3, h4, -⟩ := C12_upgrade hG realThirds x.mesh hv h2
    rw [hM] at h1
    cases h1
    rcases hs with ⟨r, -, -⟩ | ⟨-, -, l, -⟩
    · simp only at r
      unfold physicals
      simp only [r, if_true]
      exact h4
    · simp only at l
      omega
  · cases hM
    rfl

theorem SameSources.radialFields {s : Statics} {c : EffCharges V3} {e e' : EffCharges (ℝ × ℝ)} (h : SameSources e e') (p : V3) :
    (toFieldRadial s c e').electrostaticPotential p = (toFieldRadial s c e).electrostaticPotential p ∧
    (toFieldRadial s c e').electrostaticField p = (toFieldRadial s c e).electrostaticField p ∧
    (toFieldRadial s c e').magnetostaticPotential p = (toFieldRadial s c e).magnetostaticPotential p ∧
    (toFieldRadial s c e').magnetostaticField p = (toFieldRadial s c e).magnetostaticField p := by
  obtain ⟨h1, h2⟩ := h.radial p
  cases s <;> simp only [toFieldRadial, PyObj.electrostaticPotential, PyObj.electrostaticField, PyObj.magnetostaticPotential, PyObj.magnetostaticField, h1, h2, and_self]

theorem SameSources.fields3d {s : Statics} {e e' : EffCharges V3} (h : SameSources e e') (p : V3) :
    (toField3d s e').electrostaticPotential p = (toField3d s e).electrostaticPotential p ∧
    (toField3d s e').electrostaticField p = (toField3d s e).electrostaticField p ∧
    (toField3d s e').magnetostaticPotential p = (toField3d s e).magnetostaticPotential p ∧
    (toField3d s e').magnetostaticField p = (toField3d s e).magnetostaticField p := by
  obtain ⟨h1, h2⟩ := h.threeD p
  cases s <;> simp only [toField3d, PyObj.electrostaticPotential, PyObj.electrostaticField, PyObj.magnetostaticPotential, PyObj.magnetostaticField, h1, h2, and_self]

/-- **C88.** Let the names `N` be those of dielectrics of relative permittivity one and of magnetizable materials of relative permeability one, on elements with no other excitation. Whether `solve_direct`
returns or raises does not depend on them, and if it returns, the field is at every point the one that is returned if these materials are never mentioned. This is so in radial symmetry and in three
dimensions, with any number of threads and in any schedules (in radial symmetry, in both cases, at least twice as many lines as threads, see C36). `y` is the excitation on the mesh used for solving
(with lines of higher order in radial symmetry).

The last two equalities hold if the two fields are electrostatic and magnetostatic alike: `potential_at_point` raises for a field without charges. -/
theorem C88_invisible {G : Geo V3} {N : List String} {x y : Excitation ℝ V3} {env env' : SolveEnv} (hG : G.Lawful) (hv : Valid x.mesh) (hn : x.types.keys.Nodup) (u : x.upgraded G = some y)
    (hs : Shaped y) (hN : UnitMaterials x N) (hA : Apart x N) (he : FaithfulEnv env y) (he' : FaithfulEnv env' (without y N)) (hE : EnoughLines env y) (hE' : EnoughLines env' (without y N)) :
    ((∃ f, x.solveField G env = some f) ↔ ∃ f', (without x N).solveField G env' = some f') ∧
    ∀ f f', x.solveField G env = some f → (without x N).solveField G env' = some f' → ∀ p,
      f'.electrostaticPotential p = f.electrostaticPotential p ∧ f'.electrostaticField p = f.electrostaticField p ∧
      f'.magnetostaticPotential p = f.magnetostaticPotential p ∧ f'.magnetostaticField p = f.magnetostaticField p ∧
      ((f'.isElectrostatic ↔ f.isElectrostatic) → (f'.isMagnetostatic ↔ f.isMagnetostatic) → f'.potentialAtPoint p = f.potentialAtPoint p ∧ f'.fieldAtPoint p = f.fieldAtPoint p) := by
  have hph := upgraded_physicals hG hv u hs
  have hy : Valid y.mesh ∧ y.types = x.types := by
    have u := u
    unfold upgraded at u
    obtain ⟨M, hM, rfl⟩ := Option.map_eq_some_iff.1 u
    exact ⟨solverMesh_valid hG hv hM, rfl⟩
  have hkind : ∀ s n, HasKind y s n ↔ HasKind x s n := by intro s n; unfold HasKind; rw [hy.2]
  have hN' : UnitMaterials y N := by
    intro n h tv ht
    rw [hy.2] at ht
    rw [hph]
    exact hN n h tv ht
  have hA' : Apart y N := by
    intro s n n' g g'
    rw [hkind, hkind, hph]
    exact hA s n n' g g'
  have hny : y.types.keys.Nodup := by rw [hy.2]; exact hn
  have u' : (without x N).upgraded G = some (without y N) := by
    unfold upgraded at u ⊢
    obtain ⟨M, hM, rfl⟩ := Option.map_eq_some_iff.1 u
    have : (without x N).mesh = x.mesh := rfl
    rw [this, hM]
    rfl
  have key := fun s => solveStatics_without hy.1 hny hs hN' hA' he he' hE hE' s
  obtain ⟨w1, w2, -⟩ := without_electro hN' hny
  have hsum : ∀ a b a' b' : PyObj, y.solveStatics env .electrostatic = some a → y.solveStatics env .magnetostatic = some b →
      (without y N).solveStatics env' .electrostatic = some a' → (without y N).solveStatics env' .magnetostatic = some b' →
      ((∃ f, a.add b = some f) ↔ ∃ f', a'.add b' = some f') ∧ ∀ f f', a.add b = some f → a'.add b' = some f' → ∀ p,
        f'.electrostaticPotential p = f.electrostaticPotential p ∧ f'.electrostaticField p = f.electrostaticField p ∧
        f'.magnetostaticPotential p = f.magnetostaticPotential p ∧ f'.magnetostaticField p = f.magnetostaticField p := by
    intro a b a' b' ha hb ha' hb'
    have hno : ∀ e e', (toField3d .electrostatic e).add (toField3d .magnetostatic e') = none := fun e e' =>
      (C39_refuted ⟨.empty2d, .empty2d, .empty3d, none⟩ ⟨.empty2d, .empty2d, .empty3d, none⟩ ⟨e, .empty3d, none⟩ ⟨.empty3d, e', none⟩ ⟨true, [], [], []⟩ ⟨true, [], [], []⟩ rfl rfl 0).2.1.1
    have hmix1 : ∀ e c e', (toField3d .electrostatic e).add (toFieldRadial .magnetostatic c e') = none := by
      intro e c e'
      simp [toField3d, toFieldRadial, PyObj.add, PyObj.binary, PyObj.method, PyObj.bemBinary, PyObj.attr, PyObj.effMethod, PyObj.construct3]
    have hmix2 : ∀ e c e', (toFieldRadial .electrostatic c e).add (toField3d .magnetostatic e') = none := by
      intro e c e'
      simp [toField3d, toFieldRadial, PyObj.add, PyObj.binary, PyObj.method, PyObj.bemBinary, PyObj.attr, PyObj.effMethod, PyObj.construct3]
    rcases (key .electrostatic).2 a a' ha ha' with ⟨c, e, e', k1, rfl, rfl⟩ | ⟨e, e', k1, rfl, rfl⟩ <;>
      rcases (key .magnetostatic).2 b b' hb hb' with ⟨d, m, m', l1, rfl, rfl⟩ | ⟨m, m', l1, rfl, rfl⟩
    · have wf : ∀ {x : Excitation ℝ V3} {env : SolveEnv} {s : Statics} {c : EffCharges V3} {e : EffCharges (ℝ × ℝ)}, x.solveStatics env s = some (toFieldRadial s c e) →
          e.Wf ∧ e.nquad = 16 ∧ (s = .magnetostatic → coilsIn x s = some c) := by
        intro x env s c e h
        rcases solveStatics_shape h with ⟨_, _, hx⟩ | ⟨E, c', v1, v2, v3, v4⟩
        · cases s <;> simp [toFieldRadial, toField3d] at hx
        · cases s <;> simp only [toFieldRadial, PyObj.radial.injEq, FieldRadialBEM.mk.injEq] at v1
          · obtain ⟨rfl, -⟩ := v1; exact ⟨v2, v3, by simp⟩
          · obtain ⟨-, rfl, rfl, -⟩ := v1; exact ⟨v2, v3, fun _ => v4⟩
      obtain ⟨a1, a2, -⟩ := wf ha
      obtain ⟨b1, b2, b3⟩ := wf hb
      obtain ⟨a1', a2', -⟩ := wf ha'
      obtain ⟨b1', b2', b3'⟩ := wf hb'
      rw [add_radial a1 a2 b1 b2 (b3 rfl), add_radial a1' a2' b1' b2' (b3' rfl)]
      refine ⟨by simp, ?_⟩
      intro f f' hf hf' p
      cases hf; cases hf'
      obtain ⟨q1, q2⟩ := k1.radial p
      obtain ⟨q3, q4⟩ := l1.radial p
      simp only [PyObj.electrostaticPotential, PyObj.electrostaticField, PyObj.magnetostaticPotential, PyObj.magnetostaticField, q1, q2, q3, q4, and_self]
    · simp [hmix2]
    · simp [hmix1]
    · simp [hno]
  have single : ∀ s f f', y.solveStatics env s = some f → (without y N).solveStatics env' s = some f' → ∀ p,
      f'.electrostaticPotential p = f.electrostaticPotential p ∧ f'.electrostaticField p = f.electrostaticField p ∧
        f'.magnetostaticPotential p = f.magnetostaticPotential p ∧ f'.magnetostaticField p = f.magnetostaticField p := by
    intro s f f' hf hf' p
    rcases (key s).2 f f' hf hf' with ⟨c, e, e', k1, rfl, rfl⟩ | ⟨e, e', k1, rfl, rfl⟩
    · exact k1.radialFields p
    · exact k1.fields3d p
  have hfin : ∀ {f f' : PyObj} {p : V3}, (f'.electrostaticPotential p = f.electrostaticPotential p ∧ f'.electrostaticField p = f.electrostaticField p ∧
        f'.magnetostaticPotential p = f.magnetostaticPotential p ∧ f'.magnetostaticField p = f.magnetostaticField p) →
      f'.electrostaticPotential p = f.electrostaticPotential p ∧ f'.electrostaticField p = f.electrostaticField p ∧
      f'.magnetostaticPotential p = f.magnetostaticPotential p ∧ f'.magnetostaticField p = f.magnetostaticField p ∧
      ((f'.isElectrostatic ↔ f.isElectrostatic) → (f'.isMagnetostatic ↔ f.isMagnetostatic) → f'.potentialAtPoint p = f.potentialAtPoint p ∧ f'.fieldAtPoint p = f.fieldAtPoint p) := by
    rintro f f' p ⟨k1, k2, k3, k4⟩
    refine ⟨k1, k2, k3, k4, fun b1 b2 => ⟨?_, ?_⟩⟩
    · unfold PyObj.potentialAtPoint
      by_cases c1 : f.isElectrostatic <;> by_cases c2 : f.isMagnetostatic <;> simp [b1, b2, c1, c2, k1, k3]
    · unfold PyObj.fieldAtPoint
      by_cases c1 : f.isElectrostatic <;> by_cases c2 : f.isMagnetostatic <;> simp [b1, b2, c1, c2, k2, k4]
  unfold solveField
  rw [u, u']
  simp only [Option.bind_eq_bind, Option.bind_some, w1, w2]
  cases h1 : y.isElectrostatic <;> cases h2 : y.isMagnetostatic <;> simp only [if_true, if_false, Bool.false_eq_true]
  · simp
  · exact ⟨(key _).1, fun f f' hf hf' p => hfin (single _ f f' hf hf' p)⟩
  · exact ⟨(key _).1, fun f f' hf hf' p => hfin (single _ f f' hf hf' p)⟩
  · have ke := (key .electrostatic).1
    have km := (key .magnetostatic).1
    cases a1 : y.solveStatics env .electrostatic with
    | none =>
      cases a1' : (without y N).solveStatics env' .electrostatic with
      | none => simp
      | some a' => rw [a1, a1'] at ke; exact absurd (ke.2 ⟨_, rfl⟩) (by simp)
    | some a =>
      cases a1' : (without y N).solveStatics env' .electrostatic with
      | none => rw [a1, a1'] at ke; exact absurd (ke.1 ⟨_, rfl⟩) (by simp)
      | some a' =>
        cases b1 : y.solveStatics env .magnetostatic with
        | none =>
          cases b1' : (without y N).solveStatics env' .magnetostatic with
          | none => simp
          | some b' => rw [b1, b1'] at km; exact absurd (km.2 ⟨_, rfl⟩) (by simp)
        | some b =>
          cases b1' : (without y N).solveStatics env' .magnetostatic with
          | none => rw [b1, b1'] at km; exact absurd (km.1 ⟨_, rfl⟩) (by simp)
          | some b' =>
            simp only [Option.bind_some]
            obtain ⟨c1, c2⟩ := hsum a b a' b' a1 b1 a1' b1'
            exact ⟨c1, fun f f' hf hf' p => hfin (c2 f f' hf hf' p)⟩

end Traceon
