import Verif.Props.Pipeline6
import Verif.Props.Similar7

/-!
# C91: an example with radial symmetry

The two discs of C80, made from two parts. The geometric decisions are those of exact arithmetic except that no curve is said to point outwards: the constructor then keeps the direction of the
two lines (it turns a line once against itself, and once more because it does not point outwards).
-/
namespace Traceon
open Spec V3 Excitation

noncomputable def discGeo : Geo V3 := { realGeo id with lineOutward := fun _ _ => false }

theorem discGeo_ok : discGeo.Lawful ∧ discGeo.Stable ∧ ∀ p q, discGeo.eq p q = true ↔ p = q := by
  obtain ⟨h1, h2, h3⟩ := realGeo_ok (trunc := id) (fun _ => rfl)
  exact ⟨⟨h1.1, h1.2, h1.3⟩, ⟨h2.1, h2.2, h2.3⟩, h3⟩

def partDisc : Mesh V3 := { points := [⟨1, 0, 0⟩, ⟨2, 0, 0⟩, ⟨3, 0, 0⟩, ⟨4, 0, 0⟩], lineCols := 4, lines := [[0, 3, 1, 2]], physLines := [("disc", [0])] }
def partGlass : Mesh V3 := { points := [⟨1, 0, 1⟩, ⟨2, 0, 1⟩, ⟨3, 0, 1⟩, ⟨4, 0, 1⟩], lineCols := 4, lines := [[0, 3, 1, 2]], physLines := [("glass", [0])] }
def discSum : Mesh V3 :=
  { points := [⟨1, 0, 0⟩, ⟨2, 0, 0⟩, ⟨3, 0, 0⟩, ⟨4, 0, 0⟩, ⟨1, 0, 1⟩, ⟨2, 0, 1⟩, ⟨3, 0, 1⟩, ⟨4, 0, 1⟩], lineCols := 4, lines := [[0, 3, 1, 2], [4, 7, 5, 6]]
    physLines := [("disc", [0]), ("glass", [1])] }

theorem partDisc_valid : Valid partDisc := by refine ⟨Or.inr rfl, ?_, ?_, ?_, ?_, ?_, ?_⟩ <;> simp [partDisc]
theorem partGlass_valid : Valid partGlass := by refine ⟨Or.inr rfl, ?_, ?_, ?_, ?_, ?_, ?_⟩ <;> simp [partGlass]
theorem discSum_valid : Valid discSum := by refine ⟨Or.inr rfl, ?_, ?_, ?_, ?_, ?_, ?_⟩ <;> simp [discSum]

theorem disc_add : [partDisc, partGlass].foldlM (Mesh.add discGeo) {} = some discSum := by
  have hle : ∀ a b : V3, (a.z < b.z ∨ (a.z = b.z ∧ (a.y < b.y ∨ (a.y = b.y ∧ a.x < b.x)))) → discGeo.le a b = true ∧ discGeo.eq b a = false := by
    intro a b h
    simp only [discGeo, realGeo, V3.lexLe, decide_eq_true_eq, decide_eq_false_iff_not]
    refine ⟨?_, ?_⟩
    · rcases h with h | ⟨h, h' | ⟨h', h''⟩⟩
      · exact .inl h
      · exact .inr ⟨h, .inl h'⟩
      · exact .inr ⟨h, .inr ⟨h', h''.le⟩⟩
    · rintro rfl
      rcases h with h | ⟨h, h' | ⟨h', h''⟩⟩ <;> linarith
  have e1 : Mesh.ensureNormals discGeo true "disc" discSum = some discSum := by rfl
  have e2 : Mesh.ensureNormals discGeo true "glass" discSum = some discSum := by rfl
  have e3 : Mesh.ensureNormals discGeo true "disc" partDisc = some partDisc := by rfl
  have b1 : Mesh.build discGeo partDisc = some partDisc := by
    have h1 := Mesh.removeDegenerate_none (G := discGeo) partDisc partDisc_valid (by simp [partDisc])
    have h2 := Mesh.dedup_settled (G := discGeo) partDisc partDisc_valid (by
      simp only [partDisc, List.pairwise_cons, List.mem_cons, List.not_mem_nil, or_false, forall_eq_or_imp, forall_eq, List.Pairwise.nil, and_true, false_imp_iff, implies_true]
      refine ⟨⟨hle _ _ ?_, hle _ _ ?_, hle _ _ ?_⟩, ⟨hle _ _ ?_, hle _ _ ?_⟩, hle _ _ ?_⟩ <;> norm_num) (fun p _ => rfl)
    unfold Mesh.build
    have hel : partDisc.electrodes = ["disc"] := rfl
    simp only [h1, h2, Option.bind_eq_bind, Option.bind_some, if_true, hel, List.foldlM_cons, List.foldlM_nil, e3, pure, Mesh.assertions_of_valid partDisc_valid]
  have b2 : Mesh.build discGeo discSum = some discSum := by
    have h1 := Mesh.removeDegenerate_none (G := discGeo) discSum discSum_valid (by simp [discSum])
    have h2 := Mesh.dedup_settled (G := discGeo) discSum discSum_valid (by
      simp only [discSum, List.pairwise_cons, List.mem_cons, List.not_mem_nil, or_false, forall_eq_or_imp, forall_eq, List.Pairwise.nil, and_true, false_imp_iff, implies_true]
      refine ⟨⟨hle _ _ ?_, hle _ _ ?_, hle _ _ ?_, hle _ _ ?_, hle _ _ ?_, hle _ _ ?_, hle _ _ ?_⟩, ⟨hle _ _ ?_, hle _ _ ?_, hle _ _ ?_, hle _ _ ?_, hle _ _ ?_, hle _ _ ?_⟩,
        ⟨hle _ _ ?_, hle _ _ ?_, hle _ _ ?_, hle _ _ ?_, hle _ _ ?_⟩, ⟨hle _ _ ?_, hle _ _ ?_, hle _ _ ?_, hle _ _ ?_⟩, ⟨hle _ _ ?_, hle _ _ ?_, hle _ _ ?_⟩,
        ⟨hle _ _ ?_, hle _ _ ?_⟩, hle _ _ ?_⟩ <;> norm_num) (fun p _ => rfl)
    unfold Mesh.build
    have hel : discSum.electrodes = ["disc", "glass"] := rfl
    simp only [h1, h2, Option.bind_eq_bind, Option.bind_some, if_true, hel, List.foldlM_cons, List.foldlM_nil, e1, e2, pure, Mesh.assertions_of_valid discSum_valid]
  have a1 : Mesh.add discGeo {} partDisc = some partDisc := b1
  have a2 : Mesh.add discGeo partDisc partGlass = some discSum := b2
  simp only [List.foldlM_cons, List.foldlM_nil, a1, a2, Option.bind_eq_bind, Option.bind_some, pure]

theorem disc_parts : Parts discGeo [partDisc, partGlass] := by
  refine ⟨4, ?_⟩
  intro m hm
  simp only [List.mem_cons, List.not_mem_nil, or_false] at hm
  rcases hm with rfl | rfl
  · exact ⟨partDisc_valid, fun _ _ => rfl, by simp [partDisc, lineShapes, coords], Pipe.namedOnce_single (some "disc") 1, Pipe.namedOnce_empty (by simp [partDisc])⟩
  · exact ⟨partGlass_valid, fun _ _ => rfl, by simp [partGlass, lineShapes, coords], Pipe.namedOnce_single (some "glass") 1, Pipe.namedOnce_empty (by simp [partGlass])⟩

/-- The excitation after `add_voltage(disc=10)` and `add_dielectric(glass=1)`. -/
def discSumExc : Excitation ℝ V3 :=
  { mesh := discSum, electrodes := ["disc", "glass"], symmetry := .radial, types := [("disc", .voltageFixed, .num 10), ("glass", .dielectric, .num 1)] }

theorem discSum_is2d : discSum.is2d realThirds = true := by
  unfold Mesh.is2d
  simp [discSum, realThirds]

theorem discSum_init (s : Statics) : discSumExc.solverInit s = discExc.solverInit s := by
  have ha : discSumExc.activeElements s = discExc.activeElements s := by cases s <;> rfl
  unfold solverInit
  rw [ha]
  cases s with
  | electrostatic =>
    have ha : discExc.activeElements .electrostatic =
        some ([[⟨1, 0, 0⟩, ⟨4, 0, 0⟩, ⟨2, 0, 0⟩, ⟨3, 0, 0⟩], [⟨1, 0, 1⟩, ⟨4, 0, 1⟩, ⟨2, 0, 1⟩, ⟨3, 0, 1⟩]], [("disc", [0]), ("glass", [1])]) := by rfl
    rw [ha]
    have ht : ∀ (x : Excitation ℝ V3), x.types = discExc.types → ∀ centre, x.typesAndValues [("disc", [0]), ("glass", [1])]
        [[(⟨1, 0, 0⟩ : V3), ⟨4, 0, 0⟩, ⟨2, 0, 0⟩, ⟨3, 0, 0⟩], [⟨1, 0, 1⟩, ⟨4, 0, 1⟩, ⟨2, 0, 1⟩, ⟨3, 0, 1⟩]].length centre = some ([some .voltageFixed, some .dielectric], [10, 1]) := by
      intro x hx c
      unfold typesAndValues
      rw [hx]
      rfl
    simp only [Option.bind_eq_bind, Option.bind_some, ht discSumExc rfl, ht discExc rfl]
    rw [show discSumExc.mesh = discSum from rfl, show discExc.mesh = discMesh from rfl, disc_is2d, discSum_is2d]
    rfl
  | magnetostatic =>
    have ha : discExc.activeElements .magnetostatic = some ([], []) := by rfl
    rw [ha]
    simp only [Option.bind_eq_bind, Option.bind_some]
    rw [show discSumExc.mesh = discSum from rfl, show discExc.mesh = discMesh from rfl, disc_is2d, discSum_is2d]
    rfl

theorem discSum_excited (s : Statics) (i : Nat) : Excited discSumExc s i ↔ Excited discExc s i := Iff.rfl

/-- **C91**: the hypotheses of `C91_radial_partial` are met by a disc at 10 V and a dielectric. -/
theorem C91_example_radial (inXZ : V3 → Bool) (hxz : ∀ p, inXZ p = true ↔ p.y = 0) : ∃ (G : Geo V3) (x0 x' : Excitation ℝ V3) (env : SolveEnv) (f : PyObj), G.Lawful ∧ G.Stable ∧
    (∀ p q, G.eq p q = true ↔ p = q) ∧ Parts G [partDisc, partGlass] ∧ [partDisc, partGlass].foldlM (Mesh.add G) {} = some discSum ∧ Excitation.new discSum .radial inXZ = some x0 ∧
    (x0.calls G [.voltage [("disc", .num 10)], .dielectric [("glass", .num 1)]]).upgraded G = some x' ∧ FaithfulEnv env x' ∧
    (∀ s, (∃ i, i < x'.mesh.lines.length ∧ Excited x' s i) → ∃ idx : List Nat, idx.Nodup ∧ (∀ i ∈ idx, i < x'.mesh.lines.length ∧ Excited x' s i) ∧ 2 * env.threads ≤ idx.length) ∧
    (∀ e ∈ x'.mesh.lines, ∀ l, toLine4 (coords x'.mesh.points e) = some l → 0 ≤ (elemPoint l 0).x) ∧
    (x0.calls G [.voltage [("disc", .num 10)], .dielectric [("glass", .num 1)]]).solveField G env = some f := by
  obtain ⟨g1, g2, g3⟩ := discGeo_ok
  obtain ⟨x0, x, env, f, hv, h0, hx, hup, he, hen, hpl, hf⟩ := C80_example_radial discGeo inXZ hxz
  have hx' : x = discExc := by
    have hnew : Excitation.new discMesh .radial inXZ = some ({ mesh := discMesh, electrodes := ["disc", "glass"], symmetry := .radial } : Excitation ℝ V3) := by
      unfold Excitation.new
      rw [if_neg (by simp [discMesh, hxz])]
      rfl
    rw [hnew] at h0
    cases h0
    exact hx
  subst hx'
  clear hx h0
  have hnew : Excitation.new discSum .radial inXZ = some ({ mesh := discSum, electrodes := ["disc", "glass"], symmetry := .radial } : Excitation ℝ V3) := by
    unfold Excitation.new
    rw [if_neg (by simp [discSum, hxz])]
    rfl
  have hup' : discSumExc.upgraded discGeo = some discSumExc := by
    unfold upgraded Mesh.solverMesh
    rw [if_neg (by simp [Mesh.isHigherOrder, discSumExc, discSum])]
    rfl
  have hfe : FaithfulEnv env discSumExc := ⟨he.1, fun s st hst => he.2 s st (by rw [← discSum_init]; exact hst)⟩
  have hsf : discSumExc.solveField discGeo env = some f := by
    rw [← hf]
    unfold solveField
    rw [hup, hup']
    simp only [Option.bind_eq_bind, Option.bind_some, solveStatics, discSum_init]
    rfl
  refine ⟨discGeo, _, discSumExc, env, f, g1, g2, g3, disc_parts, disc_add, hnew, hup', hfe, fun s h => hen s h, ?_, hsf⟩
  intro e he l hl
  have : l = discLine 0 ∨ l = discLine 1 := by
    have he : e ∈ [[0, 3, 1, 2], [4, 7, 5, 6]] := he
    simp only [List.mem_cons, List.not_mem_nil, or_false] at he
    rcases he with rfl | rfl
    · left; exact (Option.some.inj hl).symm
    · right; exact (Option.some.inj hl).symm
  rcases this with rfl | rfl
  · exact (disc_plane 0).2
  · exact (disc_plane 1).2

end Traceon
