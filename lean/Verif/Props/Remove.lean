import Verif.Props.HigherOrder

/-!
# C83: removing lines or triangles; C14: naming everything that is read
-/
namespace Traceon
open Spec
variable {P : Type} {G : Geo P}

/-- **C83**, `remove_lines`: no lines and no groups of lines are left. The (non-degenerate) triangles are those of the mesh, in the same order and in the same groups; named triangles are given
outward normals, the other ones are not changed. All points stay. -/
theorem C83_remove_lines (hG : G.Lawful) (m : Mesh P) (hv : Valid m) :
    ∃ M, m.removeLines G = some M ∧ Valid M ∧ M.lines = [] ∧ M.physLines = [] ∧
      Matches (SameTri G) ((triShapes m).filter (nonDegShape G)) (triShapes M) ∧
      (∀ n, MatchesGroup (SameTri G) ((triGroup m n).map (·.filter (nonDegShape G))) (triGroup M n)) ∧
      (∀ (k : Nat) a b, ¬ InGroup M.physTris k → ((triShapes m).filter (nonDegShape G))[k]? = some a → (triShapes M)[k]? = some b → SameShape G a b) ∧
      (∀ p ∈ m.points, ∃ q ∈ M.points, G.eq q (G.trunc p) = true) ∧ ∀ q ∈ M.points, ∃ p ∈ m.points, q = G.trunc p := by
  have hv' : Valid ({ m with lines := [], lineCols := 2, physLines := [] } : Mesh P) :=
    ⟨Or.inl rfl, by simp, hv.tris, by simp, hv.groupTris, by simp, hv.keysTris⟩
  obtain ⟨M, h, r⟩ := Mesh.build_shapes hG _ hv' true
  refine ⟨M, h, r.valid, ?_, r.physLines, r.tris, r.triGroups, r.trisOut, r.cover, r.from'⟩
  have := r.lines.1
  simpa [lineShapes] using this.symm

/-- **C83**, `remove_triangles`. -/
theorem C83_remove_triangles (hG : G.Lawful) (m : Mesh P) (hv : Valid m) :
    ∃ M, m.removeTriangles G = some M ∧ Valid M ∧ M.triangles = [] ∧ (∀ n, M.physTris.get n = none) ∧ M.lineCols = m.lineCols ∧ M.physLines = m.physLines ∧
      Matches (SameLine G) (lineShapes m) (lineShapes M) ∧ (∀ n, MatchesGroup (SameLine G) (lineGroup m n) (lineGroup M n)) ∧
      (∀ (k : Nat) a b, ¬ InGroup M.physLines k → (lineShapes m)[k]? = some a → (lineShapes M)[k]? = some b → SameShape G a b) ∧
      (∀ p ∈ m.points, ∃ q ∈ M.points, G.eq q (G.trunc p) = true) ∧ ∀ q ∈ M.points, ∃ p ∈ m.points, q = G.trunc p := by
  have hv' : Valid ({ m with triangles := [], physTris := [] } : Mesh P) :=
    ⟨hv.cols, hv.lines, by simp, hv.groupLines, by simp, hv.keysLines, by simp⟩
  obtain ⟨M, h, r⟩ := Mesh.build_shapes hG _ hv' true
  refine ⟨M, h, r.valid, ?_, ?_, r.cols, r.physLines, r.lines, r.lineGroups, r.linesOut, r.cover, r.from'⟩
  · have := r.tris.1
    simpa [triShapes] using this.symm
  · intro n
    rw [r.physTris (by simp)]
    rfl

example : Valid exSquare ∧ Valid exRaw ∧ (Mesh.removeLines intGeo exRaw).map (fun M => (M.lines.length, M.triangles.length)) = some (0, 2) ∧
    (Mesh.removeTriangles intGeo exRaw).map (fun M => (M.lines.length, M.triangles.length)) = some (4, 0) :=
  ⟨exSquare_valid, exRaw_valid, by decide, by decide⟩

/-- **C83 is false** for the direction of normals: normals that were made inward (as `add_electrostatic_boundary` does) are outward again after `remove_triangles`, although there are no
triangles. -/
theorem C83_normals_refuted : Valid exSquare ∧ exSquare.triangles = [] ∧
    (Mesh.addBoundary intGeo "electrode" exSquare).map (fun b => (b.points, b.lines)) = some (exSquare.points, [[1, 0], [3, 1], [2, 3], [0, 2]]) ∧
    ((Mesh.addBoundary intGeo "electrode" exSquare).bind (Mesh.removeTriangles intGeo)).map (fun M => (M.points, M.lines)) =
      some (exSquare.points, [[0, 1], [1, 3], [3, 2], [2, 0]]) :=
  ⟨exSquare_valid, rfl, by decide, by decide⟩

/-- **C14**, `read_file(name=...)`: the mesh is the one that was read, with all lines and all triangles in the group that was asked for; other groups are as in the file. -/
theorem C14_named (mm : MeshioMesh P) (name : String) :
    Mesh.fromMeshioNamed G mm name = none ∧ Mesh.fromMeshio G mm = none ∨
    ∃ m M, Mesh.fromMeshio G mm = some m ∧ Mesh.fromMeshioNamed G mm name = some M ∧
      M.points = m.points ∧ M.lines = m.lines ∧ M.lineCols = m.lineCols ∧ M.triangles = m.triangles ∧ (Valid m → Valid M) ∧
      (∃ g, M.physLines.get name = some g ∧ ∀ i, i ∈ g ↔ i < m.lines.length) ∧ (∃ g, M.physTris.get name = some g ∧ ∀ i, i ∈ g ↔ i < m.triangles.length) ∧
      ∀ n, n ≠ name → M.physLines.get n = m.physLines.get n ∧ M.physTris.get n = m.physTris.get n := by
  unfold Mesh.fromMeshioNamed
  cases h : Mesh.fromMeshio G mm with
  | none => exact Or.inl ⟨rfl, rfl⟩
  | some m =>
    refine Or.inr ⟨m, _, rfl, rfl, rfl, rfl, rfl, rfl, ?_, ?_, ?_, ?_⟩
    · intro hv
      have mem_set : ∀ {d : Dict (List Nat)} {v : List Nat} {kv}, kv ∈ d.set name v → kv ∈ d ∨ kv.2 = v := by
        intro d v kv hkv
        unfold Dict.set at hkv
        split at hkv
        · obtain ⟨kv', h1, h2⟩ := List.mem_map.1 hkv
          split at h2
          · right; rw [← h2]
          · left; rw [← h2]; exact h1
        · rcases List.mem_append.1 hkv with h | h
          · exact Or.inl h
          · right
            rw [List.mem_singleton.1 h]
      refine ⟨hv.cols, hv.lines, hv.tris, ?_, ?_, Dict.keys_set_nodup hv.keysLines, Dict.keys_set_nodup hv.keysTris⟩
      · intro kv hkv i hi
        rcases mem_set hkv with h | h
        · exact hv.groupLines kv h i hi
        · rw [h] at hi; exact List.mem_range.1 hi
      · intro kv hkv i hi
        rcases mem_set hkv with h | h
        · exact hv.groupTris kv h i hi
        · rw [h] at hi; exact List.mem_range.1 hi
    · exact ⟨_, by show Dict.get (Dict.set _ _ _) _ = _; rw [Dict.get_set, if_pos rfl], fun i => List.mem_range⟩
    · exact ⟨_, by show Dict.get (Dict.set _ _ _) _ = _; rw [Dict.get_set, if_pos rfl], fun i => List.mem_range⟩
    · intro n hn
      constructor <;> (show Dict.get (Dict.set _ _ _) _ = _; rw [Dict.get_set, if_neg])
      · exact Ne.symm hn
      · exact Ne.symm hn

end Traceon
