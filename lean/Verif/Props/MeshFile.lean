import Verif.Spec.MeshFile
import Verif.Props.Remove

/-! # C92: a mesh read from a file is the mesh in the file -/
namespace Traceon
open Spec
variable {P : Type} {G : Geo P}

namespace MeshFile

theorem cellsDict_none (mm : MeshioMesh P) (ty : String) (h : mm.cellsDict ty = none) : ∀ b ∈ mm.cells, b.1 ≠ ty := by
  intro b hb e
  unfold MeshioMesh.cellsDict at h
  have : mm.cells.any (fun x => x.1 == ty) = true := List.any_eq_true.2 ⟨b, hb, by simp [e]⟩
  rw [if_pos this] at h; cases h

theorem cellsDict_some (mm : MeshioMesh P) (ty : String) {l : List Elem} (h : mm.cellsDict ty = some l) :
    l = (mm.cells.filter (fun x => x.1 == ty)).flatMap (fun x => x.2) ∧ ∃ b ∈ mm.cells, b.1 = ty := by
  unfold MeshioMesh.cellsDict at h
  split at h
  · rename_i hh
    obtain ⟨b, hb, e⟩ := List.any_eq_true.1 hh
    exact ⟨(Option.some.inj h).symm, b, hb, by simpa using e⟩
  · cases h

theorem mem_cells (mm : MeshioMesh P) (ty : String) {l : List Elem} (h : mm.cellsDict ty = some l) {e : Elem} (he : e ∈ l) :
    ∃ b ∈ mm.cells, b.1 = ty ∧ e ∈ b.2 := by
  rw [(cellsDict_some mm ty h).1] at he
  obtain ⟨b, hb, hm⟩ := List.mem_flatMap.1 he
  obtain ⟨h1, h2⟩ := List.mem_filter.1 hb
  exact ⟨b, h1, by simpa using h2, hm⟩

theorem shapes (mm : MeshioMesh P) (ty : String) {l : List Elem} (h : mm.cellsDict ty = some l) :
    l.map (coords mm.points) = fileCells mm ty := by
  rw [(cellsDict_some mm ty h).1]
  unfold fileCells
  induction mm.cells with
  | nil => rfl
  | cons b bs ih =>
    by_cases hb : b.1 = ty
    · simp [hb, ih]
    · simp [hb, ih]

theorem fileCells_nil (mm : MeshioMesh P) (ty : String) (h : ∀ b ∈ mm.cells, b.1 ≠ ty) : fileCells mm ty = [] := by
  unfold fileCells
  rw [List.flatMap_eq_nil_iff]
  intro b hb
  rw [if_neg (h b hb)]

theorem fileSet_none (mm : MeshioMesh P) (hf : FileOk mm) (ty name : String) (h : ∀ b ∈ mm.cells, b.1 ≠ ty) : fileSet mm ty name = none := by
  unfold fileSet
  cases hs : mm.cellSets.get name with
  | none => rfl
  | some d =>
    cases hd : d.get ty with
    | none => simp [hd]
    | some g =>
      obtain ⟨⟨b, hb, e⟩, _⟩ := hf.sets _ (Dict.mem_of_get hs) _ (Dict.mem_of_get hd)
      exact absurd e (h b hb)

theorem sets_get (cs : Dict (Dict (List Nat))) (hn : (cs.map (·.1)).Nodup) (ty name : String) :
    Dict.get (cs.filterMap (fun kv => (kv.2.get ty).map (fun v => (kv.1, v)))) name = (cs.get name).bind (fun d => d.get ty) := by
  induction cs with
  | nil => rfl
  | cons kv cs ih =>
    have hn' : (cs.map (·.1)).Nodup := (List.nodup_cons.1 (by simpa using hn)).2
    have hk : kv.1 ∉ cs.map (·.1) := (List.nodup_cons.1 (by simpa using hn)).1
    rw [Dict.get_cons]
    by_cases e : kv.1 = name
    · rw [if_pos e]
      cases h : kv.2.get ty with
      | some v => rw [List.filterMap_cons_some (b := (kv.1, v)) (by simp [h]), Dict.get_cons, if_pos e]; simp [h]
      | none =>
        rw [List.filterMap_cons_none (by simp [h]), ih hn']
        have : Dict.get cs name = none := by rw [Dict.get_none_iff]; rw [← e]; exact hk
        rw [this]; simp [h]
    · rw [if_neg e]
      cases h : kv.2.get ty with
      | some v => rw [List.filterMap_cons_some (b := (kv.1, v)) (by simp [h]), Dict.get_cons, if_neg e]; exact ih hn'
      | none => rw [List.filterMap_cons_none (by simp [h])]; exact ih hn'

theorem sets_keys (cs : Dict (Dict (List Nat))) (hn : (cs.map (·.1)).Nodup) (ty : String) :
    ((cs.filterMap (fun kv => (kv.2.get ty).map (fun v => (kv.1, v)))).map (·.1)).Nodup := by
  refine List.Sublist.nodup ?_ hn
  clear hn
  induction cs with
  | nil => exact List.Sublist.refl _
  | cons kv cs ih =>
    cases h : kv.2.get ty with
    | some v => rw [List.filterMap_cons_some (b := (kv.1, v)) (by simp [h])]; exact ih.cons_cons _
    | none => rw [List.filterMap_cons_none (by simp [h])]; exact ih.cons _

theorem sets_mem (mm : MeshioMesh P) (ty : String) {kv : String × List Nat} (h : kv ∈ Mesh.extractSets mm ty) :
    ∃ s ∈ mm.cellSets, (ty, kv.2) ∈ s.2 := by
  unfold Mesh.extractSets at h
  obtain ⟨s, hs, e⟩ := List.mem_filterMap.1 h
  cases hd : s.2.get ty with
  | none => rw [hd] at e; cases e
  | some g =>
    rw [hd] at e
    have : kv = (s.1, g) := (Option.some.inj e).symm
    exact ⟨s, hs, by rw [this]; exact Dict.mem_of_get hd⟩

/-- the elements and groups of one cell type that `from_meshio` takes from a file -/
theorem part (mm : MeshioMesh P) (hf : FileOk mm) (ty : String) {l : List Elem} (h : mm.cellsDict ty = some l) :
    l.map (coords mm.points) = fileCells mm ty ∧
    (∀ kv ∈ Mesh.extractSets mm ty, ∀ i ∈ kv.2, i < l.length) ∧
    ((Mesh.extractSets mm ty).map (·.1)).Nodup ∧
    ∀ name, ((Mesh.extractSets mm ty).get name).map (fun g => g.filterMap (fun i => (l.map (coords mm.points))[i]?)) = fileSet mm ty name := by
  have hsh := shapes mm ty h
  refine ⟨hsh, ?_, sets_keys _ hf.names _, ?_⟩
  · intro kv hkv i hi
    obtain ⟨s, hs, hm⟩ := sets_mem mm ty hkv
    have := (hf.sets s hs _ hm).2 i hi
    rw [← hsh, List.length_map] at this
    exact this
  · intro name
    unfold Mesh.extractSets fileSet
    rw [sets_get _ hf.names, hsh]

end MeshFile

/-- **C92.** A mesh file with first order triangles and with lines of one kind (2 points or 4
points): `from_meshio` returns a valid mesh whose lines are exactly the lines of the file, block
after block, corner by corner (corners with their low bits cleared), whose triangles are the
triangles of the file except the degenerate ones, and in which every name names exactly the lines
and the triangles the file puts in the set of that name. -/
theorem C92_read (hG : G.Lawful) (mm : MeshioMesh P) (hf : FileOk mm) :
    ∃ M, Mesh.fromMeshio G mm = some M ∧ Valid M ∧
      Matches (SameLine G) (fileCells mm "line" ++ fileCells mm "line4") (lineShapes M) ∧
      Matches (SameTri G) ((fileCells mm "triangle").filter (nonDegShape G)) (triShapes M) ∧
      (∀ name, MatchesGroup (SameLine G) ((fileSet mm "line" name).or (fileSet mm "line4" name)) (lineGroup M name)) ∧
      (∀ name, MatchesGroup (SameTri G) ((fileSet mm "triangle" name).map (·.filter (nonDegShape G))) (triGroup M name)) := by
  have main : ∀ (cols : Nat) (lines tris : List Elem) (pl pt : Dict (List Nat)),
      (cols = 2 ∨ cols = 4) → (∀ e ∈ lines, e.length = cols ∧ ∀ i ∈ e, i < mm.points.length) →
      (∀ e ∈ tris, e.length = 3 ∧ ∀ i ∈ e, i < mm.points.length) →
      (∀ kv ∈ pl, ∀ i ∈ kv.2, i < lines.length) → (∀ kv ∈ pt, ∀ i ∈ kv.2, i < tris.length) →
      (pl.map (·.1)).Nodup → (pt.map (·.1)).Nodup →
      lines.map (coords mm.points) = fileCells mm "line" ++ fileCells mm "line4" →
      tris.map (coords mm.points) = fileCells mm "triangle" →
      (∀ name, (pl.get name).map (fun g => g.filterMap (fun i => (lines.map (coords mm.points))[i]?)) = (fileSet mm "line" name).or (fileSet mm "line4" name)) →
      (∀ name, (pt.get name).map (fun g => g.filterMap (fun i => (tris.map (coords mm.points))[i]?)) = fileSet mm "triangle" name) →
      ∃ M, Mesh.build G { points := mm.points, lineCols := cols, lines := lines, triangles := tris, physLines := pl, physTris := pt } = some M ∧ Valid M ∧
        Matches (SameLine G) (fileCells mm "line" ++ fileCells mm "line4") (lineShapes M) ∧
        Matches (SameTri G) ((fileCells mm "triangle").filter (nonDegShape G)) (triShapes M) ∧
        (∀ name, MatchesGroup (SameLine G) ((fileSet mm "line" name).or (fileSet mm "line4" name)) (lineGroup M name)) ∧
        (∀ name, MatchesGroup (SameTri G) ((fileSet mm "triangle" name).map (·.filter (nonDegShape G))) (triGroup M name)) := by
    intro cols lines tris pl pt h1 h2 h3 h4 h5 h6 h7 h8 h9 h10 h11
    obtain ⟨M, h, r⟩ := Mesh.build_shapes hG { points := mm.points, lineCols := cols, lines := lines, triangles := tris, physLines := pl, physTris := pt }
      ⟨h1, h2, h3, h4, h5, h6, h7⟩ true
    refine ⟨M, h, r.valid, ?_, ?_, ?_, ?_⟩
    · rw [← h8]; exact r.lines
    · rw [← h9]; exact r.tris
    · intro n; rw [← h10]; exact r.lineGroups n
    · intro n; rw [← h11]; exact r.triGroups n
  have hT : ∃ (tris : List Elem) (pt : Dict (List Nat)), (mm.cellsDict "triangle" = some tris ∧ pt = Mesh.extractSets mm "triangle" ∨
      mm.cellsDict "triangle" = none ∧ tris = [] ∧ pt = []) ∧
      (∀ e ∈ tris, e.length = 3 ∧ ∀ i ∈ e, i < mm.points.length) ∧ (∀ kv ∈ pt, ∀ i ∈ kv.2, i < tris.length) ∧ (pt.map (·.1)).Nodup ∧
      tris.map (coords mm.points) = fileCells mm "triangle" ∧
      ∀ name, (pt.get name).map (fun g => g.filterMap (fun i => (tris.map (coords mm.points))[i]?)) = fileSet mm "triangle" name := by
    cases h : mm.cellsDict "triangle" with
    | some l =>
      obtain ⟨a, b, c, d⟩ := MeshFile.part mm hf "triangle" h
      refine ⟨l, _, Or.inl ⟨rfl, rfl⟩, ?_, b, c, a, d⟩
      intro e he
      obtain ⟨bl, hb, ht, hm⟩ := MeshFile.mem_cells mm _ h he
      exact ⟨hf.triangle bl hb ht e hm, hf.inRange bl hb e hm⟩
    | none =>
      have hn := MeshFile.cellsDict_none mm _ h
      refine ⟨[], [], Or.inr ⟨rfl, rfl, rfl⟩, by simp, by simp, by simp, ?_, ?_⟩
      · rw [MeshFile.fileCells_nil mm _ hn]; rfl
      · intro name; rw [MeshFile.fileSet_none mm hf _ _ hn]; rfl
  obtain ⟨tris, pt, eT, t1, t2, t3, t4, t5⟩ := hT
  have eT' : ∀ (F : List Elem → Dict (List Nat) → Option (Mesh P)), (match (match mm.cellsDict "triangle" with
      | some t => (t, Mesh.extractSets mm "triangle") | none => ([], [])) with | (a, b) => F a b) = F tris pt := by
    intro F
    rcases eT with ⟨e1, e2⟩ | ⟨e1, e2, e3⟩
    · simp only [e1, e2]
    · simp only [e1, e2, e3]
  cases h : mm.cellsDict "line" with
  | some l =>
    obtain ⟨a, b, c, d⟩ := MeshFile.part mm hf "line" h
    have hn : ∀ bl ∈ mm.cells, bl.1 ≠ "line4" := by
      intro bl hb e
      obtain ⟨b0, hb0, e0⟩ := (MeshFile.cellsDict_some mm _ h).2
      exact hf.oneKind b0 hb0 bl hb ⟨e0, e⟩
    have eq : Mesh.fromMeshio G mm = Mesh.build G { points := mm.points, lineCols := 2, lines := l, triangles := tris, physLines := Mesh.extractSets mm "line", physTris := pt } := by
      unfold Mesh.fromMeshio; rw [h]; exact eT' (fun a b => Mesh.build G { points := mm.points, lineCols := 2, lines := l, triangles := a, physLines := Mesh.extractSets mm "line", physTris := b })
    rw [eq]
    refine main 2 l tris _ pt (Or.inl rfl) ?_ t1 b t2 c t3 ?_ t4 ?_ t5
    · intro e he
      obtain ⟨bl, hb, ht, hm⟩ := MeshFile.mem_cells mm _ h he
      exact ⟨hf.line bl hb ht e hm, hf.inRange bl hb e hm⟩
    · rw [a, MeshFile.fileCells_nil mm _ hn, List.append_nil]
    · intro name; rw [d, MeshFile.fileSet_none mm hf _ _ hn, Option.or_none]
  | none =>
    have hn := MeshFile.cellsDict_none mm _ h
    cases h' : mm.cellsDict "line4" with
    | some l =>
      obtain ⟨a, b, c, d⟩ := MeshFile.part mm hf "line4" h'
      have eq : Mesh.fromMeshio G mm = Mesh.build G { points := mm.points, lineCols := 4, lines := l, triangles := tris, physLines := Mesh.extractSets mm "line4", physTris := pt } := by
        unfold Mesh.fromMeshio; rw [h, h']; exact eT' (fun a b => Mesh.build G { points := mm.points, lineCols := 4, lines := l, triangles := a, physLines := Mesh.extractSets mm "line4", physTris := b })
      rw [eq]
      refine main 4 l tris _ pt (Or.inr rfl) ?_ t1 b t2 c t3 ?_ t4 ?_ t5
      · intro e he
        obtain ⟨bl, hb, ht, hm⟩ := MeshFile.mem_cells mm _ h' he
        exact ⟨hf.line4 bl hb ht e hm, hf.inRange bl hb e hm⟩
      · rw [a, MeshFile.fileCells_nil mm _ hn, List.nil_append]
      · intro name; rw [d, MeshFile.fileSet_none mm hf _ _ hn, Option.none_or]
    | none =>
      have hn' := MeshFile.cellsDict_none mm _ h'
      have eq : Mesh.fromMeshio G mm = Mesh.build G { points := mm.points, lineCols := 2, lines := [], triangles := tris, physLines := [], physTris := pt } := by
        unfold Mesh.fromMeshio; rw [h, h']; exact eT' (fun a b => Mesh.build G { points := mm.points, lineCols := 2, lines := [], triangles := a, physLines := [], physTris := b })
      rw [eq]
      refine main 2 [] tris [] pt (Or.inl rfl) (by simp) t1 (by simp) t2 (by simp) t3 ?_ t4 ?_ t5
      · rw [MeshFile.fileCells_nil mm _ hn, MeshFile.fileCells_nil mm _ hn']; rfl
      · intro name; rw [MeshFile.fileSet_none mm hf _ _ hn, MeshFile.fileSet_none mm hf _ _ hn']; rfl

/-- A file as gmsh writes it: two blocks of lines and two of triangles (with vertices in between),
one set over lines of both blocks, one set with both lines and triangles. -/
def exFile : MeshioMesh IPoint :=
  { points := [⟨1, 0, 0⟩, ⟨2, 0, 0⟩, ⟨1, 0, 1⟩, ⟨2, 0, 1⟩]
    cells := [("vertex", [[0]]), ("line", [[0, 1]]), ("triangle", [[0, 1, 2]]), ("line", [[1, 3], [3, 2]]), ("triangle", [[1, 3, 2]])]
    cellSets := [("wall", [("line", [0, 2])]), ("body", [("triangle", [1]), ("line", [1])])] }

theorem exFile_ok : FileOk exFile := by
  refine ⟨?_, ?_, ?_, ?_, ?_, ?_, ?_, ?_⟩ <;> decide +kernel

/-- The hypotheses of `C92_read` hold for this file, and this is what is read. -/
theorem C92_example : FileOk exFile ∧
    (Mesh.fromMeshio intGeo exFile).map (fun M => (M.lines, M.triangles)) = some ([[0, 1], [1, 3], [3, 2]], [[0, 1, 2], [1, 3, 2]]) ∧
    (Mesh.fromMeshio intGeo exFile).map (fun M => (M.physLines : List (String × List Nat))) = some [("wall", [0, 2]), ("body", [1])] ∧
    (Mesh.fromMeshio intGeo exFile).map (fun M => (M.physTris : List (String × List Nat))) = some [("body", [1])] :=
  ⟨exFile_ok, by decide +kernel, by decide +kernel, by decide +kernel⟩

/-- **C92 is false** for a file with both 2-point and 4-point lines: the 4-point lines and the names
given to them are dropped without an error. -/
theorem C92_mixed_lines_refuted :
    let mm : MeshioMesh IPoint :=
      { points := [⟨1, 0, 0⟩, ⟨2, 0, 0⟩, ⟨4, 0, 0⟩, ⟨8, 0, 0⟩]
        cells := [("line4", [[0, 3, 1, 2]]), ("line", [[0, 1]])], cellSets := [("wall", [("line4", [0])])] }
    (fileCells mm "line4").length = 1 ∧ (fileSet mm "line4" "wall").map List.length = some 1 ∧
    (Mesh.fromMeshio intGeo mm).map (fun M => (M.lines.length, M.electrodes)) = some (1, []) := by decide +kernel

end Traceon
