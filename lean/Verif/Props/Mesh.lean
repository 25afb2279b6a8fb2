import Verif.Lemmas.Settled
import Verif.Lemmas.Bits

/-!
# Theorems about meshes: C01 - C06, C10, C11, C14, C61, C62

`G : Geo P` collects the floating point decisions; every theorem holds for all of them, as long as
the comparison of points is an order (`G.Lawful`, proved for IEEE bit patterns in
`C02_doubles_lawful`).
-/
namespace Traceon
open Spec
variable {P : Type} {G : Geo P}

/-! ## Concrete meshes used in the examples -/

/-- A square in the (x, z)-plane, traversed anti-clockwise, with an extra copy of one point and a
degenerate triangle. -/
def exRaw : Mesh IPoint where
  points := [⟨2, 0, 0⟩, ⟨1, 0, 0⟩, ⟨1, 0, 1⟩, ⟨2, 0, 1⟩, ⟨1, 0, 0⟩]
  lines := [[1, 0], [0, 3], [3, 2], [2, 4]]
  triangles := [[0, 1, 2], [1, 4, 2], [0, 2, 3]]
  physLines := [("electrode", [0, 1, 2, 3])]
  physTris := [("plate", [1, 2])]

/-- The square after construction. -/
def exSquare : Mesh IPoint where
  points := [⟨1, 0, 0⟩, ⟨2, 0, 0⟩, ⟨1, 0, 1⟩, ⟨2, 0, 1⟩]
  lines := [[0, 1], [1, 3], [3, 2], [2, 0]]
  physLines := [("electrode", [0, 1, 2, 3])]

theorem exRaw_valid : Valid exRaw := by
  refine ⟨Or.inl rfl, ?_, ?_, ?_, ?_, ?_, ?_⟩ <;> decide

theorem exSquare_valid : Valid exSquare := by
  refine ⟨Or.inl rfl, ?_, ?_, ?_, ?_, ?_, ?_⟩ <;> decide

theorem exSquare_settled : Settled intGeo exSquare := by
  refine ⟨?_, ?_, ?_⟩ <;> decide

/-! ## C01 -/

/-- **C01.** Whatever the coordinates: constructing a mesh from arrays with in-range indices
succeeds and gives a mesh with in-range indices. -/
theorem C01_build_valid (hG : G.Lawful) (m : Mesh P) (hv : Valid m) (ensure : Bool) :
    ∃ M, Mesh.build G m ensure = some M ∧ Valid M ∧ M.lineCols = m.lineCols := by
  obtain ⟨M, h, r⟩ := Mesh.build_shapes hG m hv ensure
  exact ⟨M, h, r.valid, r.cols⟩

/-- **C01.** Whatever the arrays given to the constructor, in a mesh that it returns all indices are in range. -/
theorem C01_in_range (m : Mesh P) (ensure : Bool) (M : Mesh P) (h : Mesh.build G m ensure = some M) :
    (∀ e ∈ M.lines, ∀ i ∈ e, i < M.points.length) ∧ (∀ e ∈ M.triangles, ∀ i ∈ e, i < M.points.length) ∧
    (∀ kv ∈ M.physLines, ∀ i ∈ kv.2, i < M.lines.length) ∧ (∀ kv ∈ M.physTris, ∀ i ∈ kv.2, i < M.triangles.length) ∧
    (M.lines = [] ∨ M.lineCols = 2 ∨ M.lineCols = 4) := by
  unfold Mesh.build at h
  simp only [Option.bind_eq_bind, Option.bind_eq_some_iff] at h
  obtain ⟨m1, _, m2, _, h3⟩ := h
  have key : ∀ m3 : Mesh P, (if m3.assertions then some m3 else none) = some M → M.assertions = true := by
    intro m3 h4
    split at h4
    · rename_i hass
      simp only [Option.some.injEq] at h4
      exact h4 ▸ hass
    · simp at h4
  have hass : M.assertions = true := by
    split at h3
    · rw [Option.bind_eq_some_iff] at h3
      obtain ⟨m3, _, h4⟩ := h3
      exact key m3 h4
    · exact key m2 h3
  simpa [Mesh.assertions, and_assoc, or_assoc] using hass

example : Valid exRaw ∧ (Mesh.build intGeo exRaw).map (fun M => (M.points.length, M.lines, M.triangles))
    = some (4, [[0, 1], [1, 3], [3, 2], [2, 0]], [[1, 0, 2], [1, 2, 3]]) :=
  ⟨exRaw_valid, by decide⟩

/-! ## C02 -/

/-- The comparison of doubles used in `_deduplicate_points` is an order, whatever the other
floating point results are. -/
theorem C02_doubles_lawful (d t1 t2 t3) : (bitsGeo d t1 t2 t3).Lawful := bitsGeo_lawful d t1 t2 t3

/-- **C02.** Element by element and corner by corner, a constructed mesh has the coordinates of
the input with the low bits cleared.  Elements in a named group may be reversed as a whole (they
are given outward normals); elements in no group keep their orientation, and so do all elements if
`ensure_outward_normals=False`. -/
theorem C02_elements_keep_geometry (hG : G.Lawful) (m : Mesh P) (hv : Valid m) (ensure : Bool) :
    ∃ M, Mesh.build G m ensure = some M ∧
      Matches (SameLine G) (lineShapes m) (lineShapes M) ∧
      Matches (SameTri G) ((triShapes m).filter (nonDegShape G)) (triShapes M) ∧
      (ensure = false →
        Matches (SameShape G) (lineShapes m) (lineShapes M) ∧
        Matches (SameShape G) ((triShapes m).filter (nonDegShape G)) (triShapes M)) ∧
      (∀ (k : Nat) a b, ¬ InGroup M.physLines k →
        (lineShapes m)[k]? = some a → (lineShapes M)[k]? = some b → SameShape G a b) ∧
      (∀ (k : Nat) a b, ¬ InGroup M.physTris k →
        ((triShapes m).filter (nonDegShape G))[k]? = some a → (triShapes M)[k]? = some b →
          SameShape G a b) := by
  obtain ⟨M, h, r⟩ := Mesh.build_shapes hG m hv ensure
  exact ⟨M, h, r.lines, r.tris, fun he => ⟨r.linesExact he, r.trisExact he⟩, r.linesOut, r.trisOut⟩

example : (Mesh.build intGeo exRaw false).map lineShapes = some (lineShapes exRaw) := by decide

/-! ## C03 -/

/-- **C03.** No two points of a constructed mesh have equal coordinates, there are not more points
than in the input, every input point occurs (low bits cleared) and nothing else does. -/
theorem C03_points_distinct (hG : G.Lawful) (m : Mesh P) (hv : Valid m) (ensure : Bool) :
    ∃ M, Mesh.build G m ensure = some M ∧
      (∀ (i j : Nat) p q, i ≠ j → M.points[i]? = some p → M.points[j]? = some q → G.eq p q = false) ∧
      M.points.length ≤ m.points.length ∧
      (∀ p ∈ m.points, ∃ q ∈ M.points, G.eq q (G.trunc p) = true) ∧
      (∀ q ∈ M.points, ∃ p ∈ m.points, q = G.trunc p) := by
  obtain ⟨M, h, r⟩ := Mesh.build_shapes hG m hv ensure
  refine ⟨M, h, ?_, r.lenLe, r.cover, r.from'⟩
  intro i j p q hij hi hj
  obtain ⟨hil, rfl⟩ := List.getElem?_eq_some_iff.1 hi
  obtain ⟨hjl, rfl⟩ := List.getElem?_eq_some_iff.1 hj
  have hd := List.pairwise_iff_getElem.1 r.distinct
  rcases Nat.lt_or_gt_of_ne hij with hlt | hlt
  · exact hd i j hil hjl hlt
  · have h1 := hd j i hjl hil hlt
    cases h2 : G.eq M.points[i] M.points[j] with
    | false => rfl
    | true => rw [hG.eq_symm h2] at h1; cases h1

example : exRaw.points.length = 5 ∧ (Mesh.build intGeo exRaw).map (·.points)
    = some [⟨1, 0, 0⟩, ⟨2, 0, 0⟩, ⟨1, 0, 1⟩, ⟨2, 0, 1⟩] := by decide

/-! ## C04 -/

/-- **C04.** The triangles of a constructed mesh are the non-degenerate input triangles in the
original order, and a named group consists of its own non-degenerate triangles in the original
order; the line groups are untouched. -/
theorem C04_groups_keep_triangles (hG : G.Lawful) (m : Mesh P) (hv : Valid m) (ensure : Bool) :
    ∃ M, Mesh.build G m ensure = some M ∧
      Matches (SameTri G) ((triShapes m).filter (nonDegShape G)) (triShapes M) ∧
      (∀ name, MatchesGroup (SameTri G) ((triGroup m name).map (·.filter (nonDegShape G)))
        (triGroup M name)) ∧
      (∀ name, MatchesGroup (SameLine G) (lineGroup m name) (lineGroup M name)) ∧
      M.physLines = m.physLines := by
  obtain ⟨M, h, r⟩ := Mesh.build_shapes hG m hv ensure
  exact ⟨M, h, r.tris, r.triGroups, r.lineGroups, r.physLines⟩

/-- a group with a degenerate triangle before one that stays -/
example : triGroup exRaw "plate" = some [[⟨1, 0, 0⟩, ⟨1, 0, 0⟩, ⟨1, 0, 1⟩], [⟨2, 0, 0⟩, ⟨1, 0, 1⟩, ⟨2, 0, 1⟩]] ∧
    (Mesh.build intGeo exRaw false).bind (fun M => triGroup M "plate")
      = some [[⟨2, 0, 0⟩, ⟨1, 0, 1⟩, ⟨2, 0, 1⟩]] := by decide

/-! ## C05 -/

/-- **C05.** `mesh1 + mesh2` (of compatible order) contains the lines and non-degenerate triangles
of both, in order; the group called `name` consists of those of `mesh1` followed by those of
`mesh2`, and exists iff it exists in one of them. -/
theorem C05_add_keeps_groups (hG : G.Lawful) (m1 m2 : Mesh P) (h1 : Valid m1) (h2 : Valid m2)
    (hc : m1.lines = [] ∨ m2.lines = [] ∨ m1.lineCols = m2.lineCols) :
    ∃ M, Mesh.add G m1 m2 = some M ∧ Valid M ∧
      Matches (SameLine G) (lineShapes m1 ++ lineShapes m2) (lineShapes M) ∧
      Matches (SameTri G) ((triShapes m1 ++ triShapes m2).filter (nonDegShape G)) (triShapes M) ∧
      (∀ name, MatchesGroup (SameLine G) (catOpt (lineGroup m1 name) (lineGroup m2 name))
        (lineGroup M name)) ∧
      (∀ name, MatchesGroup (SameTri G)
        ((catOpt (triGroup m1 name) (triGroup m2 name)).map (·.filter (nonDegShape G)))
        (triGroup M name)) := by
  obtain ⟨m, ha, hv, hls, hts, _, hlg, htg⟩ := Mesh.addRaw_spec m1 m2 h1 h2 hc
  obtain ⟨M, h, r⟩ := Mesh.build_shapes hG m hv true
  refine ⟨M, by unfold Mesh.add; rw [ha]; exact h, r.valid, hls ▸ r.lines, hts ▸ r.tris, ?_, ?_⟩
  · intro n; rw [← hlg]; exact r.lineGroups n
  · intro n; rw [← htg]; exact r.triGroups n

/-- **C05**, empty operand: the sum has the lines, triangles and groups of the other operand. -/
theorem C05_add_empty (hG : G.Lawful) (m : Mesh P) (hv : Valid m) :
    (∃ M, Mesh.add G m {} = some M ∧ Matches (SameLine G) (lineShapes m) (lineShapes M) ∧
      Matches (SameTri G) ((triShapes m).filter (nonDegShape G)) (triShapes M) ∧
      ∀ name, MatchesGroup (SameLine G) (lineGroup m name) (lineGroup M name)) ∧
    (∃ M, Mesh.add G {} m = some M ∧ Matches (SameLine G) (lineShapes m) (lineShapes M) ∧
      Matches (SameTri G) ((triShapes m).filter (nonDegShape G)) (triShapes M) ∧
      ∀ name, MatchesGroup (SameLine G) (lineGroup m name) (lineGroup M name)) := by
  have he : Valid ({} : Mesh P) := by
    refine ⟨Or.inl rfl, ?_, ?_, ?_, ?_, ?_, ?_⟩ <;> simp
  have hgl : ∀ name, catOpt (lineGroup m name) (lineGroup ({} : Mesh P) name) = lineGroup m name := by
    intro name
    have : lineGroup ({} : Mesh P) name = none := rfl
    rw [this]; cases lineGroup m name <;> simp [catOpt]
  have hgr : ∀ name, catOpt (lineGroup ({} : Mesh P) name) (lineGroup m name) = lineGroup m name := by
    intro name
    have : lineGroup ({} : Mesh P) name = none := rfl
    rw [this]; cases lineGroup m name <;> simp [catOpt]
  constructor
  · obtain ⟨M, h, _, h3, h4, h5, _⟩ := C05_add_keeps_groups hG m {} hv he (Or.inr (Or.inl rfl))
    refine ⟨M, h, by simpa [lineShapes] using h3, by simpa [triShapes] using h4, ?_⟩
    intro name; have := h5 name; rwa [hgl] at this
  · obtain ⟨M, h, _, h3, h4, h5, _⟩ := C05_add_keeps_groups hG {} m he hv (Or.inl rfl)
    refine ⟨M, h, by simpa [lineShapes] using h3, by simpa [triShapes] using h4, ?_⟩
    intro name; have := h5 name; rwa [hgr] at this

/-- a second mesh that shares the name and two points with `exSquare` -/
def exSecond : Mesh IPoint where
  points := [⟨2, 0, 1⟩, ⟨2, 0, 0⟩, ⟨3, 0, 0⟩]
  lines := [[0, 1], [1, 2]]
  physLines := [("electrode", [1]), ("other", [0])]

example : Valid exSecond := by
  refine ⟨Or.inl rfl, ?_, ?_, ?_, ?_, ?_, ?_⟩ <;> decide

example : (Mesh.add intGeo exSquare exSecond).map (fun M => (M.points.length, M.physLines))
    = some (5, [("electrode", [0, 1, 2, 3, 5]), ("other", [4])]) := by decide

/-! ## C06 -/

/-- **C06.** The connected pieces are non-empty, cover every element exactly once, and element `j`
is in the piece of element `i` iff `j` can be reached from `i` through common vertices. -/
theorem C06_connected_pieces (els : List Elem) :
    ∃ pieces, connectedElements els = some pieces ∧
      (∀ c ∈ pieces, c ≠ []) ∧
      pieces.flatten.Perm (List.range els.length) ∧
      (∀ c ∈ pieces, ∀ i ∈ c, ∀ j, j ∈ c ↔ Linked els i j) := by
  obtain ⟨comps, h, h1, h2, _, h4⟩ := connectedElements_spec els
  exact ⟨comps, h, h1, h2, h4⟩

example : connectedElements [[0, 1], [5, 6], [2, 1], [6, 7], [3, 2]] = some [[0, 2, 4], [1, 3]] := by
  decide

/-! ## C10 -/

theorem selection_eq {α : Type _} (l : List α) (g : List Nat) (hg : ∀ i ∈ g, i < l.length) :
    (Mesh.unique g).filterMap (fun i => l[i]?) = selection l g := by
  unfold selection
  congr 1
  -- both are the strictly increasing list of the members of `g`
  have h1 := Mesh.unique_sorted g
  have h2 : ((List.range l.length).filter (fun i => g.contains i)).Pairwise (· < ·) :=
    List.Pairwise.sublist List.filter_sublist List.pairwise_lt_range
  apply List.Perm.eq_of_pairwise (le := (· < ·)) (fun a b _ _ h h' => absurd h' (by omega)) h1 h2
  rw [List.perm_ext_iff_of_nodup (h1.imp (fun h => by omega)) (h2.imp (fun h => by omega))]
  intro i
  rw [Mesh.mem_unique]
  simp only [List.mem_filter, List.mem_range, List.contains_iff_mem]
  exact ⟨fun h => ⟨hg i h, h⟩, fun h => h.2⟩

theorem corner_used (hG : G.Lawful) {pts : List P} {els : List (List P)} {M : Mesh P}
    {shapes : List (List P)} {rev : List P → List P}
    (hrev : ∀ l p, p ∈ rev l ↔ p ∈ l)
    (hd : M.points.Pairwise (fun a b => G.eq a b = false))
    (hsub : ∀ s ∈ shapes, ∀ q ∈ s, q ∈ M.points)
    (hm : Matches (fun a b => SameShape G a b ∨ SameShape G (rev a) b) els shapes)
    (hfrom : ∀ q ∈ M.points, ∃ p ∈ pts, q = G.trunc p)
    (hused : ∀ p ∈ pts, ∃ s ∈ els, p ∈ s) :
    ∀ q ∈ M.points, ∃ s ∈ shapes, q ∈ s := by
  intro q hq
  obtain ⟨p, hp, rfl⟩ := hfrom q hq
  obtain ⟨s, hs, hps⟩ := hused p hp
  obtain ⟨k, hk⟩ := List.mem_iff_getElem?.1 hs
  obtain ⟨t, ht, hst⟩ := Matches.getElem? hm hk
  have key : ∀ s', SameShape G s' t → p ∈ s' → ∃ r ∈ t, G.eq r (G.trunc p) = true := by
    intro s' hs' hp'
    obtain ⟨c, hc⟩ := List.mem_iff_getElem?.1 hp'
    obtain ⟨r, hr, hre⟩ := Matches.getElem? hs' hc
    exact ⟨r, List.mem_of_getElem? hr, hre⟩
  have ⟨r, hr, hre⟩ : ∃ r ∈ t, G.eq r (G.trunc p) = true := by
    rcases hst with h | h
    · exact key s h hps
    · exact key (rev s) h ((hrev s p).2 hps)
  have htm := List.mem_of_getElem? ht
  have hrM := hsub t htm r hr
  refine ⟨t, htm, ?_⟩
  -- r and trunc p are equal points of M, hence the same point
  obtain ⟨i, hi⟩ := List.mem_iff_getElem?.1 hrM
  obtain ⟨j, hj⟩ := List.mem_iff_getElem?.1 hq
  obtain ⟨hil, hi'⟩ := List.getElem?_eq_some_iff.1 hi
  obtain ⟨hjl, hj'⟩ := List.getElem?_eq_some_iff.1 hj
  have hd' := List.pairwise_iff_getElem.1 hd
  rcases Nat.lt_trichotomy i j with hlt | rfl | hlt
  · have := hd' i j hil hjl hlt
    rw [hi', hj', hre] at this; cases this
  · rw [← hj', hi']; exact hr
  · have := hd' j i hjl hil hlt
    rw [hi', hj', hG.eq_symm hre] at this; cases this

theorem mem_revLine {α : Type _} (l : List α) (p : α) : p ∈ revLine l ↔ p ∈ l := by
  match l with
  | [] => simp [revLine]
  | [_] => simp [revLine]
  | [_, _] => simp [revLine, or_comm]
  | [_, _, _] => simp [revLine]
  | [a, b, c, d] =>
    simp only [revLine, List.mem_cons, List.not_mem_nil, or_false]
    constructor <;> (rintro (h | h | h | h) <;> simp [h])
  | _ :: _ :: _ :: _ :: _ :: _ => simp [revLine]

theorem mem_revTri {α : Type _} (l : List α) (p : α) : p ∈ revTri l ↔ p ∈ l := by
  match l with
  | [] => simp [revTri]
  | [_] => simp [revTri]
  | [_, _] => simp [revTri]
  | [a, b, c] =>
    simp only [revTri, List.mem_cons, List.not_mem_nil, or_false]
    constructor <;> (rintro (h | h | h) <;> simp [h])
  | _ :: _ :: _ :: _ :: _ => simp [revTri]

theorem shapes_sub {m : Mesh P} (els : List Elem) :
    ∀ s ∈ els.map (coords m.points), ∀ q ∈ s, q ∈ m.points := by
  intro s hs q hq
  obtain ⟨e, _, rfl⟩ := List.mem_map.1 hs
  obtain ⟨i, _, hi⟩ := List.mem_filterMap.1 hq
  exact List.mem_of_getElem? hi

/-- **C10**, for a name used for lines: the extracted mesh has exactly the lines carrying the name
(each once, in order), all of them named, no triangles, and no point that is not a corner.

Partial: if the name is also used for triangles these are missing (`C10_both_kinds_refuted`). -/
theorem C10_extract_lines_partial (hG : G.Lawful) (m : Mesh P) (hv : Valid m) (name : String)
    (g : List Nat) (hg : m.physLines.get name = some g) :
    ∃ M, Mesh.extract G name m = some M ∧ Valid M ∧
      Matches (SameLine G) (selection (lineShapes m) g) (lineShapes M) ∧
      M.triangles = [] ∧ M.physTris = [] ∧
      M.physLines = [(name, List.range M.lines.length)] ∧
      (∀ q ∈ M.points, ∃ s ∈ lineShapes M, q ∈ s) := by
  have hgl := hv.groupLines _ (Dict.mem_of_get hg)
  obtain ⟨pts', els', he, hs, hb, hlen, hpts⟩ := Mesh.extractElems_spec m.points m.lines g hgl
    (fun e he => (hv.lines e he).2)
  let raw : Mesh P := { points := pts', lineCols := m.lineCols, lines := els',
                        physLines := [(name, List.range els'.length)] }
  have hvr : Valid raw := by
    refine ⟨hv.cols, ?_, ?_, ?_, ?_, ?_, ?_⟩
    · intro e hel
      obtain ⟨e0, h0, hl⟩ := hlen e hel
      exact ⟨by rw [hl]; exact (hv.lines e0 h0).1, hb e hel⟩
    · simp [raw]
    · simp [raw]
    · simp [raw]
    · simp [raw]
    · simp [raw]
  obtain ⟨M, h, r⟩ := Mesh.build_shapes hG raw hvr true
  have hsh : lineShapes raw = selection (lineShapes m) g := by
    show els'.map (coords pts') = _
    rw [hs]; exact selection_eq _ g (by simpa [lineShapes] using hgl)
  have hM := r.lines
  rw [hsh] at hM
  have hlenM : M.lines.length = els'.length := by
    have := r.lines.1
    simpa [lineShapes, raw] using this.symm
  refine ⟨M, ?_, r.valid, hM, ?_, ?_, ?_, ?_⟩
  · unfold Mesh.extract
    rw [hg]
    simp only [he, Option.bind_eq_bind, Option.bind_some]
    exact h
  · have := r.tris.1
    simp only [triShapes, raw, List.map_nil, List.filter_nil, List.length_nil, List.length_map] at this
    exact List.eq_nil_of_length_eq_zero this.symm
  · exact r.physTris (by simp [raw])
  · rw [r.physLines, hlenM]
  · apply corner_used hG mem_revLine r.distinct (shapes_sub M.lines) r.lines r.from'
    intro p hp
    obtain ⟨k, hk, e, i, hke, hie, hpi⟩ := (hpts p).1 hp
    refine ⟨coords m.points e, ?_, List.mem_filterMap.2 ⟨i, hie, hpi⟩⟩
    show _ ∈ els'.map (coords pts')
    rw [hs]
    refine List.mem_filterMap.2 ⟨k, Mesh.mem_unique.2 hk, ?_⟩
    rw [List.getElem?_map, hke]; rfl

/-- **C10**, for a name used for triangles only: the extracted mesh has exactly the
(non-degenerate) triangles carrying the name.  Partial in the same sense as the previous theorem. -/
theorem C10_extract_triangles_partial (hG : G.Lawful) (m : Mesh P) (hv : Valid m)
    (hn : ∀ s ∈ triShapes m, nonDegShape G s = true) (name : String)
    (hl : m.physLines.get name = none) (g : List Nat) (hg : m.physTris.get name = some g) :
    ∃ M, Mesh.extract G name m = some M ∧ Valid M ∧
      Matches (SameTri G) (selection (triShapes m) g) (triShapes M) ∧
      M.lines = [] ∧ M.physLines = [] ∧
      M.physTris = [(name, List.range M.triangles.length)] ∧
      (∀ q ∈ M.points, ∃ s ∈ triShapes M, q ∈ s) := by
  have hgl := hv.groupTris _ (Dict.mem_of_get hg)
  obtain ⟨pts', els', he, hs, hb, hlen, hpts⟩ := Mesh.extractElems_spec m.points m.triangles g hgl
    (fun e he => (hv.tris e he).2)
  let raw : Mesh P := { points := pts', triangles := els',
                        physTris := [(name, List.range els'.length)] }
  have hvr : Valid raw := by
    refine ⟨Or.inl rfl, ?_, ?_, ?_, ?_, ?_, ?_⟩
    · simp [raw]
    · intro e hel
      obtain ⟨e0, h0, hl⟩ := hlen e hel
      exact ⟨by rw [hl]; exact (hv.tris e0 h0).1, hb e hel⟩
    · simp [raw]
    · simp [raw]
    · simp [raw]
    · simp [raw]
  obtain ⟨M, h, r⟩ := Mesh.build_shapes hG raw hvr true
  have hsh : triShapes raw = selection (triShapes m) g := by
    show els'.map (coords pts') = _
    rw [hs]; exact selection_eq _ g (by simpa [triShapes] using hgl)
  have hfil : (triShapes raw).filter (nonDegShape G) = triShapes raw := by
    apply List.filter_eq_self.2
    intro s hs'
    rw [hsh] at hs'
    obtain ⟨i, _, hi⟩ := List.mem_filterMap.1 hs'
    exact hn s (List.mem_of_getElem? hi)
  have hM := r.tris
  rw [hfil, hsh] at hM
  have hlenM : M.triangles.length = els'.length := by
    have := r.tris.1
    rw [hfil] at this
    simpa [triShapes, raw] using this.symm
  refine ⟨M, ?_, r.valid, hM, ?_, ?_, ?_, ?_⟩
  · unfold Mesh.extract
    rw [hl, hg]
    simp only [he, Option.bind_eq_bind, Option.bind_some]
    exact h
  · have := r.lines.1
    simp only [lineShapes, raw, List.map_nil, List.length_nil, List.length_map] at this
    exact List.eq_nil_of_length_eq_zero this.symm
  · exact r.physLines
  · rw [r.physTris, hlenM]
    intro e hel
    rw [← Mesh.nonDegShape_iff (hvr.tris e hel)]
    have : coords pts' e ∈ triShapes raw := List.mem_map_of_mem hel
    rw [← hfil] at this
    exact (List.mem_filter.1 this).2
  · have hm := r.tris
    rw [hfil] at hm
    apply corner_used hG mem_revTri r.distinct (shapes_sub M.triangles) hm r.from'
    intro p hp
    obtain ⟨k, hk, e, i, hke, hie, hpi⟩ := (hpts p).1 hp
    refine ⟨coords m.points e, ?_, List.mem_filterMap.2 ⟨i, hie, hpi⟩⟩
    show _ ∈ els'.map (coords pts')
    rw [hs]
    refine List.mem_filterMap.2 ⟨k, Mesh.mem_unique.2 hk, ?_⟩
    rw [List.getElem?_map, hke]; rfl

/-- extracting a group with a repeated index -/
example : (Mesh.extract intGeo "g" { exSquare with physLines := [("g", [3, 2, 3])] }).map
    (fun M => (M.points, M.lines)) = some ([⟨1, 0, 0⟩, ⟨1, 0, 1⟩, ⟨2, 0, 1⟩], [[1, 2], [0, 1]]) := by
  decide

/-- A mesh in which a name is used for a line and for a triangle. -/
def exBoth : Mesh IPoint where
  points := [⟨1, 0, 0⟩, ⟨2, 0, 0⟩, ⟨1, 0, 1⟩]
  lines := [[0, 1]]
  triangles := [[0, 1, 2]]
  physLines := [("g", [0])]
  physTris := [("g", [0])]

/-- **C10 is false** for names used for lines and triangles: the triangles are dropped. -/
theorem C10_both_kinds_refuted : Valid exBoth ∧ exBoth.physTris.get "g" = some [0] ∧
    ∃ M, Mesh.extract intGeo "g" exBoth = some M ∧ M.triangles = [] := by
  refine ⟨?_, by decide, ?_⟩
  · refine ⟨Or.inl rfl, ?_, ?_, ?_, ?_, ?_, ?_⟩ <;> decide
  · cases h : Mesh.extract intGeo "g" exBoth with
    | none => exact absurd h (by decide)
    | some M =>
      refine ⟨M, rfl, ?_⟩
      have : (Mesh.extract intGeo "g" exBoth).map (·.triangles) = some [] := by decide
      rw [h] at this; simpa using this

/-- **C10 is false** after `read_file(name='g')` of a mesh with triangles only: the extracted mesh
is empty. -/
theorem C10_read_file_refuted :
    let mm : MeshioMesh IPoint :=
      { points := [⟨1, 0, 0⟩, ⟨2, 0, 0⟩, ⟨1, 0, 1⟩], cells := [("triangle", [[0, 1, 2]])] }
    ((Mesh.fromMeshioNamed intGeo mm "g").map (fun M => M.triangles.length) = some 1) ∧
    ((Mesh.fromMeshioNamed intGeo mm "g").bind (Mesh.extract intGeo "g")).map
      (fun M => (M.points.length, M.triangles.length)) = some (0, 0) := by decide

/-! ## C11 -/

theorem coords_flipLine {m : Mesh P} (hv : Valid m) : lineShapes m.flipRaw = (lineShapes m).map revLine := by
  simp only [lineShapes, Mesh.flipRaw, List.map_map]
  apply List.map_congr_left
  intro e he
  simp only [Function.comp, flipLine_eq]
  exact coords_revLine (hv.lines e he).2

theorem coords_flipTri {m : Mesh P} (hv : Valid m) : triShapes m.flipRaw = (triShapes m).map revTri := by
  simp only [triShapes, Mesh.flipRaw, List.map_map]
  apply List.map_congr_left
  intro e he
  simp only [Function.comp, flipTri_eq]
  exact coords_revTri (hv.tris e he).2

theorem flipRaw_valid {m : Mesh P} (hv : Valid m) : Valid m.flipRaw := by
  refine ⟨hv.cols, ?_, ?_, ?_, ?_, hv.keysLines, hv.keysTris⟩
  · intro e he
    obtain ⟨e', he', rfl⟩ := List.mem_map.1 he
    have := hv.lines e' he'
    have hp := flipLine_perm e'
    exact ⟨hp.length_eq.trans this.1, fun i hi => this.2 i (hp.mem_iff.1 hi)⟩
  · intro e he
    obtain ⟨e', he', rfl⟩ := List.mem_map.1 he
    have := hv.tris e' he'
    have hp := flipTri_perm e'
    exact ⟨hp.length_eq.trans this.1, fun i hi => this.2 i (hp.mem_iff.1 hi)⟩
  · simpa [Mesh.flipRaw] using hv.groupLines
  · simpa [Mesh.flipRaw] using hv.groupTris

/-- **C11**, part: `flip_normals` reverses every line and triangle that is in no named group.

Missing: elements of named groups, for which the claim is false (`C11_named_refuted`). -/
theorem C11_flip_unnamed_partial (hG : G.Lawful) (m : Mesh P) (hv : Valid m) :
    ∃ M, Mesh.flipNormals G m = some M ∧
      (∀ (k : Nat) s t, ¬ InGroup M.physLines k → (lineShapes m)[k]? = some s →
        (lineShapes M)[k]? = some t → SameShape G (revLine s) t) ∧
      (∀ (k : Nat) s t, ¬ InGroup M.physTris k →
        (((triShapes m).map revTri).filter (nonDegShape G))[k]? = some s →
        (triShapes M)[k]? = some t → SameShape G s t) := by
  obtain ⟨M, h, r⟩ := Mesh.build_shapes hG m.flipRaw (flipRaw_valid hv) true
  refine ⟨M, h, ?_, ?_⟩
  · intro k s t hk hs ht
    exact r.linesOut k _ _ hk (by rw [coords_flipLine hv, List.getElem?_map, hs]; rfl) ht
  · intro k s t hk hs ht
    exact r.trisOut k _ _ hk (by rw [coords_flipTri hv]; exact hs) ht

theorem settled_flip {m : Mesh P} (hv : Valid m) (hs : Settled G m)
    (hd : ∀ p q r, G.degenerate p r q = G.degenerate p q r) : Settled G m.flipRaw := by
  refine ⟨hs.sorted, hs.trunc, ?_⟩
  rw [coords_flipTri hv]
  intro s hs'
  obtain ⟨t, ht, rfl⟩ := List.mem_map.1 hs'
  have := hs.nonDeg t ht
  match t, this with
  | [p, q, r], h => simpa [revTri, nonDegShape, hd] using h

theorem settled_nonDeg {m : Mesh P} (hv : Valid m) (hs : Settled G m) :
    ∀ e ∈ m.triangles, NonDegenerate G m.points e := by
  intro e he
  rw [← Mesh.nonDegShape_iff (hv.tris e he)]
  exact hs.nonDeg _ (List.mem_map_of_mem he)

/-- **C11**, part: for a mesh without named groups, `flip_normals` is exactly the reversal of all
elements and applying it twice restores the mesh exactly. -/
theorem C11_flip_twice_partial (m : Mesh P) (hv : Valid m) (hs : Settled G m)
    (hd : ∀ p q r, G.degenerate p r q = G.degenerate p q r)
    (hl : m.physLines = []) (ht : m.physTris = []) :
    ∃ M, Mesh.flipNormals G m = some M ∧ M.points = m.points ∧
      M.lines = m.lines.map revLine ∧ M.triangles = m.triangles.map revTri ∧
      Mesh.flipNormals G M = some m := by
  have h1 := Mesh.build_settled (G := G) m.flipRaw (flipRaw_valid hv) (settled_flip hv hs hd).sorted
    (settled_flip hv hs hd).trunc (settled_nonDeg (flipRaw_valid hv) (settled_flip hv hs hd)) true
    (Or.inr ⟨hl, ht⟩)
  have hff : m.flipRaw.flipRaw = m := by
    cases m
    simp [Mesh.flipRaw, Function.comp_def, flipLine_flipLine, flipTri_flipTri]
  refine ⟨m.flipRaw, h1, rfl, ?_, ?_, ?_⟩
  · exact List.map_congr_left fun e _ => flipLine_eq e
  · exact List.map_congr_left fun e _ => flipTri_eq e
  · unfold Mesh.flipNormals
    rw [hff]
    exact Mesh.build_settled m hv hs.sorted hs.trunc (settled_nonDeg hv hs) true (Or.inr ⟨hl, ht⟩)

example : Settled intGeo { exSquare with physLines := [] } ∧
    (∀ p q r, intGeo.degenerate p r q = intGeo.degenerate p q r) := by
  refine ⟨⟨by decide, by decide, by decide⟩, ?_⟩
  intro p q r
  simp only [intGeo]
  rw [Bool.eq_iff_iff, beq_iff_eq, beq_iff_eq]
  simp only [IPoint.cross, IPoint.sub, IPoint.mk.injEq]
  constructor
  · rintro ⟨h1, h2, h3⟩; refine ⟨?_, ?_, ?_⟩ <;> grind
  · rintro ⟨h1, h2, h3⟩; refine ⟨?_, ?_, ?_⟩ <;> grind

/-- **C11 is false** for named groups: the constructor turns the normals outward again, so
flipping the normals of this electrode returns the same mesh. -/
theorem C11_named_refuted : Valid exSquare ∧
    ∃ M, Mesh.flipNormals intGeo exSquare = some M ∧ M.lines = exSquare.lines ∧
      M.points = exSquare.points := by
  refine ⟨exSquare_valid, ?_⟩
  cases h : Mesh.flipNormals intGeo exSquare with
  | none => exact absurd h (by decide)
  | some M =>
    refine ⟨M, rfl, ?_⟩
    have : (Mesh.flipNormals intGeo exSquare).map (fun M => (M.lines, M.points)) =
      some (exSquare.lines, exSquare.points) := by decide
    rw [h] at this
    simpa using this

/-! ## C14 -/

/-- **C14**, part: a constructed mesh without named groups survives the round trip through meshio
exactly (an empty array of 4-point lines comes back as an empty array of 2-point lines).

Missing: named groups, which are dropped (`C14_names_refuted`). -/
theorem C14_round_trip_partial (m : Mesh P) (hv : Valid m) (hs : Settled G m)
    (hl : m.physLines = []) (ht : m.physTris = []) (hc : m.lines = [] → m.lineCols = 2) :
    Mesh.fromMeshio G m.toMeshio = some m := by
  have hb := Mesh.build_settled m hv hs.sorted hs.trunc (settled_nonDeg hv hs) true (Or.inr ⟨hl, ht⟩)
  unfold Mesh.fromMeshio
  cases m with
  | mk points cols lines tris pl pt =>
    simp only at hl ht hc
    subst hl ht
    have hcols := hv.cols
    simp only at hcols
    have ext : ∀ ty, Mesh.extractSets (Mesh.toMeshio (⟨points, cols, lines, tris, [], []⟩ : Mesh P)) ty = [] := by
      intro ty; rfl
    rw [ext, ext, ext]
    cases lines with
    | nil =>
      have := hc rfl; subst this
      cases tris with
      | nil => simpa [Mesh.toMeshio, MeshioMesh.cellsDict] using hb
      | cons t tris => simpa [Mesh.toMeshio, MeshioMesh.cellsDict] using hb
    | cons l lines =>
      rcases hcols with rfl | rfl
      · cases tris with
        | nil => simpa [Mesh.toMeshio, MeshioMesh.cellsDict] using hb
        | cons t tris => simpa [Mesh.toMeshio, MeshioMesh.cellsDict] using hb
      · cases tris with
        | nil => simpa [Mesh.toMeshio, MeshioMesh.cellsDict] using hb
        | cons t tris => simpa [Mesh.toMeshio, MeshioMesh.cellsDict] using hb

example : Valid { exSquare with physLines := [] } ∧ Settled intGeo { exSquare with physLines := [] } := by
  refine ⟨⟨Or.inl rfl, ?_, ?_, ?_, ?_, ?_, ?_⟩, ?_, ?_, ?_⟩ <;> decide

/-- **C14 is false** for named groups: they are gone after the round trip. -/
theorem C14_names_refuted : Valid exSquare ∧ Settled intGeo exSquare ∧
    ∃ M, Mesh.fromMeshio intGeo exSquare.toMeshio = some M ∧
      exSquare.electrodes = ["electrode"] ∧ M.electrodes = [] := by
  refine ⟨exSquare_valid, exSquare_settled, ?_⟩
  cases h : Mesh.fromMeshio intGeo exSquare.toMeshio with
  | none => exact absurd h (by decide)
  | some M =>
    refine ⟨M, rfl, by decide, ?_⟩
    have : (Mesh.fromMeshio intGeo exSquare.toMeshio).map (·.electrodes) = some [] := by decide
    rw [h] at this
    simpa using this

/-! ## C61 -/

theorem coords_map (f : P → P) (pts : List P) (e : List Nat) :
    coords (pts.map f) e = (coords pts e).map f := by
  unfold coords
  rw [List.map_filterMap]
  apply filterMap_congr'
  intro i _
  rw [List.getElem?_map]

/-- **C61.** `map_points(f)`: every line and every triangle (unless its image is degenerate) of the
result is the image under `f` of the corresponding element, with the same names. -/
theorem C61_map_points (hG : G.Lawful) (f : P → P) (m : Mesh P) (hv : Valid m) :
    ∃ M, Mesh.mapPoints G f m = some M ∧ Valid M ∧
      Matches (SameLine G) ((lineShapes m).map (List.map f)) (lineShapes M) ∧
      Matches (SameTri G) (((triShapes m).map (List.map f)).filter (nonDegShape G)) (triShapes M) ∧
      (∀ name, MatchesGroup (SameLine G) ((lineGroup m name).map (List.map (List.map f)))
        (lineGroup M name)) ∧
      (∀ name, MatchesGroup (SameTri G)
        (((triGroup m name).map (List.map (List.map f))).map (·.filter (nonDegShape G)))
        (triGroup M name)) := by
  let raw : Mesh P := { m with points := m.points.map f }
  have hvr : Valid raw := by
    refine ⟨hv.cols, ?_, ?_, hv.groupLines, hv.groupTris, hv.keysLines, hv.keysTris⟩
    · simpa [raw] using hv.lines
    · simpa [raw] using hv.tris
  have hl : lineShapes raw = (lineShapes m).map (List.map f) := by
    simp only [lineShapes, List.map_map, raw]
    apply List.map_congr_left
    intro e _; exact coords_map f m.points e
  have ht : triShapes raw = (triShapes m).map (List.map f) := by
    simp only [triShapes, List.map_map, raw]
    apply List.map_congr_left
    intro e _; exact coords_map f m.points e
  have hidx : ∀ (l : List (List P)) (g : List Nat), g.filterMap (fun i => (l.map (List.map f))[i]?)
      = (g.filterMap (fun i => l[i]?)).map (List.map f) := by
    intro l g
    rw [List.map_filterMap]
    apply filterMap_congr'
    intro i _; rw [List.getElem?_map]
  have hlg : ∀ name, lineGroup raw name = (lineGroup m name).map (List.map (List.map f)) := by
    intro name
    unfold lineGroup
    rw [hl]
    show (m.physLines.get name).map _ = _
    cases m.physLines.get name with
    | none => rfl
    | some g => simp only [Option.map_some, hidx]
  have htg : ∀ name, triGroup raw name = (triGroup m name).map (List.map (List.map f)) := by
    intro name
    unfold triGroup
    rw [ht]
    show (m.physTris.get name).map _ = _
    cases m.physTris.get name with
    | none => rfl
    | some g => simp only [Option.map_some, hidx]
  obtain ⟨M, h, r⟩ := Mesh.build_shapes hG raw hvr true
  refine ⟨M, h, r.valid, hl ▸ r.lines, ht ▸ r.tris, ?_, ?_⟩
  · intro n; rw [← hlg]; exact r.lineGroups n
  · intro n; rw [← htg]; exact r.triGroups n

/-- mapping all points of the square onto its projection on the z-axis makes points coincide -/
example : (Mesh.mapPoints intGeo (fun p => ⟨p.x * 2, p.y, p.z + 1⟩) exSquare).map (·.points)
    = some [⟨2, 0, 1⟩, ⟨4, 0, 1⟩, ⟨2, 0, 2⟩, ⟨4, 0, 2⟩] := by decide

/-! ## C62 -/

/-- **C62.** Clearing the low bits moves a coordinate towards zero by less than 2^16 units in the
last place, never across zero, and doing it again changes nothing. -/
theorem C62_trunc (b : Dbl) :
    b.trunc.msb = b.msb ∧ b.trunc.key.natAbs ≤ b.key.natAbs ∧
    b.key.natAbs < b.trunc.key.natAbs + 65536 ∧ b.trunc.trunc = b.trunc := by
  have hm := Dbl.trunc_msb b
  have ht := Dbl.trunc_toNat b
  have hk : ∀ c : Dbl, c.key.natAbs = c.toNat % 2 ^ 63 := by
    intro c; unfold Dbl.key; split <;> omega
  refine ⟨hm, ?_, ?_, ?_⟩
  · rw [hk, hk, ht]; omega
  · rw [hk, hk, ht]; omega
  · apply BitVec.eq_of_toNat_eq
    rw [Dbl.trunc_toNat, ht]; omega

/-- Each coordinate of `q` is that of `p`, or is closer to zero by less than 2^16 units in the last place. -/
def Spec.NearlySame (p q : BPoint) : Prop :=
  ∀ c ∈ [BPoint.x, BPoint.y, BPoint.z], (c q).key.natAbs ≤ (c p).key.natAbs ∧ (c p).key.natAbs < (c q).key.natAbs + 65536 ∧ 0 ≤ (c p).key * (c q).key

theorem key_sign (b : Dbl) : (b.msb = true → b.key ≤ 0) ∧ (b.msb = false → 0 ≤ b.key) := by
  unfold Dbl.key
  constructor <;> intro h <;> simp only [h, if_true, Bool.false_eq_true, if_false] <;> omega

theorem nearly_same_of_eq (d t1 t2 t3) {p q : BPoint} (h : (bitsGeo d t1 t2 t3).eq q ((bitsGeo d t1 t2 t3).trunc p) = true) : Spec.NearlySame p q := by
  simp only [bitsGeo, BPoint.eq, Bool.and_eq_true, beq_iff_eq] at h
  obtain ⟨⟨hx, hy⟩, hz⟩ := h
  have one : ∀ a b : Dbl, b.key = a.trunc.key → b.key.natAbs ≤ a.key.natAbs ∧ a.key.natAbs < b.key.natAbs + 65536 ∧ 0 ≤ a.key * b.key := by
    intro a b hab
    obtain ⟨h1, h2, h3, -⟩ := C62_trunc a
    rw [hab]
    refine ⟨h2, h3, ?_⟩
    have k1 := key_sign a
    have k2 := key_sign a.trunc
    rw [h1] at k2
    cases hm : a.msb
    · exact Int.mul_nonneg (k1.2 hm) (k2.2 hm)
    · exact Int.mul_nonneg_of_nonpos_of_nonpos (k1.1 hm) (k2.1 hm)
  intro c hc
  simp only [List.mem_cons, List.not_mem_nil, or_false] at hc
  rcases hc with rfl | rfl | rfl
  · exact one _ _ hx
  · exact one _ _ hy
  · exact one _ _ hz

/-- **C62** for meshes of doubles, coordinate by coordinate: the corners of the lines and triangles of a constructed mesh (without outward normals) are, one by one, those of the given mesh up to less than 2^16 units in the last place of each coordinate. -/
theorem C62_mesh (d t1 t2 t3) (m : Mesh BPoint) (hv : Valid m) :
    ∃ M, Mesh.build (bitsGeo d t1 t2 t3) m false = some M ∧
      Matches (Matches Spec.NearlySame) (lineShapes m) (lineShapes M) ∧
      Matches (Matches Spec.NearlySame) ((triShapes m).filter (nonDegShape (bitsGeo d t1 t2 t3))) (triShapes M) := by
  obtain ⟨M, h, -, -, h3, -⟩ := C02_elements_keep_geometry (bitsGeo_lawful d t1 t2 t3) m hv false
  have up : ∀ a b, SameShape (bitsGeo d t1 t2 t3) a b → Matches Spec.NearlySame a b := fun a b hab =>
    ⟨hab.1, fun k p q hp hq => nearly_same_of_eq d t1 t2 t3 (hab.2 k p q hp hq)⟩
  obtain ⟨hl, ht⟩ := h3 rfl
  exact ⟨M, h, ⟨hl.1, fun k a b ha hb => up a b (hl.2 k a b ha hb)⟩, ⟨ht.1, fun k a b ha hb => up a b (ht.2 k a b ha hb)⟩⟩

/-- `Settled` is what the constructor produces, for doubles: clearing low bits twice is the same
as once, so rebuilding a constructed mesh moves no point. -/
theorem C62_trunc_twice (d t1 t2 t3) (p : BPoint) :
    (bitsGeo d t1 t2 t3).trunc ((bitsGeo d t1 t2 t3).trunc p) = (bitsGeo d t1 t2 t3).trunc p := by
  simp only [bitsGeo, (C62_trunc _).2.2.2]

example : Dbl.trunc 0x3FF0000000012345#64 = 0x3FF0000000010000#64 := by decide

end Traceon
