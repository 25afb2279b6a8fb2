import Verif.Lemmas.SurfaceRaw

/-!
# The mesher does not look at the points, except to decide about splits

Used to evaluate the mesher on a concrete surface: the points are replaced by names.
-/
namespace Traceon
namespace SMesh
variable {P Q : Type}

def mapState (f : P → Q) (st : PState P) : PState Q := ⟨st.levels, st.points.map f⟩

def mapPt (f : P → Q) (pt : Nat → Nat → Nat → Option P) : Nat → Nat → Nat → Option Q := fun d i j => (pt d i j).map f

theorem toPointIndex_map (f : P → Q) (pt : Nat → Nat → Nat → Option P) (st : PState P) (d i j : Nat) :
    toPointIndex (mapPt f pt) (mapState f st) d i j = (toPointIndex pt st d i j).map (fun r => (r.1, mapState f r.2)) := by
  unfold toPointIndex mapState mapPt
  split
  · dsimp only
    cases h : (addLevels (d + 1 - st.levels.length) st.levels)[d]? with
    | none => rfl
    | some m =>
      simp only [Option.bind_some]
      cases h' : m i j with
      | some k => rfl
      | none =>
        simp only [Option.elim_none]
        cases h'' : pt d i j with
        | none => rfl
        | some p => simp
  · rfl

theorem getPoint_map (f : P → Q) (pt : Nat → Nat → Nat → Option P) (st : PState P) (d i j : Nat) :
    getPoint (mapPt f pt) (mapState f st) d i j = (getPoint pt st d i j).map (fun r => (f r.1, mapState f r.2)) := by
  unfold getPoint
  rw [toPointIndex_map]
  cases toPointIndex pt st d i j with
  | none => rfl
  | some r =>
    simp only [Option.map_some, Option.bind_some, mapState, List.getElem?_map, Option.map_map]
    rfl

theorem corners_map (f : P → Q) (pt : Nat → Nat → Nat → Option P) (st : PState P) (q : Quad) :
    corners (mapPt f pt) (mapState f st) q
      = (corners pt st q).map (fun r => ((f r.1.1, f r.1.2.1, f r.1.2.2.1, f r.1.2.2.2), mapState f r.2)) := by
  unfold corners
  rw [getPoint_map]
  cases getPoint pt st q.depth q.i0 q.j0 with
  | none => rfl
  | some r1 =>
    simp only [Option.map_some, Option.bind_some]
    rw [getPoint_map]
    cases getPoint pt r1.2 q.depth q.i0 q.j1 with
    | none => rfl
    | some r2 =>
      simp only [Option.map_some, Option.bind_some]
      rw [getPoint_map]
      cases getPoint pt r2.2 q.depth q.i1 q.j0 with
      | none => rfl
      | some r3 =>
        simp only [Option.map_some, Option.bind_some]
        rw [getPoint_map]
        cases getPoint pt r3.2 q.depth q.i1 q.j1 <;> rfl

theorem subdivide_map (f : P → Q) (pt : Nat → Nat → Nat → Option P) {split : P → P → P → P → Bool × Bool}
    {split' : Q → Q → Q → Q → Bool × Bool} (hsp : ∀ a b c d, split' (f a) (f b) (f c) (f d) = split a b c d) :
    ∀ (fuel : Nat) (stack quads : List Quad) (st : PState P),
      subdivide (mapPt f pt) split' fuel stack quads (mapState f st)
        = (subdivide pt split fuel stack quads st).map (fun r => (r.1, mapState f r.2))
  | fuel, [], quads, st => by cases fuel <;> rfl
  | 0, q :: stack, quads, st => rfl
  | fuel + 1, q :: stack, quads, st => by
    simp only [subdivide]
    rw [corners_map]
    cases corners pt st q with
    | none => rfl
    | some r =>
      simp only [Option.map_some, Option.bind_some, hsp]
      split
      · exact subdivide_map f pt hsp fuel _ _ _
      · exact subdivide_map f pt hsp fuel _ _ _

theorem meshFold_map (f : P → Q) (pt : Nat → Nat → Nat → Option P) {split : P → P → P → P → Bool × Bool}
    {split' : Q → Q → Q → Q → Bool × Bool} (hsp : ∀ a b c d, split' (f a) (f b) (f c) (f d) = split a b c d) (fuel : Nat) :
    ∀ (qs quads : List Quad) (st : PState P),
      qs.foldlM (fun r q => subdivide (mapPt f pt) split' fuel [q] r.1 r.2) (quads, mapState f st)
        = (qs.foldlM (fun r q => subdivide pt split fuel [q] r.1 r.2) (quads, st)).map (fun r => (r.1, mapState f r.2))
  | [], quads, st => rfl
  | q :: qs, quads, st => by
    rw [List.foldlM_cons, List.foldlM_cons]
    simp only
    rw [subdivide_map f pt hsp]
    cases subdivide pt split fuel [q] quads st with
    | none => rfl
    | some r => exact meshFold_map f pt hsp fuel qs r.1 r.2

theorem meshSections_map (f : P → Q) {split : P → P → P → P → Bool × Bool}
    {split' : Q → Q → Q → Q → Bool × Bool} (hsp : ∀ a b c d, split' (f a) (f b) (f c) (f d) = split a b c d) (fuel start : Nat) :
    ∀ (secs : List (Nat → Nat → Nat → Option P)) (pts : List P),
      meshSections split' fuel start (secs.map (mapPt f)) (pts.map f)
        = (meshSections split fuel start secs pts).map (fun r => (r.1, r.2.map f))
  | [], pts => rfl
  | pt :: secs, pts => by
    have h := meshFold_map f pt hsp fuel (startQuads start) [] ⟨[], pts⟩
    simp only [List.map_cons, meshSections, meshSection]
    rw [show (⟨[], pts.map f⟩ : PState Q) = mapState f ⟨[], pts⟩ from rfl, h]
    cases (startQuads start).foldlM (fun r q => subdivide pt split fuel [q] r.1 r.2) (([], ⟨[], pts⟩) : List Quad × PState P) with
    | none => rfl
    | some r =>
      simp only [Option.map_some, Option.bind_some, mapState]
      rw [meshSections_map f hsp]
      cases meshSections split fuel start secs r.2.points <;> rfl

/-- The mesher commutes with renaming the points. -/
theorem rawMesh_map (f : P → Q) {split : P → P → P → P → Bool × Bool} {split' : Q → Q → Q → Q → Bool × Bool}
    (hsp : ∀ a b c d, split' (f a) (f b) (f c) (f d) = split a b c d) (fuel start : Nat)
    (secs : List (Nat → Nat → Nat → Option P)) (nx ny : Nat) (name : Option String) {mesh : Mesh P}
    (h : rawMesh split fuel start secs nx ny name = some mesh) :
    rawMesh split' fuel start (secs.map (mapPt f)) nx ny name
      = some { points := mesh.points.map f, lines := mesh.lines, triangles := mesh.triangles, physLines := mesh.physLines,
               physTris := mesh.physTris } := by
  have hm := meshSections_map f hsp fuel start secs []
  unfold rawMesh at h ⊢
  rw [show ([] : List Q) = ([] : List P).map f from rfl, hm]
  obtain ⟨r, h1, h⟩ := Option.bind_eq_some_iff.1 h
  rw [h1]
  simp only [Option.map_some, Option.bind_some] at h ⊢
  obtain ⟨ms, h2, h⟩ := Option.bind_eq_some_iff.1 h
  rw [h2]
  simp only [Option.bind_some]
  split at h
  · rename_i hl
    rw [if_pos hl]
    obtain ⟨ms', h3, h⟩ := Option.bind_eq_some_iff.1 h
    rw [h3]
    simp only [Option.bind_some]
    obtain ⟨ts, h4, h⟩ := Option.map_eq_some_iff.1 h
    rw [h4]
    subst h
    rfl
  · cases h

end SMesh
end Traceon
