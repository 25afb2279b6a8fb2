import Verif.Lemmas.OrientGroup
import Verif.Lemmas.ReorientLines
import Verif.Lemmas.ReorientTris

/-!
# `ensure_outward_normals` / `ensure_inward_normals` and the constructor, piece by piece
-/
namespace Traceon
open Spec
namespace Mesh
variable {P : Type} {G : Geo P}

theorem ensureNormals_parts {o : Bool} {name : String} {m M : Mesh P}
    (h : ensureNormals G o name m = some M) :
    (∀ g, m.physTris.get name = some g →
      orientGroup (ensureTriangleOrientation G m.points o) m.triangles g = some M.triangles) ∧
    (m.physTris.get name = none → M.triangles = m.triangles) ∧
    (∀ g, m.physLines.get name = some g →
      orientGroup (ensureLineOrientation G m.points o) m.lines g = some M.lines) ∧
    (m.physLines.get name = none → M.lines = m.lines) := by
  unfold ensureNormals at h
  simp only [Option.bind_eq_bind, Option.bind_eq_some_iff] at h
  obtain ⟨m1, h1, h2⟩ := h
  have hA : m1.points = m.points ∧ m1.lines = m.lines ∧ m1.physLines = m.physLines ∧
      (∀ g, m.physTris.get name = some g →
        orientGroup (ensureTriangleOrientation G m.points o) m.triangles g = some m1.triangles) ∧
      (m.physTris.get name = none → m1.triangles = m.triangles) := by
    unfold orientTris at h1
    cases hg : m.physTris.get name with
    | none => rw [hg] at h1; cases h1; simp
    | some g =>
      rw [hg] at h1
      simp only [Option.bind_eq_bind, Option.bind_eq_some_iff] at h1
      obtain ⟨t, ht, h1⟩ := h1
      cases h1
      refine ⟨rfl, rfl, rfl, ?_, by simp⟩
      intro g' hg'; cases hg'; exact ht
  obtain ⟨hp, hl, hd, ht1, ht2⟩ := hA
  unfold orientLines at h2
  rw [hd] at h2
  cases hg : m.physLines.get name with
  | none =>
    rw [hg] at h2; cases h2
    exact ⟨ht1, ht2, by simp, fun _ => hl⟩
  | some g =>
    rw [hg] at h2
    simp only [Option.bind_eq_bind, Option.bind_eq_some_iff] at h2
    obtain ⟨t, ht, h2⟩ := h2
    cases h2
    rw [hp, hl] at ht
    refine ⟨ht1, ht2, ?_, by simp⟩
    intro g' hg'; cases hg'; exact ht

/-- After orienting one group, each piece of the group comes out of the orientation procedure. -/
theorem pieces_of_orientGroup {flip : Elem → Elem} (hfm : ∀ e v, v ∈ flip e ↔ v ∈ e)
    (hff : ∀ e, flip (flip e) = e)
    {orient : List Elem → Option (List Elem)} (ho : GoodOrient flip orient)
    (els : List Elem) (idx : List Nat) (hi : ∀ i ∈ idx, i < els.length) (hnd : idx.Nodup)
    {els' : List Elem} (h : orientGroup orient els idx = some els') (c : List Nat)
    (hc : IsPiece (elemsAt els' idx) c) :
    ∃ pc, pc ≠ [] ∧ KF flip pc (elemsAt (elemsAt els' idx) c) ∧ Connected pc ∧
      orient pc = some (elemsAt (elemsAt els' idx) c) := by
  obtain ⟨hlen, hp⟩ := orientGroup_pieces ho els idx hi hnd h
  obtain ⟨els'', h', hkf, _⟩ := orientGroup_KF hff ho els idx hi
  rw [h] at h'; cases h'
  have hkg := hkf.elemsAt hi
  have hc' : IsPiece (elemsAt els idx) c := (hkg.sameVerts hfm).symm.isPiece hc
  have hci : ∀ i ∈ c, i < (elemsAt els idx).length :=
    fun i h => Linked.lt_right ((hc'.component i h i).1 h)
  refine ⟨elemsAt (elemsAt els idx) c, ?_, hkg.elemsAt hci, piece_connected hc', hp c hc'⟩
  intro h0
  have := elemsAt_length hci
  rw [h0] at this
  exact hc'.nonempty (List.length_eq_zero_iff.1 this.symm)

/-- A statement about one group of lines that any call for this name establishes and that depends
only on the lines of the group, holds after the constructor has run through all names. -/
theorem foldl_establish (o : Bool) (name : String) (Q : Mesh P → Prop)
    (hest : ∀ m M, Valid m → ensureNormals G o name m = some M → Q M)
    (d0 t0 : Dict (List Nat))
    (hpres : ∀ n m M, n ≠ name → Valid m → m.physLines = d0 → m.physTris = t0 →
      ensureNormals G o n m = some M → Q m → Q M)
    (names : List String) (m M : Mesh P) (hv : Valid m) (hd : m.physLines = d0) (ht : m.physTris = t0)
    (h : names.foldlM (fun m el => ensureNormals G o el m) m = some M)
    (hin : name ∈ names ∨ Q m) : Q M := by
  induction names generalizing m with
  | nil =>
    cases h
    rcases hin with h | h
    · simp at h
    · exact h
  | cons n names ih =>
    rw [List.foldlM_cons] at h
    simp only [Option.bind_eq_bind, Option.bind_eq_some_iff] at h
    obtain ⟨m1, h1, h2⟩ := h
    obtain ⟨m1', h1', r⟩ := ensureNormals_spec (G := G) o n m hv
    rw [h1] at h1'; cases h1'
    refine ih m1 (r.valid hv) (r.physLines.trans hd) (r.physTris.trans ht) h2 ?_
    by_cases hn : n = name
    · subst hn; exact Or.inr (hest m m1 hv h1)
    · rcases hin with h | h
      · rcases List.mem_cons.1 h with h | h
        · exact absurd h.symm hn
        · exact Or.inl h
      · exact Or.inr (hpres n m m1 hn hv hd ht h1 h)

theorem elemsAt_congr {a b : List Elem} {g : List Nat} (h : ∀ i ∈ g, a[i]? = b[i]?) :
    elemsAt a g = elemsAt b g := by
  unfold Spec.elemsAt
  induction g with
  | nil => rfl
  | cons i g ih =>
    rw [List.filterMap_cons, List.filterMap_cons, h i (by simp), ih (fun j hj => h j (by simp [hj]))]

theorem ensureNormals_lines_out {o : Bool} {n : String} {m M : Mesh P} (hv : Valid m)
    (h : ensureNormals G o n m = some M) {k : Nat} (hk : ∀ g, m.physLines.get n = some g → k ∉ g) :
    M.lines[k]? = m.lines[k]? := by
  obtain ⟨_, _, h1, h2⟩ := ensureNormals_parts h
  cases hg : m.physLines.get n with
  | none => rw [h2 hg]
  | some g =>
    obtain ⟨els, e1, _, e3⟩ := orientGroup_KF flipLine_flipLine (ensureLine_good G m.points o)
      m.lines g (hv.groupLines _ (Dict.mem_of_get hg))
    have := h1 g hg
    rw [e1] at this; cases this
    exact e3 k (hk g hg)

theorem ensureNormals_tris_out {o : Bool} {n : String} {m M : Mesh P} (hv : Valid m)
    (h : ensureNormals G o n m = some M) {k : Nat} (hk : ∀ g, m.physTris.get n = some g → k ∉ g) :
    M.triangles[k]? = m.triangles[k]? := by
  obtain ⟨h1, h2, _, _⟩ := ensureNormals_parts h
  cases hg : m.physTris.get n with
  | none => rw [h2 hg]
  | some g =>
    obtain ⟨els, e1, _, e3⟩ := orientGroup_KF flipTri_flipTri (ensureTri_good G m.points o)
      m.triangles g (hv.groupTris _ (Dict.mem_of_get hg))
    have := h1 g hg
    rw [e1] at this; cases this
    exact e3 k (hk g hg)

/-- The groups do not repeat elements and different groups have no element in common. -/
def SeparateGroups (d : Dict (List Nat)) : Prop :=
  (∀ n g, d.get n = some g → g.Nodup) ∧
  ∀ n n' g g', n ≠ n' → d.get n = some g → d.get n' = some g' → ∀ k ∈ g, k ∉ g'

end Mesh
end Traceon
