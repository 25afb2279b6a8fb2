import Verif.Lemmas.OrientMesh
import Verif.Lemmas.OrientTest
import Verif.Lemmas.Flux
import Verif.Props.Mesh

/-!
# Theorems about orientation: C07, C08, C09, C63
-/
namespace Traceon
open Spec V3
variable {P : Type} {G : Geo P}

/-! ## Pieces after orientation -/

theorem linePieces (o : Bool) (name : String) (m M : Mesh P) (hv : Valid m) {g : List Nat}
    (hg : m.physLines.get name = some g) (hnd : g.Nodup)
    (h : Mesh.ensureNormals G o name m = some M) (c : List Nat) (hc : IsPiece (elemsAt M.lines g) c) :
    ∃ pc, pc ≠ [] ∧ KF flipLine pc (elemsAt (elemsAt M.lines g) c) ∧ Connected pc ∧
      ensureLineOrientation G M.points o pc = some (elemsAt (elemsAt M.lines g) c) := by
  obtain ⟨_, _, h1, _⟩ := Mesh.ensureNormals_parts h
  obtain ⟨M', hM', r⟩ := Mesh.ensureNormals_spec (G := G) o name m hv
  rw [h] at hM'; cases hM'
  rw [r.points]
  exact Mesh.pieces_of_orientGroup (fun e v => mem_flipLine v) flipLine_flipLine
    (ensureLine_good G m.points o) m.lines g (hv.groupLines _ (Dict.mem_of_get hg)) hnd (h1 g hg) c hc

theorem triPieces (o : Bool) (name : String) (m M : Mesh P) (hv : Valid m) {g : List Nat}
    (hg : m.physTris.get name = some g) (hnd : g.Nodup)
    (h : Mesh.ensureNormals G o name m = some M) (c : List Nat) (hc : IsPiece (elemsAt M.triangles g) c) :
    ∃ pc, pc ≠ [] ∧ KF flipTri pc (elemsAt (elemsAt M.triangles g) c) ∧ Connected pc ∧
      ensureTriangleOrientation G M.points o pc = some (elemsAt (elemsAt M.triangles g) c) := by
  obtain ⟨h1, _, _, _⟩ := Mesh.ensureNormals_parts h
  obtain ⟨M', hM', r⟩ := Mesh.ensureNormals_spec (G := G) o name m hv
  rw [h] at hM'; cases hM'
  rw [r.points]
  exact Mesh.pieces_of_orientGroup (fun e v => mem_flipTri v) flipTri_flipTri
    (ensureTri_good G m.points o) m.triangles g (hv.groupTris _ (Dict.mem_of_get hg)) hnd (h1 g hg) c hc

/-- In a constructed mesh each piece of each named group of lines was oriented outward last. -/
theorem linePieces_build (hG : G.Lawful) (m M : Mesh P) (hv : Valid m) (hb : Mesh.build G m = some M)
    (hsep : Mesh.SeparateGroups m.physLines) {name : String} {g : List Nat}
    (hg : m.physLines.get name = some g) (c : List Nat) (hc : IsPiece (elemsAt M.lines g) c) :
    ∃ pc, pc ≠ [] ∧ KF flipLine pc (elemsAt (elemsAt M.lines g) c) ∧ Connected pc ∧
      ensureLineOrientation G M.points true pc = some (elemsAt (elemsAt M.lines g) c) := by
  obtain ⟨m1, keep, h1, r1⟩ := Mesh.removeDegenerate_spec (G := G) m hv
  have hv1 := r1.valid hv
  obtain ⟨m2, h2, r2⟩ := Mesh.dedup_spec hG m1 hv1
  have hv2 := r2.valid hv1
  obtain ⟨M', h3, r3⟩ := Mesh.ensureAll_spec (G := G) true m2.electrodes m2 hv2
  have hM : M' = M := by
    unfold Mesh.build at hb
    simp only [h1, h2, h3, Option.bind_eq_bind, Option.bind_some, if_true,
      Mesh.assertions_of_valid (r3.valid hv2)] at hb
    exact Option.some.inj hb
  subst hM
  have hd : m2.physLines = m.physLines := r2.physLines.trans r1.physLines
  have hg2 : m2.physLines.get name = some g := by rw [hd]; exact hg
  have hnd := hsep.1 name g hg
  refine Mesh.foldl_establish (G := G) true name
    (fun M => M.physLines = m.physLines → ∀ c, IsPiece (elemsAt M.lines g) c →
      ∃ pc, pc ≠ [] ∧ KF flipLine pc (elemsAt (elemsAt M.lines g) c) ∧ Connected pc ∧
      ensureLineOrientation G M.points true pc = some (elemsAt (elemsAt M.lines g) c))
    ?_ m.physLines m2.physTris ?_ m2.electrodes m2 M' hv2 hd rfl h3 (Or.inl ?_) (r3.physLines.trans hd) c hc
  · intro a b hva hab hbd c hc
    obtain ⟨b', hb', r⟩ := Mesh.ensureNormals_spec (G := G) true name a hva
    rw [hab] at hb'; cases hb'
    exact linePieces true name a b hva (by rw [← r.physLines, hbd]; exact hg) hnd hab c hc
  · intro n a b hn hva had _ hab hQ hbd c hc
    obtain ⟨b', hb', r⟩ := Mesh.ensureNormals_spec (G := G) true n a hva
    rw [hab] at hb'; cases hb'
    have he : elemsAt b.lines g = elemsAt a.lines g := by
      apply Mesh.elemsAt_congr
      intro i hi
      apply Mesh.ensureNormals_lines_out hva hab
      intro g' hg'
      rw [had] at hg'
      exact hsep.2 name n g g' (Ne.symm hn) hg hg' i hi
    rw [he] at hc ⊢
    rw [r.points]
    exact hQ had c hc
  · unfold Mesh.electrodes
    refine List.mem_append.2 (Or.inl ?_)
    exact List.mem_map.2 ⟨_, Dict.mem_of_get hg2, rfl⟩

/-! ## C07 -/

theorem ensureLine_headToTail (o : Bool) (pts : List P) {pc out T : List Elem} (hne : pc ≠ [])
    (hkf : KF flipLine pc out) (hconn : Connected pc)
    (h : ensureLineOrientation G pts o pc = some out) (hL : Lines out) (hT : SomeReversed out T)
    (hht : HeadToTail T) : HeadToTail out := by
  have hkf' : KF flipLine out pc := by
    refine ⟨hkf.1.symm, fun n => ?_⟩
    rcases hkf.2 n with h | h
    · exact Or.inl h.symm
    · right; rw [h, Option.map_map]
      cases pc[n]? with
      | none => rfl
      | some e => simp [flipLine_flipLine]
  have hrev := hkf'.someReversed hL.shape
  have hLp := lines_of_someReversed hrev hL
  have hTp := someReversed_trans (someReversed_symm hrev) hT
  obtain ⟨q, hq1, hq2, hq3⟩ := reorientLines_consistent pc T hne hLp hconn hTp hht
  unfold ensureLineOrientation at h
  rw [hq1] at h
  simp only [Option.bind_eq_bind, Option.bind_some] at h
  cases h
  split
  · exact headToTail_flip (lines_of_someReversed hq2 hLp).shape hq3
  · exact hq3

/-- **C07.** Re-orienting the lines of a connected piece for which some consistent orientation `T`
exists gives a consistent orientation, and only ever reverses lines. -/
theorem C07_reorient_consistent (lines T : List (List Nat)) (hne : lines ≠ []) (hL : Lines lines)
    (hconn : Connected lines) (hT : SomeReversed lines T) (hht : HeadToTail T) :
    ∃ out, reorientLines lines = some out ∧ SomeReversed lines out ∧ HeadToTail out :=
  reorientLines_consistent lines T hne hL hconn hT hht

/-- **C07**, on the level of `ensure_outward_normals` and `ensure_inward_normals`: points, groups and
triangles of other electrodes stay the same, lines are only ever reversed, and every connected piece
of the electrode that can be oriented consistently is oriented consistently in the result. -/
theorem C07_normals_consistent (o : Bool) (name : String) (m M : Mesh P) (hv : Valid m) (g : List Nat)
    (hg : m.physLines.get name = some g) (hnd : g.Nodup)
    (h : Mesh.ensureNormals G o name m = some M) :
    M.points = m.points ∧ M.physLines = m.physLines ∧ SomeReversed m.lines M.lines ∧
    ∀ c T, IsPiece (elemsAt M.lines g) c → Lines (elemsAt (elemsAt M.lines g) c) →
      SomeReversed (elemsAt (elemsAt M.lines g) c) T → HeadToTail T →
      HeadToTail (elemsAt (elemsAt M.lines g) c) := by
  obtain ⟨M', hM', r⟩ := Mesh.ensureNormals_spec (G := G) o name m hv
  rw [h] at hM'; cases hM'
  refine ⟨r.points, r.physLines, r.lines.someReversed (fun l hl => ?_), ?_⟩
  · rw [(hv.lines l hl).1]; exact hv.cols
  · intro c T hc hL hT hht
    obtain ⟨pc, h1, h2, h3, h4⟩ := linePieces o name m M hv hg hnd h c hc
    exact ensureLine_headToTail o M.points h1 h2 h3 h4 hL hT hht

/-- **C07**, for the constructor: in a freshly constructed mesh every connected piece of every named
group of lines that can be oriented consistently is oriented consistently (if the groups have no
lines in common). -/
theorem C07_constructed_consistent (hG : G.Lawful) (m M : Mesh P) (hv : Valid m)
    (hb : Mesh.build G m = some M) (hsep : Mesh.SeparateGroups m.physLines) (name : String) (g : List Nat)
    (hg : m.physLines.get name = some g) (c : List Nat) (T : List (List Nat))
    (hc : IsPiece (elemsAt M.lines g) c) (hL : Lines (elemsAt (elemsAt M.lines g) c))
    (hT : SomeReversed (elemsAt (elemsAt M.lines g) c) T) (hht : HeadToTail T) :
    HeadToTail (elemsAt (elemsAt M.lines g) c) := by
  obtain ⟨pc, h1, h2, h3, h4⟩ := linePieces_build hG m M hv hb hsep hg c hc
  exact ensureLine_headToTail true M.points h1 h2 h3 h4 hL hT hht

/-- The square with one line reversed. -/
def exTwisted : List (List Nat) := [[0, 1], [3, 1], [3, 2], [2, 0]]

theorem exTwisted_connected : Connected exTwisted := by
  have e : ∀ i j a b v, exTwisted[i]? = some a → exTwisted[j]? = some b → v ∈ a → v ∈ b →
      SharesVertex exTwisted i j := fun i j a b v h1 h2 h3 h4 => ⟨a, b, v, h1, h2, h3, h4⟩
  have s01 := e 0 1 _ _ 1 rfl rfl (by decide) (by decide)
  have s12 := e 1 2 _ _ 3 rfl rfl (by decide) (by decide)
  have s23 := e 2 3 _ _ 2 rfl rfl (by decide) (by decide)
  have s10 := e 1 0 _ _ 1 rfl rfl (by decide) (by decide)
  have s21 := e 2 1 _ _ 3 rfl rfl (by decide) (by decide)
  have s32 := e 3 2 _ _ 2 rfl rfl (by decide) (by decide)
  have l0 : ∀ i, i < 4 → Linked exTwisted i 0 := by
    intro i hi
    match i, hi with
    | 0, _ => exact Linked.refl (by decide)
    | 1, _ => exact Linked.step (Linked.refl (by decide)) s10
    | 2, _ => exact Linked.step (Linked.step (Linked.refl (by decide)) s21) s10
    | 3, _ => exact Linked.step (Linked.step (Linked.step (Linked.refl (by decide)) s32) s21) s10
  intro i j hi hj
  match j, hj with
  | 0, _ => exact l0 i hi
  | 1, _ => exact Linked.step (l0 i hi) s01
  | 2, _ => exact Linked.step (Linked.step (l0 i hi) s01) s12
  | 3, _ => exact Linked.step (Linked.step (Linked.step (l0 i hi) s01) s12) s23

/-- The hypotheses of `C07_reorient_consistent` hold for the twisted square; the result. -/
example : ∃ T, exTwisted ≠ [] ∧ Lines exTwisted ∧ Connected exTwisted ∧ SomeReversed exTwisted T ∧ HeadToTail T ∧
    ¬ HeadToTail exTwisted ∧ reorientLines exTwisted = some [[1, 0], [3, 1], [2, 3], [0, 2]] := by
  refine ⟨[[0, 1], [1, 3], [3, 2], [2, 0]], by decide, ⟨by decide, by decide, ?_⟩, exTwisted_connected, ?_, ?_, ?_,
    by decide⟩
  · intro i j a b v ha hb hv
    have : a.length = 2 := by
      have := List.mem_of_getElem? ha
      simp [exTwisted] at this
      rcases this with rfl | rfl | rfl | rfl <;> rfl
    rw [List.drop_eq_nil_of_le (by omega)] at hv; simp at hv
  · refine ⟨rfl, ?_⟩
    intro k a b ha hb
    match k with
    | 0 => cases ha; cases hb; exact Or.inl rfl
    | 1 => cases ha; cases hb; exact Or.inr (Or.inl ⟨_, _, rfl, rfl⟩)
    | 2 => cases ha; cases hb; exact Or.inl rfl
    | 3 => cases ha; cases hb; exact Or.inl rfl
    | k + 4 => simp [exTwisted] at ha
  · intro i j a b v hij ha hb hva hvb
    match i, j with
    | 0, 0 | 1, 1 | 2, 2 | 3, 3 => exact absurd rfl hij
    | 0, 1 => cases ha; cases hb; exact Or.inl ⟨1, rfl, rfl⟩
    | 1, 0 => cases ha; cases hb; exact Or.inr ⟨1, rfl, rfl⟩
    | 1, 2 => cases ha; cases hb; exact Or.inl ⟨3, rfl, rfl⟩
    | 2, 1 => cases ha; cases hb; exact Or.inr ⟨3, rfl, rfl⟩
    | 2, 3 => cases ha; cases hb; exact Or.inl ⟨2, rfl, rfl⟩
    | 3, 2 => cases ha; cases hb; exact Or.inr ⟨2, rfl, rfl⟩
    | 3, 0 => cases ha; cases hb; exact Or.inl ⟨0, rfl, rfl⟩
    | 0, 3 => cases ha; cases hb; exact Or.inr ⟨0, rfl, rfl⟩
    | 0, 2 | 2, 0 | 1, 3 | 3, 1 => cases ha; cases hb; simp [endPoints] at hva hvb; omega
    | k + 4, _ => simp at ha
    | _, k + 4 => simp at hb
  · intro h
    have := h 0 1 _ _ 1 (by decide) rfl rfl (by decide) (by decide)
    rcases this with ⟨v, h1, h2⟩ | ⟨v, h1, h2⟩ <;> simp at h1 h2 <;> omega

end Traceon
