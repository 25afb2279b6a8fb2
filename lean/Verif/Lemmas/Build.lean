import Verif.Lemmas.Dedup
import Verif.Lemmas.Reorient
import Verif.Spec.Mesh

/-! The constructor: every phase succeeds on valid input, and what it does. -/
namespace Traceon
open Spec
variable {P : Type} {G : Geo P}

theorem flipLine_flipLine (e : Elem) : flipLine (flipLine e) = e := by
  match e with
  | [] => rfl
  | [_] => rfl
  | [_, _] => rfl
  | [_, _, _] => rfl
  | [_, _, _, _] => rfl
  | _ :: _ :: _ :: _ :: _ :: _ => rfl

theorem flipTri_flipTri (e : Elem) : flipTri (flipTri e) = e := by
  match e with
  | [] => rfl
  | [_] => rfl
  | [_, _] => rfl
  | [_, _, _] => rfl
  | _ :: _ :: _ :: _ :: _ => rfl

theorem flipLine_perm (e : Elem) : (flipLine e).Perm e := by
  unfold flipLine
  split
  · exact List.Perm.swap _ _ _
  · rename_i a b c d
    exact (List.Perm.swap a b [d, c]).trans ((List.Perm.cons a (List.Perm.cons b (List.Perm.swap _ _ _))))
  · exact List.Perm.refl _

theorem flipTri_perm (e : Elem) : (flipTri e).Perm e := by
  unfold flipTri
  split
  · rename_i a b c
    exact List.Perm.cons a (List.Perm.swap _ _ _)
  · exact List.Perm.refl _

/-- `b` is `a` with some elements flipped. -/
def KF (flip : Elem → Elem) (a b : List Elem) : Prop :=
  b.length = a.length ∧ ∀ n : Nat, b[n]? = a[n]? ∨ b[n]? = a[n]?.map flip

theorem KF.refl (flip : Elem → Elem) (a : List Elem) : KF flip a a := ⟨rfl, fun _ => Or.inl rfl⟩

theorem KF.trans {flip : Elem → Elem} (hf : ∀ e, flip (flip e) = e) {a b c : List Elem}
    (h1 : KF flip a b) (h2 : KF flip b c) : KF flip a c := by
  refine ⟨h2.1.trans h1.1, fun n => ?_⟩
  rcases h1.2 n with h | h <;> rcases h2.2 n with h' | h'
  · left; rw [h', h]
  · right; rw [h', h]
  · right; rw [h', h]
  · left; rw [h', h]; cases a[n]? <;> simp [hf]

theorem KF.map {flip : Elem → Elem} {a : List Elem} : KF flip a (a.map flip) :=
  ⟨by simp, fun n => Or.inr (by simp)⟩

/-- An orientation function that works on non-empty pieces. -/
def GoodOrient (flip : Elem → Elem) (orient : List Elem → Option (List Elem)) : Prop :=
  ∀ piece, piece ≠ [] → ∃ piece', orient piece = some piece' ∧ KF flip piece piece'

theorem ensureTri_good (G : Geo P) (pts : List P) (o : Bool) :
    GoodOrient flipTri (ensureTriangleOrientation G pts o) := by
  intro piece _
  obtain ⟨els, h1, h2, h3⟩ := reorientTriangles_some (G.triEqual pts) piece
  unfold ensureTriangleOrientation
  rw [h1]
  refine ⟨_, rfl, ?_⟩
  split
  · exact KF.trans flipTri_flipTri ⟨h2, h3⟩ KF.map
  · exact ⟨h2, h3⟩

theorem ensureLine_good (G : Geo P) (pts : List P) (o : Bool) :
    GoodOrient flipLine (ensureLineOrientation G pts o) := by
  intro piece hp
  obtain ⟨els, h1, h2, h3⟩ := reorientLines_some piece hp
  unfold ensureLineOrientation
  rw [h1]
  refine ⟨_, rfl, ?_⟩
  split
  · exact KF.trans flipLine_flipLine ⟨h2, h3⟩ KF.map
  · exact ⟨h2, h3⟩

theorem scatter_KF {flip : Elem → Elem} {s : List Elem} {c : List Nat} {piece piece' : List Elem}
    (hg : gather s c = some piece) (hk : KF flip piece piece') : KF flip s (scatter s c piece') := by
  refine ⟨by simp, fun n => ?_⟩
  rcases scatter_getElem?_cases s c piece' n with h | ⟨j, h1, h2, h3⟩
  · exact Or.inl h
  · have hgj := gather_getElem? hg j
    rw [h1] at hgj
    simp only [Option.bind_some] at hgj
    rw [← h2, ← hgj]
    exact hk.2 j

theorem orientFold_KF {flip : Elem → Elem} (hf : ∀ e, flip (flip e) = e)
    {orient : List Elem → Option (List Elem)} (ho : GoodOrient flip orient)
    (comps : List (List Nat)) (s : List Elem)
    (hc : ∀ c ∈ comps, c ≠ [] ∧ ∀ i ∈ c, i < s.length) :
    ∃ s', comps.foldlM (fun s c => do
      let piece ← gather s c
      let piece' ← orient piece
      return scatter s c piece') s = some s' ∧ KF flip s s' := by
  induction comps generalizing s with
  | nil => exact ⟨s, rfl, KF.refl _ _⟩
  | cons c comps ih =>
    obtain ⟨hc1, hc2⟩ := hc c (by simp)
    obtain ⟨piece, hp⟩ := gather_isSome hc2
    have hpne : piece ≠ [] := by
      intro h
      have := gather_length hp
      rw [h] at this
      simp at this
      exact hc1 (List.length_eq_zero_iff.1 this.symm)
    obtain ⟨piece', hp', hk⟩ := ho piece hpne
    have hs := scatter_KF hp hk
    obtain ⟨s', h1, h2⟩ := ih (scatter s c piece') (fun d hd => by
      have := hc d (by simp [hd])
      simpa using this)
    refine ⟨s', ?_, KF.trans hf hs h2⟩
    simp only [List.foldlM_cons, hp, hp', Option.bind_eq_bind, Option.bind_some]
    exact h1

theorem orientGroup_KF {flip : Elem → Elem} (hf : ∀ e, flip (flip e) = e)
    {orient : List Elem → Option (List Elem)} (ho : GoodOrient flip orient)
    (els : List Elem) (idx : List Nat) (hi : ∀ i ∈ idx, i < els.length) :
    ∃ els', orientGroup orient els idx = some els' ∧ KF flip els els' ∧
      ∀ k, k ∉ idx → els'[k]? = els[k]? := by
  unfold orientGroup
  obtain ⟨sub, hsub⟩ := gather_isSome hi
  rw [hsub]
  simp only [Option.bind_eq_bind, Option.bind_some]
  by_cases he : sub.isEmpty = true
  · rw [if_pos he]; exact ⟨els, rfl, KF.refl _ _, fun _ _ => rfl⟩
  · rw [if_neg he]
    obtain ⟨comps, hc1, hc2, hc3, _, _⟩ := connectedElements_spec sub
    rw [hc1]
    obtain ⟨sub', h1, h2⟩ := orientFold_KF hf ho comps sub (fun c hc => by
      refine ⟨hc2 c hc, fun i hi => ?_⟩
      have : i ∈ comps.flatten := List.mem_flatten.2 ⟨c, hc, hi⟩
      rw [hc3.mem_iff] at this
      simpa using this)
    simp only [Option.bind_eq_bind, Option.bind_some] at h1 ⊢
    rw [h1]
    refine ⟨_, rfl, ?_, ?_⟩
    · exact scatter_KF hsub h2
    · intro k hk
      exact scatter_getElem?_of_notMem _ _ _ _ hk

namespace Mesh

/-- Effect of re-orienting: only `lines`/`triangles` change, elements are kept or flipped,
elements outside the groups stay. -/
structure OrientRel (m M : Mesh P) : Prop where
  points : M.points = m.points
  cols : M.lineCols = m.lineCols
  physLines : M.physLines = m.physLines
  physTris : M.physTris = m.physTris
  lines : KF flipLine m.lines M.lines
  tris : KF flipTri m.triangles M.triangles
  linesOut : ∀ k, ¬ InGroup m.physLines k → M.lines[k]? = m.lines[k]?
  trisOut : ∀ k, ¬ InGroup m.physTris k → M.triangles[k]? = m.triangles[k]?

theorem OrientRel.refl (m : Mesh P) : OrientRel m m :=
  ⟨rfl, rfl, rfl, rfl, KF.refl _ _, KF.refl _ _, fun _ _ => rfl, fun _ _ => rfl⟩

theorem OrientRel.trans {a b c : Mesh P} (h1 : OrientRel a b) (h2 : OrientRel b c) :
    OrientRel a c :=
  ⟨h2.points.trans h1.points, h2.cols.trans h1.cols, h2.physLines.trans h1.physLines,
   h2.physTris.trans h1.physTris, KF.trans flipLine_flipLine h1.lines h2.lines,
   KF.trans flipTri_flipTri h1.tris h2.tris,
   fun k hk => (h2.linesOut k (by rw [h1.physLines]; exact hk)).trans (h1.linesOut k hk),
   fun k hk => (h2.trisOut k (by rw [h1.physTris]; exact hk)).trans (h1.trisOut k hk)⟩

theorem KF_mem {flip : Elem → Elem} {a b : List Elem} (h : KF flip a b) {e : Elem} (he : e ∈ b) :
    e ∈ a ∨ ∃ e' ∈ a, e = flip e' := by
  obtain ⟨n, hn⟩ := List.mem_iff_getElem?.1 he
  rcases h.2 n with h | h
  · left; rw [h] at hn; exact List.mem_of_getElem? hn
  · right
    rw [h, Option.map_eq_some_iff] at hn
    obtain ⟨e', he', rfl⟩ := hn
    exact ⟨e', List.mem_of_getElem? he', rfl⟩

theorem OrientRel.valid {m M : Mesh P} (h : OrientRel m M) (hv : Valid m) : Valid M := by
  refine ⟨by rw [h.cols]; exact hv.cols, ?_, ?_, ?_, ?_, ?_, ?_⟩
  · intro e he
    rw [h.cols, h.points]
    rcases KF_mem h.lines he with h1 | ⟨e', h1, rfl⟩
    · exact hv.lines e h1
    · have := hv.lines e' h1
      have hp := flipLine_perm e'
      exact ⟨hp.length_eq.trans this.1, fun i hi => this.2 i (hp.mem_iff.1 hi)⟩
  · intro e he
    rw [h.points]
    rcases KF_mem h.tris he with h1 | ⟨e', h1, rfl⟩
    · exact hv.tris e h1
    · have := hv.tris e' h1
      have hp := flipTri_perm e'
      exact ⟨hp.length_eq.trans this.1, fun i hi => this.2 i (hp.mem_iff.1 hi)⟩
  · rw [h.physLines, h.lines.1]; exact hv.groupLines
  · rw [h.physTris, h.tris.1]; exact hv.groupTris
  · rw [h.physLines]; exact hv.keysLines
  · rw [h.physTris]; exact hv.keysTris

theorem orientTris_spec (o : Bool) (name : String) (m : Mesh P) (hv : Valid m) :
    ∃ M, orientTris G o name m = some M ∧ OrientRel m M := by
  unfold orientTris
  cases hg : m.physTris.get name with
  | none => exact ⟨m, rfl, OrientRel.refl m⟩
  | some idx =>
    have hmem := Dict.mem_of_get hg
    obtain ⟨els, h1, h2, h3⟩ := orientGroup_KF flipTri_flipTri (ensureTri_good G m.points o)
      m.triangles idx (hv.groupTris _ hmem)
    simp only [h1, Option.bind_eq_bind, Option.bind_some]
    refine ⟨_, rfl, rfl, rfl, rfl, rfl, KF.refl _ _, h2, fun _ _ => rfl, ?_⟩
    intro k hk
    exact h3 k (fun hki => hk ⟨_, hmem, hki⟩)

theorem orientLines_spec (o : Bool) (name : String) (m : Mesh P) (hv : Valid m) :
    ∃ M, orientLines G o name m = some M ∧ OrientRel m M := by
  unfold orientLines
  cases hg : m.physLines.get name with
  | none => exact ⟨m, rfl, OrientRel.refl m⟩
  | some idx =>
    have hmem := Dict.mem_of_get hg
    obtain ⟨els, h1, h2, h3⟩ := orientGroup_KF flipLine_flipLine (ensureLine_good G m.points o)
      m.lines idx (hv.groupLines _ hmem)
    simp only [h1, Option.bind_eq_bind, Option.bind_some]
    refine ⟨_, rfl, rfl, rfl, rfl, rfl, h2, KF.refl _ _, ?_, fun _ _ => rfl⟩
    intro k hk
    exact h3 k (fun hki => hk ⟨_, hmem, hki⟩)

theorem ensureNormals_spec (o : Bool) (name : String) (m : Mesh P) (hv : Valid m) :
    ∃ M, ensureNormals G o name m = some M ∧ OrientRel m M := by
  unfold ensureNormals
  obtain ⟨M1, h1, h2⟩ := orientTris_spec (G := G) o name m hv
  obtain ⟨M2, h3, h4⟩ := orientLines_spec (G := G) o name M1 (h2.valid hv)
  exact ⟨M2, by simp [h1, h3], h2.trans h4⟩

theorem ensureAll_spec (o : Bool) (names : List String) (m : Mesh P) (hv : Valid m) :
    ∃ M, names.foldlM (fun m el => ensureNormals G o el m) m = some M ∧ OrientRel m M := by
  induction names generalizing m with
  | nil => exact ⟨m, rfl, OrientRel.refl m⟩
  | cons n names ih =>
    obtain ⟨M1, h1, h2⟩ := ensureNormals_spec (G := G) o n m hv
    obtain ⟨M2, h3, h4⟩ := ih M1 (h2.valid hv)
    exact ⟨M2, by rw [List.foldlM_cons, h1]; exact h3, h2.trans h4⟩

theorem assertions_of_valid {m : Mesh P} (hv : Valid m) : assertions m = true := by
  unfold assertions
  simp only [Bool.and_eq_true, List.all_eq_true, decide_eq_true_eq, Bool.or_eq_true, beq_iff_eq]
  refine ⟨⟨⟨⟨?_, ?_⟩, ?_⟩, ?_⟩, ?_⟩
  · exact fun e he => (hv.lines e he).2
  · exact fun e he => (hv.tris e he).2
  · exact hv.groupLines
  · exact hv.groupTris
  · rcases hv.cols with h | h
    · exact Or.inl (Or.inr h)
    · exact Or.inr h

/-! ### dedup -/

/-- Effect of de-duplication. -/
structure DedupRel (G : Geo P) (m M : Mesh P) : Prop where
  cols : M.lineCols = m.lineCols
  physLines : M.physLines = m.physLines
  physTris : M.physTris = m.physTris
  linesLen : M.lines.length = m.lines.length
  trisLen : M.triangles.length = m.triangles.length
  lines : ∀ (k : Nat) e, m.lines[k]? = some e → ∃ e', M.lines[k]? = some e' ∧
    SameCorners G m.points e M.points e'
  tris : ∀ (k : Nat) e, m.triangles[k]? = some e → ∃ e', M.triangles[k]? = some e' ∧
    SameCorners G m.points e M.points e'
  distinct : M.points.Pairwise (fun a b => G.eq a b = false)
  sorted : M.points.Pairwise (fun a b => G.le a b = true)
  lenLe : M.points.length ≤ m.points.length
  cover : ∀ p ∈ m.points, ∃ q ∈ M.points, G.eq q (G.trunc p) = true
  from' : ∀ q ∈ M.points, ∃ p ∈ m.points, q = G.trunc p

theorem mapElems_same (hG : G.Lawful) (pts : List P) (els : List Elem)
    (hv : ∀ e ∈ els, ∀ i ∈ e, i < pts.length) :
    ∃ els', mapElems (dedupMap G pts) els = some els' ∧ els'.length = els.length ∧
      ∀ (k : Nat) e, els[k]? = some e → ∃ e', els'[k]? = some e' ∧
        SameCorners G pts e (dedupPoints G pts) e' := by
  have h1 : ∀ e ∈ els, ∃ e', e.mapM (dedupMap G pts) = some e' := by
    intro e he
    apply mapM_isSome
    intro i hi
    have hlt := hv e he i hi
    obtain ⟨j, q, hj, _⟩ := dedupMap_spec hG pts (i := i) (p := pts[i]) (by simp [hlt])
    exact ⟨j, hj⟩
  obtain ⟨els', h2⟩ := mapM_isSome h1
  refine ⟨els', h2, mapM_length h2, ?_⟩
  intro k e hk
  have h3 := mapM_getElem? h2 k
  rw [hk] at h3
  obtain ⟨e', he'⟩ := h1 e (List.mem_of_getElem? hk)
  simp only [Option.bind_some, he'] at h3
  refine ⟨e', h3, (mapM_length he').symm, ?_⟩
  intro c i hc
  have hlt := hv e (List.mem_of_getElem? hk) i (List.mem_of_getElem? hc)
  obtain ⟨j, q, hj, hq, hqe⟩ := dedupMap_spec hG pts (i := i) (p := pts[i]) (by simp [hlt])
  have h4 := mapM_getElem? he' c
  rw [hc] at h4
  simp only [Option.bind_some, hj] at h4
  exact ⟨j, pts[i], q, h4, by simp [hlt], hq, hqe⟩

theorem dedup_spec (hG : G.Lawful) (m : Mesh P) (hv : Valid m) :
    ∃ M, dedup G m = some M ∧ DedupRel G m M := by
  by_cases hp : m.points = []
  · have hd : dedup G m = some m := by unfold dedup; simp [hp]
    refine ⟨m, hd, rfl, rfl, rfl, rfl, rfl, ?_, ?_, by simp [hp], by simp [hp], Nat.le_refl _, by simp [hp], by simp [hp]⟩
    · intro k e hk
      exfalso
      have h := hv.lines e (List.mem_of_getElem? hk)
      rw [hp] at h
      cases e with
      | nil => rcases hv.cols with h1 | h1 <;> simp [h1] at h
      | cons i e => exact absurd (h.2 i (by simp)) (by simp)
    · intro k e hk
      exfalso
      have h := hv.tris e (List.mem_of_getElem? hk)
      rw [hp] at h
      cases e with
      | nil => simp at h
      | cons i e => exact absurd (h.2 i (by simp)) (by simp)
  · rw [dedup_eq m hp]
    obtain ⟨tris, ht1, ht2, ht3⟩ := mapElems_same hG m.points m.triangles (fun e he => (hv.tris e he).2)
    obtain ⟨lines, hl1, hl2, hl3⟩ := mapElems_same hG m.points m.lines (fun e he => (hv.lines e he).2)
    rw [ht1, hl1]
    refine ⟨_, rfl, rfl, rfl, rfl, hl2, ht2, hl3, ht3, dedupPoints_pairwise hG _, dedupPoints_sorted hG _,
      dedupPoints_length_le _ hp, ?_, fun q hq => dedupPoints_mem _ hp hq⟩
    intro p hpm
    obtain ⟨i, hi⟩ := List.mem_iff_getElem?.1 hpm
    obtain ⟨j, q, _, hq, hqe⟩ := dedupMap_spec hG m.points hi
    exact ⟨q, List.mem_of_getElem? hq, hqe⟩

theorem DedupRel.valid {m M : Mesh P} (h : DedupRel G m M) (hv : Valid m) : Valid M := by
  have key : ∀ (a b : List Elem), b.length = a.length →
      (∀ (k : Nat) e, a[k]? = some e → ∃ e', b[k]? = some e' ∧ SameCorners G m.points e M.points e') →
      ∀ e' ∈ b, ∃ e ∈ a, e'.length = e.length ∧ ∀ i ∈ e', i < M.points.length := by
    intro a b hlen hab e' he'
    obtain ⟨k, hk⟩ := List.mem_iff_getElem?.1 he'
    have hkl : k < a.length := by rw [← hlen]; exact (List.getElem?_eq_some_iff.1 hk).1
    obtain ⟨e2, h2, h3⟩ := hab k a[k] (by simp [hkl])
    rw [hk] at h2
    cases h2
    refine ⟨a[k], by simp, h3.1.symm, ?_⟩
    intro i hi
    obtain ⟨c, hc⟩ := List.mem_iff_getElem?.1 hi
    have hcl : c < a[k].length := by rw [h3.1]; exact (List.getElem?_eq_some_iff.1 hc).1
    obtain ⟨j, p, q, hj, _, hq, _⟩ := h3.2 c a[k][c] (by simp [hcl])
    rw [hc] at hj
    cases hj
    exact (List.getElem?_eq_some_iff.1 hq).1
  refine ⟨by rw [h.cols]; exact hv.cols, ?_, ?_, ?_, ?_, ?_, ?_⟩
  · intro e he
    obtain ⟨e0, h0, h1, h2⟩ := key m.lines M.lines h.linesLen h.lines e he
    exact ⟨by rw [h1, h.cols]; exact (hv.lines e0 h0).1, h2⟩
  · intro e he
    obtain ⟨e0, h0, h1, h2⟩ := key m.triangles M.triangles h.trisLen h.tris e he
    exact ⟨by rw [h1]; exact (hv.tris e0 h0).1, h2⟩
  · rw [h.physLines, h.linesLen]; exact hv.groupLines
  · rw [h.physTris, h.trisLen]; exact hv.groupTris
  · rw [h.physLines]; exact hv.keysLines
  · rw [h.physTris]; exact hv.keysTris

/-! ### degenerate triangles -/

theorem triDegenerate_some (pts : List P) (e : Elem) (h : e.length = 3 ∧ ∀ i ∈ e, i < pts.length) :
    ∃ b, triDegenerate G pts e = some b ∧ (b = false ↔ NonDegenerate G pts e) := by
  obtain ⟨h1, h2⟩ := h
  match e, h1, h2 with
  | [a, b, c], _, h2 =>
    have ha : a < pts.length := h2 a (by simp)
    have hb : b < pts.length := h2 b (by simp)
    have hc : c < pts.length := h2 c (by simp)
    refine ⟨G.degenerate pts[a] pts[b] pts[c], by simp [triDegenerate, ha, hb, hc], ?_⟩
    constructor
    · intro h
      exact ⟨a, b, c, pts[a], pts[b], pts[c], rfl, by simp [ha], by simp [hb], by simp [hc], h⟩
    · rintro ⟨a', b', c', p, q, r, he, hp, hq, hr, hd⟩
      simp at he
      obtain ⟨rfl, rfl, rfl⟩ := he
      simp [ha] at hp; simp [hb] at hq; simp [hc] at hr
      subst hp hq hr; exact hd

theorem mapIndex_length (mask : List Bool) : (mapIndex mask).length = mask.length := by
  simp [mapIndex]

theorem mapIndex_getElem? {mask : List Bool} {i : Nat} (hi : mask[i]? = some false) :
    (mapIndex mask)[i]? = some (((mask.map (!·)).take i).count true) := by
  have hl := (List.getElem?_eq_some_iff.1 hi).1
  unfold mapIndex
  rw [List.getElem?_zipWith, cumsum_getElem? _ _ hl, List.getElem?_range hl]
  simp only [Option.some.injEq]
  rw [count_take_succ hi, ← List.map_take, count_map_not]
  have := count_true_add_count_false (mask.take i)
  simp at this ⊢; omega

theorem remapGroup_spec (mask : List Bool) (v : List Nat) (hv : ∀ i ∈ v, i < mask.length) :
    remapGroup mask v = some ((v.filter (fun i => mask[i]? == some false)).map
      (fun i => ((mask.map (!·)).take i).count true)) := by
  unfold remapGroup
  obtain ⟨flags, hf⟩ := gather_isSome hv
  rw [hf]
  simp only [Option.bind_eq_bind, Option.bind_some]
  have hfl : flags.map (!·) = v.map (fun i => mask[i]? == some false) := by
    rw [gather_eq_some_iff] at hf
    apply List.ext_getElem?
    intro n
    have h2 : (v.map (fun i => mask[i]?))[n]? = (flags.map some)[n]? := by rw [hf]
    rw [List.getElem?_map, List.getElem?_map] at h2
    rw [List.getElem?_map, List.getElem?_map]
    cases h3 : v[n]? with
    | none => rw [h3] at h2; cases h4 : flags[n]? <;> simp_all
    | some i =>
      rw [h3] at h2
      cases h4 : flags[n]? with
      | none => rw [h4] at h2; simp at h2
      | some b =>
        rw [h4] at h2
        simp only [Option.map_some, Option.some.injEq] at h2
        simp only [Option.map_some, h2]
        cases b <;> rfl
  rw [hfl, compress_map_eq_filter]
  rw [gather_eq_some_iff, List.map_map]
  apply List.map_congr_left
  intro i hi
  have := (List.mem_filter.1 hi).2
  simp only [beq_iff_eq] at this
  rw [mapIndex_getElem? this]; rfl

/-- Effect of removing degenerate triangles. -/
structure RemoveRel (G : Geo P) (m M : Mesh P) (keep : Elem → Bool) : Prop where
  points : M.points = m.points
  cols : M.lineCols = m.lineCols
  lines : M.lines = m.lines
  physLines : M.physLines = m.physLines
  keepIff : ∀ e ∈ m.triangles, keep e = true ↔ NonDegenerate G m.points e
  tris : M.triangles = m.triangles.filter keep
  groups : M.physTris = m.physTris.map (fun kv => (kv.1,
    (kv.2.filter (fun i => (m.triangles[i]?.map keep).getD false)).map
      (fun i => ((m.triangles.take i).filter keep).length)))

theorem removeDegenerate_spec (m : Mesh P) (hv : Valid m) :
    ∃ M keep, removeDegenerate G m = some M ∧ RemoveRel G m M keep := by
  have hm : ∀ e ∈ m.triangles, ∃ b, triDegenerate G m.points e = some b := by
    intro e he
    obtain ⟨b, hb, _⟩ := triDegenerate_some (G := G) m.points e (hv.tris e he)
    exact ⟨b, hb⟩
  obtain ⟨mask, hmask⟩ := mapM_isSome hm
  let keep : Elem → Bool := fun e => triDegenerate G m.points e == some false
  have hmk : mask.map (!·) = m.triangles.map keep := by
    apply List.ext_getElem?
    intro n
    have h2 := mapM_getElem? hmask n
    rw [List.getElem?_map, List.getElem?_map, h2]
    cases h3 : m.triangles[n]? with
    | none => rfl
    | some e =>
      obtain ⟨b, hb⟩ := hm e (List.mem_of_getElem? h3)
      simp only [Option.bind_some, hb, Option.map_some, keep]
      cases b <;> rfl
  have hlen := mapM_length hmask
  have hgr : remapGroups mask m.physTris = some (m.physTris.map (fun kv => (kv.1,
    (kv.2.filter (fun i => (m.triangles[i]?.map keep).getD false)).map
      (fun i => ((m.triangles.take i).filter keep).length)))) := by
    unfold remapGroups
    rw [mapM_eq_some_iff, List.map_map]
    apply List.map_congr_left
    intro kv hkv
    have hlt : ∀ i ∈ kv.2, i < mask.length := fun i hi => by
      rw [hlen]; exact hv.groupTris kv hkv i hi
    rw [remapGroup_spec mask kv.2 hlt]
    simp only [Option.bind_eq_bind, Option.bind_some, Function.comp]
    have h1 : ∀ i ∈ kv.2, (mask[i]? == some false) = (m.triangles[i]?.map keep).getD false := by
      intro i hi
      have h2 : (mask.map (!·))[i]? = (m.triangles.map keep)[i]? := by rw [hmk]
      rw [List.getElem?_map, List.getElem?_map] at h2
      rw [← h2]
      have h3 : mask[i]? = some (mask[i]'(hlt i hi)) := by simp
      rw [h3]
      cases mask[i]'(hlt i hi) <;> rfl
    have h4 : ∀ i, ((mask.map (!·)).take i).count true = ((m.triangles.take i).filter keep).length := by
      intro i
      rw [hmk, ← List.map_take, List.count_eq_length_filter, List.filter_map, List.length_map]
      congr 1
      apply List.filter_congr
      intro e _
      simp
    rw [List.filter_congr h1]
    congr 2
    apply List.map_congr_left
    intro i _
    exact h4 i
  refine ⟨{ m with
      triangles := compress (mask.map (!·)) m.triangles
      physTris := m.physTris.map (fun kv => (kv.1,
        (kv.2.filter (fun i => (m.triangles[i]?.map keep).getD false)).map
          (fun i => ((m.triangles.take i).filter keep).length))) }, keep, ?_, rfl, rfl, rfl, rfl, ?_, ?_, ?_⟩
  · unfold removeDegenerate degenerateMask
    simp only [hmask, hgr, Option.bind_eq_bind, Option.bind_some]
    rfl
  · intro e he
    obtain ⟨b, hb, hbi⟩ := triDegenerate_some (G := G) m.points e (hv.tris e he)
    rw [← hbi]
    simp [keep, hb]
  · simp only
    rw [hmk, compress_map_eq_filter]
  · rfl

theorem filter_take_length_lt {α : Type _} (l : List α) (p : α → Bool) (i : Nat) (a : α)
    (hi : l[i]? = some a) (ha : p a = true) :
    ((l.take i).filter p).length < (l.filter p).length := by
  have h := List.take_append_drop i l
  have hd : l.drop i = a :: l.drop (i+1) := by
    obtain ⟨hl, rfl⟩ := List.getElem?_eq_some_iff.1 hi
    exact List.drop_eq_getElem_cons hl
  conv => rhs; rw [← h, hd]
  rw [List.filter_append, List.filter_cons_of_pos ha]
  simp

/-- rank lemma for filter -/
theorem filter_rank {α : Type _} (l : List α) (p : α → Bool) (i : Nat) (a : α)
    (hi : l[i]? = some a) (ha : p a = true) :
    (l.filter p)[((l.take i).filter p).length]? = some a := by
  have h := List.take_append_drop i l
  have hd : l.drop i = a :: l.drop (i+1) := by
    obtain ⟨hl, rfl⟩ := List.getElem?_eq_some_iff.1 hi
    exact List.drop_eq_getElem_cons hl
  conv => lhs; arg 1; rw [← h, hd]
  rw [List.filter_append, List.filter_cons_of_pos ha]
  simp

theorem RemoveRel.valid {m M : Mesh P} {keep : Elem → Bool} (h : RemoveRel G m M keep)
    (hv : Valid m) : Valid M := by
  refine ⟨by rw [h.cols]; exact hv.cols, ?_, ?_, ?_, ?_, ?_, ?_⟩
  · rw [h.lines, h.cols, h.points]; exact hv.lines
  · rw [h.tris, h.points]
    exact fun e he => hv.tris e (List.mem_filter.1 he).1
  · rw [h.physLines, h.lines]; exact hv.groupLines
  · rw [h.groups, h.tris]
    intro kv hkv i hi
    obtain ⟨kv0, hkv0, rfl⟩ := List.mem_map.1 hkv
    obtain ⟨j, hj, rfl⟩ := List.mem_map.1 hi
    have := (List.mem_filter.1 hj).2
    cases h3 : m.triangles[j]? with
    | none => rw [h3] at this; simp at this
    | some e =>
      rw [h3] at this
      exact filter_take_length_lt _ _ _ e h3 (by simpa using this)
  · rw [h.physLines]; exact hv.keysLines
  · rw [h.groups, List.map_map]
    have : ((fun x : String × List Nat => x.1) ∘ fun kv : String × List Nat => (kv.1,
        (kv.2.filter (fun i => (m.triangles[i]?.map keep).getD false)).map
        (fun i => ((m.triangles.take i).filter keep).length))) = (·.1) := rfl
    rw [this]; exact hv.keysTris

theorem RemoveRel.tris_eq {m M : Mesh P} {keep : Elem → Bool} (r : RemoveRel G m M keep)
    (hn : ∀ e ∈ m.triangles, NonDegenerate G m.points e) : M.triangles = m.triangles := by
  rw [r.tris]; exact List.filter_eq_self.2 fun e he => (r.keepIff e he).2 (hn e he)

theorem RemoveRel.groups_eq {m M : Mesh P} {keep : Elem → Bool} (r : RemoveRel G m M keep)
    (hv : Valid m) (hn : ∀ e ∈ m.triangles, NonDegenerate G m.points e) :
    M.physTris = m.physTris := by
  have hk : ∀ e ∈ m.triangles, keep e = true := fun e he => (r.keepIff e he).2 (hn e he)
  rw [r.groups]
  conv => rhs; rw [← List.map_id m.physTris]
  apply List.map_congr_left
  rintro ⟨k, v⟩ hkv
  simp only [id, Prod.mk.injEq, true_and]
  have hvv := hv.groupTris _ hkv
  have h3 : v.filter (fun i => (m.triangles[i]?.map keep).getD false) = v := by
    apply List.filter_eq_self.2
    intro i hi
    have := hvv i hi
    rw [List.getElem?_eq_getElem this]
    simp [hk]
  rw [h3]
  conv => rhs; rw [← List.map_id v]
  apply List.map_congr_left
  intro i hi
  have hlt := hvv i hi
  rw [List.filter_eq_self.2 (fun e he => hk e (List.mem_of_mem_take he))]
  simp only [List.length_take, id]
  omega

/-- The constructor as a composition of its phases. -/
theorem build_phases (hG : G.Lawful) (m : Mesh P) (hv : Valid m) (ensure : Bool) :
    ∃ m1 m2 M keep, RemoveRel G m m1 keep ∧ DedupRel G m1 m2 ∧ OrientRel m2 M ∧
      (ensure = false → M = m2) ∧ build G m ensure = some M ∧ Valid M := by
  obtain ⟨m1, keep, h1, r1⟩ := removeDegenerate_spec (G := G) m hv
  have hv1 := r1.valid hv
  obtain ⟨m2, h2, r2⟩ := dedup_spec hG m1 hv1
  have hv2 := r2.valid hv1
  cases ensure with
  | true =>
    obtain ⟨M, h3, r3⟩ := ensureAll_spec (G := G) true m2.electrodes m2 hv2
    have hvM := r3.valid hv2
    refine ⟨m1, m2, M, keep, r1, r2, r3, by simp, ?_, hvM⟩
    unfold build
    simp only [h1, h2, Option.bind_eq_bind, Option.bind_some, if_true, h3, assertions_of_valid hvM]
  | false =>
    refine ⟨m1, m2, m2, keep, r1, r2, OrientRel.refl _, fun _ => rfl, ?_, hv2⟩
    unfold build
    simp only [h1, h2, Option.bind_eq_bind, Option.bind_some, Bool.false_eq_true, if_false,
      assertions_of_valid hv2, if_true]

end Mesh
end Traceon
