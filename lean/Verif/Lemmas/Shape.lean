import Verif.Lemmas.Build
import Verif.Spec.Shape

/-! The constructor in terms of corner coordinates. -/
namespace Traceon
open Spec
variable {P : Type} {G : Geo P}

theorem flipLine_eq (e : Elem) : flipLine e = revLine e := by
  match e with
  | [] => rfl
  | [_] => rfl
  | [_, _] => rfl
  | [_, _, _] => rfl
  | [_, _, _, _] => rfl
  | _ :: _ :: _ :: _ :: _ :: _ => rfl

theorem flipTri_eq (e : Elem) : flipTri e = revTri e := by
  match e with
  | [] => rfl
  | [_] => rfl
  | [_, _] => rfl
  | [_, _, _] => rfl
  | _ :: _ :: _ :: _ :: _ => rfl

theorem coords_eq_map {pts : List P} {e : List Nat} (h : ∀ i ∈ e, i < pts.length) :
    (coords pts e).map some = e.map (fun i => pts[i]?) := by
  induction e with
  | nil => rfl
  | cons i e ih =>
    have hi := h i (by simp)
    have : pts[i]? = some pts[i] := by simp [hi]
    simp only [coords, List.filterMap_cons, this, List.map_cons] at ih ⊢
    rw [ih (fun j hj => h j (by simp [hj]))]

theorem coords_length {pts : List P} {e : List Nat} (h : ∀ i ∈ e, i < pts.length) :
    (coords pts e).length = e.length := by
  have := congrArg List.length (coords_eq_map h)
  simpa using this

theorem coords_getElem? {pts : List P} {e : List Nat} (h : ∀ i ∈ e, i < pts.length) (c : Nat) :
    (coords pts e)[c]? = e[c]?.bind (fun i => pts[i]?) := by
  have h2 : ((coords pts e).map some)[c]? = (e.map (fun i => pts[i]?))[c]? := by
    rw [coords_eq_map h]
  rw [List.getElem?_map, List.getElem?_map] at h2
  cases h3 : e[c]? with
  | none => rw [h3] at h2; cases h4 : (coords pts e)[c]? <;> simp_all
  | some i => rw [h3] at h2; cases h4 : (coords pts e)[c]? <;> simp_all

theorem coords_revLine {pts : List P} {e : List Nat} (h : ∀ i ∈ e, i < pts.length) :
    coords pts (revLine e) = revLine (coords pts e) := by
  match e, h with
  | [], _ => rfl
  | [a], h =>
    have ha := h a (by simp)
    simp [coords, revLine, ha]
  | [a, b], h =>
    have ha := h a (by simp)
    have hb := h b (by simp)
    simp [coords, revLine, ha, hb]
  | [a, b, c], h =>
    have ha := h a (by simp)
    have hb := h b (by simp)
    have hc := h c (by simp)
    simp [coords, revLine, ha, hb, hc]
  | [a, b, c, d], h =>
    have ha := h a (by simp)
    have hb := h b (by simp)
    have hc := h c (by simp)
    have hd := h d (by simp)
    simp [coords, revLine, ha, hb, hc, hd]
  | a :: b :: c :: d :: x :: l, h =>
    have ha := h a (by simp)
    have hb := h b (by simp)
    have hc := h c (by simp)
    have hd := h d (by simp)
    have hx := h x (by simp)
    simp [coords, revLine, ha, hb, hc, hd, hx]

theorem coords_revTri {pts : List P} {e : List Nat} (h : ∀ i ∈ e, i < pts.length) :
    coords pts (revTri e) = revTri (coords pts e) := by
  match e, h with
  | [], _ => rfl
  | [a], h =>
    have ha := h a (by simp)
    simp [coords, revTri, ha]
  | [a, b], h =>
    have ha := h a (by simp)
    have hb := h b (by simp)
    simp [coords, revTri, ha, hb]
  | [a, b, c], h =>
    have ha := h a (by simp)
    have hb := h b (by simp)
    have hc := h c (by simp)
    simp [coords, revTri, ha, hb, hc]
  | a :: b :: c :: d :: l, h =>
    have ha := h a (by simp)
    have hb := h b (by simp)
    have hc := h c (by simp)
    have hd := h d (by simp)
    simp [coords, revTri, ha, hb, hc, hd]

theorem Spec.Matches.getElem? {α β : Type _} {R : α → β → Prop} {as : List α} {bs : List β}
    (h : Matches R as bs) {k : Nat} {a : α} (ha : as[k]? = some a) :
    ∃ b, bs[k]? = some b ∧ R a b := by
  have hk : k < bs.length := by rw [← h.1]; exact (List.getElem?_eq_some_iff.1 ha).1
  exact ⟨bs[k], by simp [hk], h.2 k a _ ha (by simp [hk])⟩

theorem matches_intro {α β : Type _} {R : α → β → Prop} {as : List α} {bs : List β}
    (hl : as.length = bs.length) (h : ∀ (k : Nat) a, as[k]? = some a → ∃ b, bs[k]? = some b ∧ R a b) :
    Matches R as bs := by
  refine ⟨hl, fun k a b ha hb => ?_⟩
  obtain ⟨b', hb', hR⟩ := h k a ha
  rw [hb] at hb'; cases hb'; exact hR

theorem Spec.Matches.nil {α β : Type _} {R : α → β → Prop} : Matches R ([] : List α) ([] : List β) :=
  ⟨rfl, by simp⟩

theorem Spec.Matches.cons {α β : Type _} {R : α → β → Prop} {a : α} {b : β} {as : List α} {bs : List β}
    (h : R a b) (h2 : Matches R as bs) : Matches R (a :: as) (b :: bs) := by
  refine ⟨by simp [h2.1], fun k x y hx hy => ?_⟩
  cases k with
  | zero => simp at hx hy; subst hx hy; exact h
  | succ k => exact h2.2 k x y (by simpa using hx) (by simpa using hy)

theorem Spec.Matches.head {α β : Type _} {R : α → β → Prop} {a : α} {b : β} {as : List α} {bs : List β}
    (h : Matches R (a :: as) (b :: bs)) : R a b := h.2 0 a b (by simp) (by simp)

theorem Spec.Matches.tail {α β : Type _} {R : α → β → Prop} {a : α} {b : β} {as : List α} {bs : List β}
    (h : Matches R (a :: as) (b :: bs)) : Matches R as bs :=
  ⟨by simpa using h.1, fun k x y hx hy => h.2 (k+1) x y (by simpa using hx) (by simpa using hy)⟩

theorem Spec.Matches.append {α β : Type _} {R : α → β → Prop} {as as' : List α} {bs bs' : List β}
    (h : Matches R as bs) (h2 : Matches R as' bs') : Matches R (as ++ as') (bs ++ bs') := by
  induction as generalizing bs with
  | nil =>
    have : bs = [] := List.length_eq_zero_iff.1 h.1.symm
    subst this; exact h2
  | cons a as ih =>
    cases bs with
    | nil => exact absurd h.1 (by simp)
    | cons b bs => exact Matches.cons h.head (ih h.tail)

theorem Spec.Matches.imp {α β : Type _} {R S : α → β → Prop} (hRS : ∀ a b, R a b → S a b) {as : List α}
    {bs : List β} (h : Matches R as bs) : Matches S as bs :=
  ⟨h.1, fun k a b ha hb => hRS a b (h.2 k a b ha hb)⟩

theorem Spec.Matches.revLine {α β : Type _} {R : α → β → Prop} {as : List α} {bs : List β}
    (h : Matches R as bs) : Matches R (revLine as) (revLine bs) := by
  match as, bs, h with
  | [], [], h => exact h
  | [_], [_], h => exact h
  | [a, b], [a', b'], h =>
    exact Matches.cons h.tail.head (Matches.cons h.head Matches.nil)
  | [_, _, _], [_, _, _], h => exact h
  | [a, b, c, d], [a', b', c', d'], h =>
    exact Matches.cons h.tail.head (Matches.cons h.head
      (Matches.cons h.tail.tail.tail.head (Matches.cons h.tail.tail.head Matches.nil)))
  | _ :: _ :: _ :: _ :: _ :: _, _ :: _ :: _ :: _ :: _ :: _, h => exact h
  | [], _ :: _, h => exact absurd h.1 (by simp)
  | _ :: _, [], h => exact absurd h.1 (by simp)
  | [_], _ :: _ :: _, h => exact absurd h.1 (by simp)
  | _ :: _ :: _, [_], h => exact absurd h.1 (by simp)
  | [_, _], _ :: _ :: _ :: _, h => exact absurd h.1 (by simp)
  | _ :: _ :: _ :: _, [_, _], h => exact absurd h.1 (by simp)
  | [_, _, _], _ :: _ :: _ :: _ :: _, h => exact absurd h.1 (by simp)
  | _ :: _ :: _ :: _ :: _, [_, _, _], h => exact absurd h.1 (by simp)
  | [_, _, _, _], _ :: _ :: _ :: _ :: _ :: _, h => exact absurd h.1 (by simp)
  | _ :: _ :: _ :: _ :: _ :: _, [_, _, _, _], h => exact absurd h.1 (by simp)

theorem Spec.Matches.revTri {α β : Type _} {R : α → β → Prop} {as : List α} {bs : List β}
    (h : Matches R as bs) : Matches R (revTri as) (revTri bs) := by
  match as, bs, h with
  | [], [], h => exact h
  | [_], [_], h => exact h
  | [_, _], [_, _], h => exact h
  | [a, b, c], [a', b', c'], h =>
    exact Matches.cons h.head (Matches.cons h.tail.tail.head (Matches.cons h.tail.head Matches.nil))
  | _ :: _ :: _ :: _ :: _, _ :: _ :: _ :: _ :: _, h => exact h
  | [], _ :: _, h => exact absurd h.1 (by simp)
  | _ :: _, [], h => exact absurd h.1 (by simp)
  | [_], _ :: _ :: _, h => exact absurd h.1 (by simp)
  | _ :: _ :: _, [_], h => exact absurd h.1 (by simp)
  | [_, _], _ :: _ :: _ :: _, h => exact absurd h.1 (by simp)
  | _ :: _ :: _ :: _, [_, _], h => exact absurd h.1 (by simp)
  | [_, _, _], _ :: _ :: _ :: _ :: _, h => exact absurd h.1 (by simp)
  | _ :: _ :: _ :: _ :: _, [_, _, _], h => exact absurd h.1 (by simp)

/-- Picking entries by index commutes with entry-wise correspondence. -/
theorem Spec.Matches.filterMap_index {α β : Type _} {R : α → β → Prop} {as : List α} {bs : List β}
    (h : Matches R as bs) (g : List Nat) :
    Matches R (g.filterMap (fun i => as[i]?)) (g.filterMap (fun i => bs[i]?)) := by
  induction g with
  | nil => exact Matches.nil
  | cons i g ih =>
    simp only [List.filterMap_cons]
    cases ha : as[i]? with
    | none =>
      have : bs[i]? = none := by
        rw [List.getElem?_eq_none_iff] at *; rw [← h.1]; exact ha
      rw [this]; exact ih
    | some a =>
      obtain ⟨b, hb, hR⟩ := Matches.getElem? h ha
      rw [hb]
      exact Matches.cons hR ih

namespace Mesh

theorem sameShape_of_sameCorners {pts pts' : List P} {e e' : List Nat}
    (hv : ∀ i ∈ e, i < pts.length) (hv' : ∀ i ∈ e', i < pts'.length)
    (h : SameCorners G pts e pts' e') : SameShape G (coords pts e) (coords pts' e') := by
  apply matches_intro
  · rw [coords_length hv, coords_length hv']; exact h.1
  · intro k p hp
    rw [coords_getElem? hv] at hp
    cases he : e[k]? with
    | none => rw [he] at hp; simp at hp
    | some i =>
      rw [he] at hp
      obtain ⟨j, p', q, h1, h2, h3, h4⟩ := h.2 k i he
      simp only [Option.bind_some] at hp
      rw [hp] at h2; cases h2
      exact ⟨q, by rw [coords_getElem? hv', h1]; exact h3, h4⟩

theorem nonDegShape_iff {pts : List P} {e : List Nat} (h : e.length = 3 ∧ ∀ i ∈ e, i < pts.length) :
    nonDegShape G (coords pts e) = true ↔ NonDegenerate G pts e := by
  obtain ⟨b, _, _⟩ := triDegenerate_some (G := G) pts e h
  obtain ⟨h1, h2⟩ := h
  match e, h1, h2 with
  | [a, b, c], _, h2 =>
    have ha : a < pts.length := h2 a (by simp)
    have hb : b < pts.length := h2 b (by simp)
    have hc : c < pts.length := h2 c (by simp)
    have hco : coords pts [a, b, c] = [pts[a], pts[b], pts[c]] := by simp [coords, ha, hb, hc]
    rw [hco]
    simp only [nonDegShape]
    constructor
    · intro h
      exact ⟨a, b, c, pts[a], pts[b], pts[c], rfl, by simp [ha], by simp [hb], by simp [hc], by simpa using h⟩
    · rintro ⟨a', b', c', p, q, r, he, hp, hq, hr, hd⟩
      simp at he
      obtain ⟨rfl, rfl, rfl⟩ := he
      simp [ha] at hp; simp [hb] at hq; simp [hc] at hr
      subst hp hq hr; simpa using hd

theorem filterMap_filter_rank {α : Type _} (l : List α) (p : α → Bool) (g : List Nat) :
    ((g.filter (fun i => (l[i]?.map p).getD false)).map
      (fun i => ((l.take i).filter p).length)).filterMap (fun i => (l.filter p)[i]?)
    = (g.filterMap (fun i => l[i]?)).filter p := by
  induction g with
  | nil => rfl
  | cons i g ih =>
    cases h : l[i]? with
    | none =>
      simp only [h, Option.map_none, Option.getD_none, List.filterMap_cons, List.filter_cons,
        Bool.false_eq_true, if_false]
      exact ih
    | some a =>
      cases hp : p a with
      | true =>
        simp only [h, hp, Option.map_some, Option.getD_some, List.filterMap_cons, List.filter_cons,
          if_true, List.map_cons, filter_rank l p i a h hp]
        rw [ih]
      | false =>
        simp only [h, hp, Option.map_some, Option.getD_some, List.filterMap_cons, List.filter_cons,
          Bool.false_eq_true, if_false]
        exact ih

/-- Everything known about the result `M` of the constructor on input `m`. -/
structure BuildRel (G : Geo P) (m M : Mesh P) (ensure : Bool) : Prop where
  valid : Valid M
  cols : M.lineCols = m.lineCols
  lines : Matches (SameLine G) (lineShapes m) (lineShapes M)
  tris : Matches (SameTri G) ((triShapes m).filter (nonDegShape G)) (triShapes M)
  linesExact : ensure = false → Matches (SameShape G) (lineShapes m) (lineShapes M)
  trisExact : ensure = false → Matches (SameShape G) ((triShapes m).filter (nonDegShape G)) (triShapes M)
  linesOut : ∀ (k : Nat) a b, ¬ InGroup M.physLines k → (lineShapes m)[k]? = some a →
    (lineShapes M)[k]? = some b → SameShape G a b
  trisOut : ∀ (k : Nat) a b, ¬ InGroup M.physTris k →
    ((triShapes m).filter (nonDegShape G))[k]? = some a → (triShapes M)[k]? = some b → SameShape G a b
  lineGroups : ∀ n, MatchesGroup (SameLine G) (lineGroup m n) (lineGroup M n)
  triGroups : ∀ n, MatchesGroup (SameTri G) ((triGroup m n).map (·.filter (nonDegShape G))) (triGroup M n)
  physLines : M.physLines = m.physLines
  physTris : (∀ e ∈ m.triangles, NonDegenerate G m.points e) → M.physTris = m.physTris
  distinct : M.points.Pairwise (fun a b => G.eq a b = false)
  sorted : M.points.Pairwise (fun a b => G.le a b = true)
  lenLe : M.points.length ≤ m.points.length
  cover : ∀ p ∈ m.points, ∃ q ∈ M.points, G.eq q (G.trunc p) = true
  from' : ∀ q ∈ M.points, ∃ p ∈ m.points, q = G.trunc p

/-- **The constructor in terms of shapes.** -/
theorem build_shapes (hG : G.Lawful) (m : Mesh P) (hv : Valid m) (ensure : Bool) :
    ∃ M, build G m ensure = some M ∧ BuildRel G m M ensure := by
  obtain ⟨m1, m2, M, keep, r1, r2, r3, hen, hb, hvM⟩ := build_phases hG m hv ensure
  have hv1 := r1.valid hv
  have hv2 := r2.valid hv1
  -- dedup phase, shapes
  have hl2 : Matches (SameShape G) (lineShapes m) (lineShapes m2) := by
    apply matches_intro
    · simp [lineShapes, r2.linesLen, r1.lines]
    · intro k s hs
      simp only [lineShapes, List.getElem?_map, Option.map_eq_some_iff] at hs ⊢
      obtain ⟨e, he, rfl⟩ := hs
      obtain ⟨e', he', hc⟩ := r2.lines k e (by rw [r1.lines]; exact he)
      refine ⟨coords m2.points e', ⟨e', he', rfl⟩, ?_⟩
      rw [r1.points] at hc
      exact sameShape_of_sameCorners (hv.lines e (List.mem_of_getElem? he)).2
        (hv2.lines e' (List.mem_of_getElem? he')).2 hc
  have hts : (triShapes m).filter (nonDegShape G) = triShapes m1 := by
    unfold triShapes
    rw [r1.tris, r1.points, List.filter_map]
    congr 1
    apply List.filter_congr
    intro e he
    have h1 := r1.keepIff e he
    have h2 := nonDegShape_iff (G := G) (hv.tris e he)
    rw [Bool.eq_iff_iff, Function.comp]
    exact h2.trans h1.symm
  have ht2 : Matches (SameShape G) ((triShapes m).filter (nonDegShape G)) (triShapes m2) := by
    rw [hts]
    apply matches_intro
    · simp [triShapes, r2.trisLen]
    · intro k s hs
      simp only [triShapes, List.getElem?_map, Option.map_eq_some_iff] at hs ⊢
      obtain ⟨e, he, rfl⟩ := hs
      obtain ⟨e', he', hc⟩ := r2.tris k e he
      refine ⟨coords m2.points e', ⟨e', he', rfl⟩, ?_⟩
      exact sameShape_of_sameCorners (hv1.tris e (List.mem_of_getElem? he)).2
        (hv2.tris e' (List.mem_of_getElem? he')).2 hc
  -- orientation phase
  have hlM : Matches (SameLine G) (lineShapes m) (lineShapes M) := by
    apply matches_intro
    · rw [hl2.1]; simp [lineShapes, r3.lines.1]
    · intro k s hs
      obtain ⟨t, ht, hst⟩ := Matches.getElem? hl2 hs
      simp only [lineShapes, List.getElem?_map, Option.map_eq_some_iff] at ht ⊢
      obtain ⟨e, he, rfl⟩ := ht
      rw [r3.points]
      rcases r3.lines.2 k with h | h
      · exact ⟨coords m2.points e, ⟨e, by rw [h]; exact he, rfl⟩, Or.inl hst⟩
      · refine ⟨coords m2.points (flipLine e), ⟨flipLine e, by rw [h, he]; rfl, rfl⟩, Or.inr ?_⟩
        rw [flipLine_eq, coords_revLine (hv2.lines e (List.mem_of_getElem? he)).2]
        exact Matches.revLine hst
  have htM : Matches (SameTri G) ((triShapes m).filter (nonDegShape G)) (triShapes M) := by
    apply matches_intro
    · rw [ht2.1]; simp [triShapes, r3.tris.1]
    · intro k s hs
      obtain ⟨t, ht, hst⟩ := Matches.getElem? ht2 hs
      simp only [triShapes, List.getElem?_map, Option.map_eq_some_iff] at ht ⊢
      obtain ⟨e, he, rfl⟩ := ht
      rw [r3.points]
      rcases r3.tris.2 k with h | h
      · exact ⟨coords m2.points e, ⟨e, by rw [h]; exact he, rfl⟩, Or.inl hst⟩
      · refine ⟨coords m2.points (flipTri e), ⟨flipTri e, by rw [h, he]; rfl, rfl⟩, Or.inr ?_⟩
        rw [flipTri_eq, coords_revTri (hv2.tris e (List.mem_of_getElem? he)).2]
        exact Matches.revTri hst
  refine ⟨M, hb, hvM, by rw [r3.cols, r2.cols, r1.cols], hlM, htM, ?_, ?_, ?_, ?_, ?_, ?_, ?_, ?_, ?_, ?_, ?_, ?_, ?_⟩
  · intro h; rw [hen h]; exact hl2
  · intro h; rw [hen h]; exact ht2
  · intro k a b hk ha hb
    rw [r3.physLines] at hk
    have h1 := r3.linesOut k hk
    obtain ⟨t, ht, hst⟩ := Matches.getElem? hl2 ha
    have h2 : (lineShapes M)[k]? = (lineShapes m2)[k]? := by
      simp only [lineShapes, List.getElem?_map, h1, r3.points]
    rw [h2, ht] at hb; cases hb; exact hst
  · intro k a b hk ha hb
    rw [r3.physTris] at hk
    have h1 := r3.trisOut k hk
    obtain ⟨t, ht, hst⟩ := Matches.getElem? ht2 ha
    have h2 : (triShapes M)[k]? = (triShapes m2)[k]? := by
      simp only [triShapes, List.getElem?_map, h1, r3.points]
    rw [h2, ht] at hb; cases hb; exact hst
  · intro n
    unfold lineGroup
    rw [r3.physLines, r2.physLines, r1.physLines]
    cases m.physLines.get n with
    | none => trivial
    | some g => exact Matches.filterMap_index hlM g
  · intro n
    unfold triGroup
    rw [r3.physTris, r2.physTris, r1.groups, Dict.get_map m.physTris (fun v =>
      (v.filter (fun i => (m.triangles[i]?.map keep).getD false)).map
      (fun i => ((m.triangles.take i).filter keep).length))]
    cases m.physTris.get n with
    | none => trivial
    | some g =>
      simp only [Option.map_some, MatchesGroup]
      have h1 := Matches.filterMap_index htM
        ((g.filter (fun i => (m.triangles[i]?.map keep).getD false)).map
          (fun i => ((m.triangles.take i).filter keep).length))
      have h2 := filterMap_filter_rank (triShapes m) (nonDegShape G) g
      have h3 : (g.filter (fun i => (m.triangles[i]?.map keep).getD false)).map
          (fun i => ((m.triangles.take i).filter keep).length) =
          (g.filter (fun i => ((triShapes m)[i]?.map (nonDegShape G)).getD false)).map
          (fun i => (((triShapes m).take i).filter (nonDegShape G)).length) := by
        have hk : ∀ e ∈ m.triangles, keep e = nonDegShape G (coords m.points e) := by
          intro e he
          rw [Bool.eq_iff_iff]
          exact (r1.keepIff e he).trans (nonDegShape_iff (G := G) (hv.tris e he)).symm
        have e1 : ∀ i : Nat, (m.triangles[i]?.map keep).getD false =
            ((triShapes m)[i]?.map (nonDegShape G)).getD false := by
          intro i
          simp only [triShapes, List.getElem?_map]
          cases h : m.triangles[i]? with
          | none => rfl
          | some e => simp [hk e (List.mem_of_getElem? h)]
        have e2 : ∀ i, ((m.triangles.take i).filter keep).length =
            (((triShapes m).take i).filter (nonDegShape G)).length := by
          intro i
          rw [triShapes, ← List.map_take, List.filter_map, List.length_map]
          congr 1
          apply List.filter_congr
          intro e he
          exact hk e (List.mem_of_mem_take he)
        rw [List.filter_congr (fun i _ => e1 i)]
        apply List.map_congr_left
        intro i _; exact e2 i
      rw [h3, h2] at h1
      rw [h3]; exact h1
  · rw [r3.physLines, r2.physLines, r1.physLines]
  · intro hn
    rw [r3.physTris, r2.physTris]
    exact r1.groups_eq hv hn
  · rw [r3.points]; exact r2.distinct
  · rw [r3.points]; exact r2.sorted
  · rw [r3.points, ← r1.points]; exact r2.lenLe
  · rw [r3.points, ← r1.points]; exact r2.cover
  · rw [r3.points, ← r1.points]; exact r2.from'

end Mesh
end Traceon
