import Verif.Lemmas.ReorientLines

/-! The walk over triangles gives a consistent orientation if there is one and the orientation test
recognises common edges. -/
namespace Traceon
open Spec

/-- The orientation test gives the right answer on a list of triangles, whatever their current
orientation: `none` without a common edge, otherwise whether no edge is traversed by both in the
same direction; and a triangle compared with itself is reported as "not equal". -/
structure Spec.TestOK (test : List Nat → List Nat → Option Bool) (ts : List (List Nat)) : Prop where
  shared : ∀ (i j : Nat) a b a' b', i ≠ j → ts[i]? = some a → ts[j]? = some b →
    (a' = a ∨ a' = flipTri a) → (b' = b ∨ b' = flipTri b) → ShareEdge a b →
    ∃ r, test a' b' = some r ∧ (r = true ↔ ∀ v w, Edge a' v w → ¬ Edge b' v w)
  apart : ∀ (i j : Nat) a b a' b', i ≠ j → ts[i]? = some a → ts[j]? = some b →
    (a' = a ∨ a' = flipTri a) → (b' = b ∨ b' = flipTri b) → ¬ ShareEdge a b → test a' b' = none
  self : ∀ a ∈ ts, ∀ a', (a' = a ∨ a' = flipTri a) → test a' a' = some false

theorem tri_cases {l : List Nat} (h : l.length = 3) : ∃ p q r, l = [p, q, r] := by
  match l, h with
  | [p, q, r], _ => exact ⟨p, q, r, rfl⟩

theorem edge_flip {a : List Nat} (h : a.length = 3) (v w : Nat) : Edge (flipTri a) v w ↔ Edge a w v := by
  obtain ⟨p, q, r, rfl⟩ := tri_cases h
  simp only [Edge, flipTri, List.getElem?_cons_zero, List.getElem?_cons_succ, Option.some.injEq]
  constructor
  · rintro (⟨rfl, rfl⟩ | ⟨rfl, rfl⟩ | ⟨rfl, rfl⟩) <;> simp
  · rintro (⟨rfl, rfl⟩ | ⟨rfl, rfl⟩ | ⟨rfl, rfl⟩) <;> simp

theorem shareEdge_flip_left {a b : List Nat} (ha : a.length = 3) :
    ShareEdge (flipTri a) b ↔ ShareEdge a b := by
  unfold ShareEdge
  simp only [edge_flip ha]
  constructor <;> (rintro ⟨v, w, h1, h2⟩; exact ⟨v, w, h1.symm, h2⟩)

theorem shareEdge_symm {a b : List Nat} : ShareEdge a b ↔ ShareEdge b a := by
  unfold ShareEdge
  constructor <;> (rintro ⟨v, w, h1, h2⟩; exact ⟨v, w, h2, h1⟩)

theorem edge_mem {a : List Nat} {v w : Nat} (h : Edge a v w) : v ∈ a ∧ w ∈ a := by
  rcases h with ⟨h1, h2⟩ | ⟨h1, h2⟩ | ⟨h1, h2⟩ <;>
    exact ⟨List.mem_of_getElem? h1, List.mem_of_getElem? h2⟩

theorem shareEdge_mem {a b : List Nat} (h : ShareEdge a b) : ∃ v, v ∈ a ∧ v ∈ b := by
  obtain ⟨v, w, h1, h2⟩ := h
  refine ⟨v, ?_, ?_⟩
  · rcases h1 with h | h
    · exact (edge_mem h).1
    · exact (edge_mem h).2
  · rcases h2 with h | h
    · exact (edge_mem h).1
    · exact (edge_mem h).2

theorem flipTri_length (e : Elem) : (flipTri e).length = e.length := (flipTri_perm e).length_eq

theorem mem_flipTri {l : List Nat} (v : Nat) : v ∈ flipTri l ↔ v ∈ l := (flipTri_perm l).mem_iff

/-- The main lemma about the walk over triangles. -/
theorem reorientTriangles_consistent (test : Elem → Elem → Option Bool) (tris T : List Elem)
    (hne : tris ≠ []) (hshape : ∀ t ∈ tris, t.length = 3) (hok : TestOK test tris)
    (hconn : ∀ j, j < tris.length → EdgeLinked tris 0 j)
    (hT : SomeTurned tris T) (hop : EdgesOpposite T) :
    ∃ out, reorientTriangles test tris = some out ∧ SomeTurned tris out ∧ EdgesOpposite out := by
  obtain ⟨out, hout, hlen, hkf⟩ := reorientTriangles_some test tris
  have hTlen : T.length = tris.length := hT.1.symm
  have hTk : ∀ k, k < tris.length → ∃ l t, tris[k]? = some l ∧ T[k]? = some t ∧ l ∈ tris ∧
      (t = l ∨ t = flipTri l) := by
    intro k hk
    have h1 : tris[k]? = some tris[k] := List.getElem?_eq_getElem hk
    have h2 : T[k]? = some (T[k]'(by omega)) := List.getElem?_eq_getElem (by omega)
    refine ⟨_, _, h1, h2, List.getElem_mem _, ?_⟩
    rcases hT.2 k _ _ h1 h2 with h | ⟨p, q, r, h3, h4⟩
    · exact Or.inl h.symm
    · right; rw [h4, h3]; rfl
  let pol : Bool → Nat → Elem := fun b k => if b then T.getD k [] else flipTri (T.getD k [])
  have hTd : ∀ k t, T[k]? = some t → T.getD k [] = t := fun k t h => getD_of_getElem? h
  have hpolcases : ∀ b k l, tris[k]? = some l → pol b k = l ∨ pol b k = flipTri l := by
    intro b k l hl
    obtain ⟨l', t, hl', ht, _, h⟩ := hTk k ((List.getElem?_eq_some_iff.1 hl).1)
    rw [hl] at hl'; cases hl'
    simp only [pol, hTd k t ht]
    rcases h with rfl | rfl <;> cases b <;> simp [flipTri_flipTri]
  have hpolmem : ∀ b k l, tris[k]? = some l → ∀ v, (v ∈ pol b k ↔ v ∈ l) := by
    intro b k l hl v
    rcases hpolcases b k l hl with h | h <;> rw [h]
    exact mem_flipTri v
  let M : Nat → Nat → Prop := fun i j => SharesVertex tris i j
  let Eadj : Nat → Nat → Prop := fun i j => ∃ a b, tris[i]? = some a ∧ tris[j]? = some b ∧ ShareEdge a b
  have hTlen3 : ∀ (k : Nat) t, T[k]? = some t → t.length = 3 := by
    intro k t ht
    have hk : k < tris.length := by rw [← hTlen]; exact (List.getElem?_eq_some_iff.1 ht).1
    obtain ⟨l, t', hl, ht', hmem, h⟩ := hTk k hk
    rw [ht] at ht'; cases ht'
    rcases h with rfl | rfl
    · exact hshape _ hmem
    · rw [flipTri_length]; exact hshape _ hmem
  have W : Walk tris.length pol M Eadj test flipTri := by
    refine ⟨?_, ?_, ?_, ?_, ?_⟩
    · intro b i _
      cases b <;> simp [pol, flipTri_flipTri]
    · rintro i j b c hi hj hij _ ⟨a', b', ha, hb, hsh⟩
      obtain ⟨r, hr, hiff⟩ := hok.shared i j a' b' (pol b i) (pol c j) hij ha hb
        (hpolcases b i a' ha) (hpolcases c j b' hb) hsh
      rw [hr]
      obtain ⟨li, ti, hli, hti, _, _⟩ := hTk i hi
      obtain ⟨lj, tj, hlj, htj, _, _⟩ := hTk j hj
      have hti3 := hTlen3 i ti hti
      have htj3 := hTlen3 j tj htj
      -- T_i and T_j share an edge too
      have hshT : ShareEdge ti tj := by
        have h1 : ti = a' ∨ ti = flipTri a' := by
          have := hpolcases true i a' ha
          simpa [pol, hti] using this
        have h2 : tj = b' ∨ tj = flipTri b' := by
          have := hpolcases true j b' hb
          simpa [pol, htj] using this
        have ha3 := hshape a' (List.mem_of_getElem? ha)
        have hb3 := hshape b' (List.mem_of_getElem? hb)
        rcases h1 with rfl | rfl <;> rcases h2 with rfl | rfl
        · exact hsh
        · rw [shareEdge_symm, shareEdge_flip_left hb3, shareEdge_symm]; exact hsh
        · rw [shareEdge_flip_left ha3]; exact hsh
        · rw [shareEdge_flip_left ha3, shareEdge_symm, shareEdge_flip_left hb3, shareEdge_symm]; exact hsh
      have hopp : ∀ v w, Edge ti v w → ¬ Edge tj v w := fun v w => hop i j ti tj v w hij hti htj
      congr 1
      rw [Bool.eq_iff_iff, hiff]
      simp only [pol, hTd i ti hti, hTd j tj htj]
      have hmixed : ∃ v w, Edge ti w v ∧ Edge tj v w := by
        obtain ⟨v, w, h1, h2⟩ := hshT
        rcases h1 with h1 | h1 <;> rcases h2 with h2 | h2
        · exact absurd h2 (hopp v w h1)
        · exact ⟨w, v, h1, h2⟩
        · exact ⟨v, w, h1, h2⟩
        · exact absurd h2 (hopp w v h1)
      obtain ⟨v, w, h1, h2⟩ := hmixed
      cases b <;> cases c
      · simp only [Bool.false_eq_true, if_false, edge_flip hti3, edge_flip htj3, beq_self_eq_true, iff_true]
        exact fun v w h => hopp w v h
      · simp only [Bool.false_eq_true, if_false, if_true, edge_flip hti3]
        constructor
        · intro h; exact absurd h2 (h v w h1)
        · intro h; simp at h
      · simp only [Bool.false_eq_true, if_false, if_true, edge_flip htj3]
        constructor
        · intro h; exact absurd h2 (h w v h1)
        · intro h; simp at h
      · simp only [if_true, beq_self_eq_true, iff_true]
        exact hopp
    · rintro i j b c hi hj hij _ hE
      have h1 : tris[i]? = some tris[i] := List.getElem?_eq_getElem hi
      have h2 : tris[j]? = some tris[j] := List.getElem?_eq_getElem hj
      exact hok.apart i j _ _ _ _ hij h1 h2 (hpolcases b i _ h1) (hpolcases c j _ h2)
        (fun h => hE ⟨_, _, h1, h2, h⟩)
    · intro i b hi
      have h1 : tris[i]? = some tris[i] := List.getElem?_eq_getElem hi
      exact hok.self _ (List.getElem_mem _) _ (hpolcases b i _ h1)
    · rintro i j _ ⟨a, b, ha, hb, hsh⟩
      obtain ⟨v, h1, h2⟩ := shareEdge_mem hsh
      exact ⟨⟨a, b, v, ha, hb, h1, h2⟩, (List.getElem?_eq_some_iff.1 hb).1⟩
  let v2i := vertexToIndices tris
  have hM : ∀ b i, i < tris.length → ∀ j, j ∈ (pol b i).flatMap v2i ↔ (M i j ∧ j < tris.length) := by
    intro b i hi j
    have hl : tris[i]? = some tris[i] := List.getElem?_eq_getElem hi
    rw [List.mem_flatMap]
    constructor
    · rintro ⟨v, hv, hj⟩
      obtain ⟨c, hc, hvc⟩ := mem_vertexToIndices.1 hj
      exact ⟨⟨_, c, v, hl, hc, (hpolmem b i _ hl v).1 hv, hvc⟩, (List.getElem?_eq_some_iff.1 hc).1⟩
    · rintro ⟨⟨a, c, v, ha, hc, hva, hvc⟩, _⟩
      exact ⟨v, (hpolmem b i a ha v).2 hva, mem_vertexToIndices.2 ⟨c, hc, hvc⟩⟩
  have hN : 0 < tris.length := List.length_pos_iff.2 hne
  have hfirst : ∀ b, ∃ rest, (pol b 0).flatMap v2i = 0 :: rest := by
    intro b
    have hl : tris[0]? = some tris[0] := List.getElem?_eq_getElem hN
    have hpl : (pol b 0).length = 3 := by
      rcases hpolcases b 0 _ hl with h | h <;> rw [h]
      · exact hshape _ (List.getElem_mem _)
      · rw [flipTri_length]; exact hshape _ (List.getElem_mem _)
    have key : ∀ v, v ∈ tris[0] → ∃ rest, v2i v = 0 :: rest := by
      intro v hv
      simp only [v2i, vertexToIndices]
      cases htris : tris with
      | nil => exact absurd htris hne
      | cons x xs =>
        have hx : v ∈ x := by
          have : tris[0] = x := by simp [htris]
          rw [this] at hv; exact hv
        rw [List.zipIdx_cons, List.flatMap_cons]
        simp only
        cases hf : x.filter (· == v) with
        | nil =>
          exfalso
          have : v ∈ x.filter (· == v) := by simp [hx]
          rw [hf] at this; simp at this
        | cons y ys => exact ⟨_, rfl⟩
    obtain ⟨p, q, r, hp⟩ := tri_cases hpl
    obtain ⟨rest, hr⟩ := key p ((hpolmem b 0 _ hl p).1 (by rw [hp]; simp))
    exact ⟨rest ++ [q, r].flatMap v2i, by rw [hp]; simp [List.flatMap_cons, hr]⟩
  have hpolEx : ∀ n, n < tris.length → ∃ b, tris[n]? = some (pol b n) := by
    intro n hn
    obtain ⟨l, t, hl, ht, _, h⟩ := hTk n hn
    rcases h with rfl | rfl
    · exact ⟨true, by simp only [pol, hTd n _ ht, if_true]; exact hl⟩
    · exact ⟨false, by simp only [pol, hTd n _ ht, flipTri_flipTri]; simpa using hl⟩
  have hconn' : ∀ S : Nat → Prop, S 0 → (∀ i j, i < tris.length → S i → Eadj i j → S j) →
      ∀ n, n < tris.length → S n := by
    intro S h0 hstep n hn
    have hl := hconn n hn
    clear hn
    induction hl with
    | refl _ => exact h0
    | @step j k a b _ ha hb hsh ih =>
      exact hstep j k ((List.getElem?_eq_some_iff.1 ha).1) ih ⟨a, b, ha, hb, hsh⟩
  have hloop : reorientLoop v2i test flipTri (tris.length + 1)
      ⟨tris, List.replicate tris.length false, [0]⟩ = some out := by
    unfold reorientTriangles at hout
    rw [if_neg (by simpa using hne)] at hout
    exact hout
  obtain ⟨s, hs⟩ := W.main v2i hM hfirst hN tris rfl hpolEx hconn' _ out hloop
  refine ⟨out, hout, ⟨hlen.symm, ?_⟩, ?_⟩
  · intro k a b ha hb
    rcases hkf k with h | h
    · rw [h, ha] at hb; exact Or.inl (Option.some.inj hb)
    · rw [h, ha] at hb
      simp only [Option.map_some, Option.some.injEq] at hb
      obtain ⟨p, q, r, rfl⟩ := tri_cases (hshape a (List.mem_of_getElem? ha))
      exact Or.inr ⟨p, q, r, rfl, hb.symm⟩
  · intro i j a b v w hij ha hb hv hw
    have hi : i < tris.length := by rw [← hlen]; exact (List.getElem?_eq_some_iff.1 ha).1
    have hj : j < tris.length := by rw [← hlen]; exact (List.getElem?_eq_some_iff.1 hb).1
    rw [hs i hi] at ha; cases ha
    rw [hs j hj] at hb; cases hb
    obtain ⟨li, ti, hli, hti, _, _⟩ := hTk i hi
    obtain ⟨lj, tj, hlj, htj, _, _⟩ := hTk j hj
    simp only [pol, hTd i ti hti] at hv
    simp only [pol, hTd j tj htj] at hw
    cases s
    · simp only [Bool.false_eq_true, if_false, edge_flip (hTlen3 i ti hti)] at hv
      simp only [Bool.false_eq_true, if_false, edge_flip (hTlen3 j tj htj)] at hw
      exact hop i j ti tj w v hij hti htj hv hw
    · simp only [if_true] at hv hw
      exact hop i j ti tj v w hij hti htj hv hw

end Traceon
