import Verif.Props.Pipeline
import Verif.Props.Superposition
import Verif.Props.HigherOrder

/-!
# From named parts to the field
-/
namespace Traceon
open Spec Excitation

namespace Pipe

/-- Numbers, among the active elements `idx`, of the elements with a name. -/
theorem positions {d : Dict (List Nat)} (hd : NamedOnce d) {N : Nat} (hb : ∀ n g, d.get n = some g → ∀ i ∈ g, i < N) {idx : List Nat} (hidx : idx.Pairwise (· < ·))
    {kind : String → Prop} (hmem : ∀ i, i ∈ idx ↔ i < N ∧ ∃ n g, d.get n = some g ∧ i ∈ g ∧ kind n) :
    ∃ pos : String → List Nat,
      (∀ n, kind n → (pos n).Nodup ∧ Matches (fun (i k : Nat) => idx[k]? = some i) ((d.get n).getD []) (pos n)) ∧
      ∀ k, k < idx.length → ∃ n, kind n ∧ k ∈ pos n ∧ ∀ n', kind n' → k ∈ pos n' → n' = n := by
  have hin : ∀ n, kind n → ∀ i ∈ (d.get n).getD [], i ∈ idx := by
    intro n hn i hi
    cases hg : d.get n with
    | none => simp [hg] at hi
    | some g =>
      rw [hg] at hi
      exact (hmem i).2 ⟨hb n g hg i hi, n, g, hg, hi, hn⟩
  have hnd : idx.Nodup := hidx.imp (fun h => Nat.ne_of_lt h)
  refine ⟨fun n => ((d.get n).getD []).map idx.idxOf, fun n hn => ⟨?_, by simp, ?_⟩, ?_⟩
  · refine List.Nodup.map_on ?_ ?_
    · intro i hi j hj h
      exact (List.idxOf_inj (hin n hn i hi)).1 h
    · cases hg : d.get n with
      | none => exact List.nodup_nil
      | some g => exact hd.nodup n g hg
  · intro k i j hi hj
    rw [List.getElem?_map, hi] at hj
    cases hj
    exact List.getElem?_idxOf (hin n hn i (List.mem_of_getElem? hi))
  · intro k hk
    have hi : idx[k] ∈ idx := List.getElem_mem hk
    obtain ⟨_, n, g, hg, hig, hn⟩ := (hmem _).1 hi
    refine ⟨n, hn, List.mem_map.2 ⟨idx[k], by rw [hg]; exact hig, hnd.idxOf_getElem k hk⟩, ?_⟩
    intro n' hn' hk'
    obtain ⟨i, hi', hik⟩ := List.mem_map.1 hk'
    have hi2 := List.getElem?_idxOf (hin n' hn' i hi')
    rw [hik, List.getElem?_eq_getElem hk] at hi2
    cases hi2
    cases hg' : d.get n' with
    | none => simp [hg'] at hi'
    | some g' =>
      rw [hg'] at hi'
      by_contra hne
      exact hd.apart n n' g g' hg hg' (Ne.symm hne) _ hig hi'

theorem revTri_twice {α : Type _} (l : List α) : Spec.revTri (Spec.revTri l) = l := by
  match l with
  | [] | [_] | [_, _] | [_, _, _] | _ :: _ :: _ :: _ :: _ => rfl

theorem revLine_twice {α : Type _} (l : List α) : Spec.revLine (Spec.revLine l) = l := by
  match l with
  | [] | [_] | [_, _] | [_, _, _] | [_, _, _, _] | _ :: _ :: _ :: _ :: _ :: _ => rfl

theorem eq_of_matches {P : Type} {G : Geo P} (hE : ∀ p q, G.eq p q = true → p = q) {a b : List P} (h : Matches (fun p q => G.eq q p = true) a b) : b = a := by
  refine List.ext_getElem? fun k => ?_
  by_cases hk : k < a.length
  · have hk' : k < b.length := h.1 ▸ hk
    rw [List.getElem?_eq_getElem hk, List.getElem?_eq_getElem hk']
    exact congrArg some (hE _ _ (h.2 k _ _ (List.getElem?_eq_getElem hk) (List.getElem?_eq_getElem hk')))
  · rw [List.getElem?_eq_none (Nat.le_of_not_lt hk), List.getElem?_eq_none (by rw [← h.1]; exact Nat.le_of_not_lt hk)]

theorem eq_of_upTo {P : Type} {G : Geo P} (hE : ∀ p q, G.eq p q = true → p = q) {rev : List P → List P} {a b : List P} (h : SameUpTo G rev a b) : b = a ∨ b = rev a := by
  rcases h with h | h
  · exact .inl (eq_of_matches hE h)
  · exact .inr (eq_of_matches hE h)

theorem getD_catAll {β : Type _} (gs : List (Option (List β))) : (catAll gs).getD [] = gs.flatMap (fun g => g.getD []) := by
  unfold catAll
  split
  · rename_i h
    rw [List.all_eq_true] at h
    symm
    simp only [Option.getD_none, List.flatMap_eq_nil_iff]
    intro g hg
    have := h g hg
    cases g <;> simp_all
  · rfl

theorem matches_getD {α β : Type _} {R : α → β → Prop} {a : Option (List α)} {b : Option (List β)} (h : MatchesGroup R a b) : Matches R (a.getD []) (b.getD []) := by
  cases a <;> cases b <;> simp only [MatchesGroup] at h
  · exact ⟨rfl, by simp⟩
  · exact h

theorem matches_mono {α β : Type _} {R S : α → β → Prop} (hRS : ∀ a b, R a b → S a b) {as : List α} {bs : List β} (h : Matches R as bs) : Matches S as bs :=
  ⟨h.1, fun k a b ha hb => hRS _ _ (h.2 k a b ha hb)⟩

/-- the elements of a group and their numbers -/
theorem group_numbers {P : Type} {shapes : List (List P)} {g : List Nat} (h : ∀ i ∈ g, i < shapes.length) :
    Matches (fun b (i : Nat) => shapes[i]? = some b) (g.filterMap (fun i => shapes[i]?)) g := by
  induction g with
  | nil => exact ⟨rfl, by simp⟩
  | cons i g ih =>
    have hi := h i (List.mem_cons_self ..)
    have ih := ih (fun j hj => h j (List.mem_cons_of_mem _ hj))
    rw [List.filterMap_cons_some (List.getElem?_eq_getElem hi)]
    refine ⟨by simp [ih.1], ?_⟩
    intro k a j ha hj
    cases k with
    | zero => simp at ha hj; subst ha hj; exact List.getElem?_eq_getElem hi
    | succ k => exact ih.2 k a j (by simpa using ha) (by simpa using hj)

/-- Turning normals does not change the shapes up to direction. -/
theorem turned_shapes {P : Type} {rev : List P → List P} {revN : List Nat → List Nat} {pts : List P} {es es' : List (List Nat)}
    (hr : ∀ e ∈ es, coords pts (revN e) = rev (coords pts e)) (h : ∀ k : Nat, es'[k]? = es[k]? ∨ es'[k]? = (es[k]?).map revN) :
    es'.length = es.length ∧ ∀ (k : Nat) b, (es'.map (coords pts))[k]? = some b → ∃ a, (es.map (coords pts))[k]? = some a ∧ (b = a ∨ b = rev a) := by
  have hiff : ∀ k : Nat, es'[k]? = none ↔ es[k]? = none := by
    intro k
    rcases h k with h | h <;> rw [h]
    simp
  have hlen : es'.length = es.length := by
    have h1 := (hiff es.length).2 (by simp)
    have h2 := (hiff es'.length).1 (by simp)
    rw [List.getElem?_eq_none_iff] at h1 h2
    omega
  refine ⟨hlen, fun k b hb => ?_⟩
  rw [List.getElem?_map] at hb
  obtain ⟨e', he', rfl⟩ := Option.map_eq_some_iff.1 hb
  rcases h k with h | h <;> rw [h] at he'
  · exact ⟨_, by rw [List.getElem?_map, he']; rfl, .inl rfl⟩
  · obtain ⟨e, he, rfl⟩ := Option.map_eq_some_iff.1 he'
    exact ⟨coords pts e, by rw [List.getElem?_map, he]; rfl, .inr (hr e (List.mem_of_getElem? he))⟩

/-- The elements of a group after the normals have been turned. -/
theorem turned_group {P : Type} {rev : List P → List P} {A : List (List P)} {g : List Nat} {shapes shapes' : List (List P)} (hrev : ∀ l, rev (rev l) = l)
    (hlen : shapes'.length = shapes.length) (ht : ∀ (k : Nat) b, shapes'[k]? = some b → ∃ a, shapes[k]? = some a ∧ (b = a ∨ b = rev a))
    (hg : ∀ i ∈ g, i < shapes.length) (hA : Matches (fun a b => b = a ∨ b = rev a) A (g.filterMap (fun i => shapes[i]?))) :
    Matches (fun a (i : Nat) => ∃ b, shapes'[i]? = some b ∧ (b = a ∨ b = rev a)) A g := by
  have hn := group_numbers hg
  refine ⟨hA.1.trans hn.1, fun k a i ha hi => ?_⟩
  have hk : k < (g.filterMap (fun i => shapes[i]?)).length := by rw [← hA.1]; exact (List.getElem?_eq_some_iff.1 ha).1
  have hb := List.getElem?_eq_getElem hk
  have h1 := hA.2 k a _ ha hb
  have h2 := hn.2 k _ i hb hi
  have hi' : i < shapes'.length := by rw [hlen]; exact hg i (List.mem_of_getElem? hi)
  obtain ⟨a', ha', h3⟩ := ht i _ (List.getElem?_eq_getElem hi')
  rw [h2] at ha'
  cases ha'
  refine ⟨_, List.getElem?_eq_getElem hi', ?_⟩
  rcases h3 with h3 | h3 <;> rcases h1 with h1 | h1 <;> rw [h3, h1]
  · exact .inl rfl
  · exact .inr rfl
  · exact .inr rfl
  · exact .inl (hrev a)

end Pipe

variable {G : Geo V3}

/-- What is assumed of a part. It holds for what `Path.mesh` and `Surface.mesh` return (`C91_path`, `C91_surface`): a valid mesh with cleared low bits whose lines have `cols` points, and whose
elements have at most one name. -/
structure Spec.IsPart (G : Geo V3) (cols : Nat) (m : Mesh V3) : Prop where
  valid : Valid m
  cleared : ∀ p ∈ m.points, G.trunc p = p
  cols : ∀ s ∈ lineShapes m, s.length = cols
  lines : NamedOnce m.physLines
  tris : NamedOnce m.physTris

/-- Parts that can be added: their lines have the same number of points. -/
def Spec.Parts (G : Geo V3) (parts : List (Mesh V3)) : Prop := ∃ cols, ∀ m ∈ parts, IsPart G cols m

/-- The sum of the parts exists. -/
theorem parts_sum (hG : G.Lawful) (hS : G.Stable) (hE : ∀ p q, G.eq p q = true ↔ p = q) {parts : List (Mesh V3)} (hp : Parts G parts) :
    ∃ M, parts.foldlM (Mesh.add G) {} = some M ∧ Valid M ∧ NamedOnce M.physLines ∧ NamedOnce M.physTris ∧
      (∀ n, Matches (fun a b => b = a ∨ b = Spec.revLine a) (namedLines parts n) ((lineGroup M n).getD [])) ∧
      (∀ n, Matches (fun a b => b = a ∨ b = Spec.revTri a) ((namedTris parts n).filter (nonDegShape G)) ((triGroup M n).getD [])) ∧
      (∀ n, n ∈ M.physLines.keys ↔ ∃ m ∈ parts, n ∈ m.physLines.keys) ∧ (∀ n, n ∈ M.physTris.keys ↔ ∃ m ∈ parts, n ∈ m.physTris.keys) := by
  have he : Valid ({} : Mesh V3) := by refine ⟨Or.inl rfl, ?_, ?_, ?_, ?_, ?_, ?_⟩ <;> simp
  obtain ⟨cols, hp⟩ := hp
  have hms : ∀ m ∈ parts, Valid m ∧ Coll.Cleared G m ∧ Coll.Cols cols m := fun m hm => ⟨(hp m hm).valid, fun p h => (hE _ _).2 ((hp m hm).cleared p h), (hp m hm).cols⟩
  obtain ⟨M, h1, h2, h3, h4, h5, h6⟩ := Coll.fold_spec hG hS (cols := cols) parts {} he (by simp [Coll.Cleared]) (by simp [Coll.Cols, lineShapes]) hms
  obtain ⟨n1, n2⟩ := Pipe.namedOnce_fold hG hS (cols := cols) parts {} he (by simp [Coll.Cleared]) (by simp [Coll.Cols, lineShapes]) hms h1
  have e0 : NamedOnce ([] : Dict (List Nat)) := ⟨(by intro n g h; cases h), (by intro n n' g g' h; cases h)⟩
  have hcat : ∀ {β : Type} (x : Option (List β)), catOpt none x = x := by intro β x; cases x <;> simp [catOpt]
  have hl : ∀ n, MatchesGroup (SameUpTo G Spec.revLine) (catAll (parts.map (lineGroup · n))) (lineGroup M n) := by
    intro n
    have := h4 n
    have e : lineGroup ({} : Mesh V3) n = none := rfl
    rwa [e, hcat] at this
  have ht : ∀ n, MatchesGroup (SameUpTo G Spec.revTri) ((catAll (parts.map (triGroup · n))).map (·.filter (nonDegShape G))) (triGroup M n) := by
    intro n
    have := h6 n (by intro g hg; cases hg)
    have e : triGroup ({} : Mesh V3) n = none := rfl
    rwa [e, hcat] at this
  have hsome : ∀ {β γ : Type} {R : β → γ → Prop} {a : Option (List β)} {b : Option (List γ)}, MatchesGroup R a b → (b.isSome = a.isSome) := by
    intro β γ R a b h
    cases a <;> cases b <;> simp [MatchesGroup] at h ⊢
  have hkey : ∀ (d : Dict (List Nat)) n, n ∈ d.keys ↔ (d.get n).isSome := fun d n => (Dict.get_isSome_iff).symm
  refine ⟨M, h1, h2, n1 e0 (fun m hm => (hp m hm).lines), n2 e0 (fun m hm => (hp m hm).tris), fun n => ?_, fun n => ?_, fun n => ?_, fun n => ?_⟩
  · have := Pipe.matches_getD (hl n)
    rw [Pipe.getD_catAll, List.flatMap_map] at this
    exact Pipe.matches_mono (fun a b h => Pipe.eq_of_upTo (fun p q => (hE p q).1) h) this
  · have := Pipe.matches_getD (ht n)
    have e : (((catAll (parts.map (triGroup · n))).map (·.filter (nonDegShape G))).getD []) = (namedTris parts n).filter (nonDegShape G) := by
      have := Pipe.getD_catAll (parts.map (triGroup · n))
      rw [List.flatMap_map] at this
      unfold namedTris
      rw [← this]
      cases catAll (parts.map (triGroup · n)) <;> rfl
    rw [e] at this
    exact Pipe.matches_mono (fun a b h => Pipe.eq_of_upTo (fun p q => (hE p q).1) h) this
  · have := hsome (hl n)
    rw [hkey]
    have e1 : (lineGroup M n).isSome = (M.physLines.get n).isSome := by simp [lineGroup]
    rw [← e1, this]
    simp only [catAll]
    split
    · rename_i h
      simp only [List.all_map, List.all_eq_true, Function.comp] at h
      simp only [Option.isSome_none, Bool.false_eq_true, false_iff, not_exists, not_and]
      intro m hm hk
      have := h m hm
      rw [hkey] at hk
      simp [lineGroup] at this
      simp [this] at hk
    · rename_i h
      simp only [List.all_map, List.all_eq_true, Function.comp, not_forall] at h
      obtain ⟨m, hm, h⟩ := h
      simp only [Option.isSome_some, true_iff]
      refine ⟨m, hm, (hkey _ _).2 ?_⟩
      simp only [lineGroup, Option.isNone_map, Option.isNone_iff_eq_none] at h
      exact Option.isSome_iff_ne_none.2 h
  · have := hsome (ht n)
    rw [hkey]
    have e1 : (triGroup M n).isSome = (M.physTris.get n).isSome := by simp [triGroup]
    rw [← e1, this, Option.isSome_map]
    simp only [catAll]
    split
    · rename_i h
      simp only [List.all_map, List.all_eq_true, Function.comp] at h
      simp only [Option.isSome_none, Bool.false_eq_true, false_iff, not_exists, not_and]
      intro m hm hk
      have := h m hm
      rw [hkey] at hk
      simp [triGroup] at this
      simp [this] at hk
    · rename_i h
      simp only [List.all_map, List.all_eq_true, Function.comp, not_forall] at h
      obtain ⟨m, hm, h⟩ := h
      simp only [Option.isSome_some, true_iff]
      refine ⟨m, hm, (hkey _ _).2 ?_⟩
      simp only [triGroup, Option.isNone_map, Option.isNone_iff_eq_none] at h
      exact Option.isSome_iff_ne_none.2 h

end Traceon
