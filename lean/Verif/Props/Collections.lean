import Verif.Spec.Collections
import Verif.Spec.Mesh
import Verif.Props.Mesh

/-!
# C31: collections combine like lists
-/
namespace Traceon
open Spec

namespace Coll
variable {α : Type}

theorem mapM_inl (l : List Nat) :
    (l.map (Sum.inl (β := List Nat))).mapM (fun v => v.elim some (fun _ => none)) = some l := by
  induction l with
  | nil => rfl
  | cons a l ih => simp only [List.map_cons, List.mapM_cons, Sum.elim_inl, ih]; rfl

theorem mkColl_inl (h : Heap α) (l : List Nat) :
    h.mkColl (l.map .inl) = some (.coll h.colls.length, { h with colls := h.colls ++ [{ items := l }] }) := by
  unfold Heap.mkColl; rw [mapM_inl]; rfl

theorem contents_append {h : Heap α} {c : Coll} {r : Ref} {l : List Nat} (hr : contents h r = some l) :
    contents { h with colls := h.colls ++ [c] } r = some l := by
  cases r with
  | member i => exact hr
  | coll j =>
    simp only [contents, Option.map_eq_some_iff] at hr ⊢
    obtain ⟨d, hd, rfl⟩ := hr
    exact ⟨d, List.getElem?_append_left (List.getElem?_eq_some_iff.1 hd).1 ▸ hd, rfl⟩

theorem contents_append_members {h : Heap α} {ms : List (α × Option String)} {r : Ref} {l : List Nat}
    (hr : contents h r = some l) : contents { h with members := h.members ++ ms } r = some l := by
  cases r with
  | member i =>
    simp only [contents] at hr ⊢
    split at hr
    · rw [if_pos (by simp; omega)]; exact hr
    · cases hr
  | coll j => exact hr

theorem contents_bound {h : Heap α} (hok : HeapOk h) {r : Ref} {l : List Nat} (hr : contents h r = some l) :
    ∀ i ∈ l, i < h.members.length := by
  cases r with
  | member i =>
    simp only [contents] at hr
    split at hr
    · cases hr; simpa
    · cases hr
  | coll c =>
    simp only [contents, Option.map_eq_some_iff] at hr
    obtain ⟨d, hd, rfl⟩ := hr
    exact hok d (List.mem_of_getElem? hd)

theorem add_char (k : Kind) {h : Heap α} {a b : Ref} {la lb : List Nat} (ha : contents h a = some la)
    (hb : contents h b = some lb) (hk : k = .surface ∨ ¬∃ i c, a = .member i ∧ b = .coll c) :
    h.add k a b = some (.coll h.colls.length, { h with colls := h.colls ++ [{ items := la ++ lb }] }) := by
  have key : ∀ l : List (Nat ⊕ List Nat), l = (la ++ lb).map .inl → h.mkColl l =
      some (.coll h.colls.length, { h with colls := h.colls ++ [{ items := la ++ lb }] }) := by
    rintro l rfl; exact mkColl_inl h _
  cases a with
  | member i =>
    simp only [contents] at ha
    split at ha
    case isFalse => cases ha
    cases ha
    cases b with
    | member j =>
      simp only [contents] at hb
      split at hb
      case isFalse => cases hb
      cases hb
      exact key _ rfl
    | coll c =>
      simp only [contents, Option.map_eq_some_iff] at hb
      obtain ⟨d, hd, rfl⟩ := hb
      rcases hk with rfl | hk
      · simp only [Heap.add, hd]; exact key _ (by simp)
      · exact absurd ⟨i, c, rfl, rfl⟩ hk
  | coll c =>
    simp only [contents, Option.map_eq_some_iff] at ha
    obtain ⟨d, hd, rfl⟩ := ha
    cases b with
    | member j =>
      simp only [contents] at hb
      split at hb
      case isFalse => cases hb
      cases hb
      simp only [Heap.add, hd]; exact key _ (by simp)
    | coll c' =>
      simp only [contents, Option.map_eq_some_iff] at hb
      obtain ⟨d', hd', rfl⟩ := hb
      simp only [Heap.add, hd, hd']; exact key _ (by simp)

theorem add_path_fails (h : Heap α) (i c : Nat) : h.add .path (.member i) (.coll c) = none := by
  simp only [Heap.add]
  cases h.colls[c]? with
  | none => rfl
  | some d => rfl

theorem nameMember_colls (n : Option String) (l : List Nat) (h : Heap α) :
    (l.foldl (Heap.nameMember n) h).colls = h.colls := by
  induction l generalizing h with
  | nil => rfl
  | cons i l ih => rw [List.foldl_cons, ih]; rfl

theorem nameMember_members (n : Option String) (l : List Nat) (h : Heap α) :
    (l.foldl (Heap.nameMember n) h).members =
      h.members.mapIdx (fun i o => if i ∈ l then (o.1, n) else o) := by
  induction l generalizing h with
  | nil =>
    apply List.ext_getElem?
    intro k
    simp only [List.foldl_nil, List.getElem?_mapIdx, List.not_mem_nil, if_false]
    cases h.members[k]? <;> rfl
  | cons i l ih =>
    rw [List.foldl_cons, ih]
    apply List.ext_getElem?
    intro k
    simp only [List.getElem?_mapIdx, Heap.nameMember, List.getElem?_modify, List.mem_cons]
    cases h.members[k]? with
    | none => rfl
    | some o =>
      simp only [Option.map_some]
      by_cases hik : i = k
      · subst hik; simp
      · have : k ≠ i := fun e => hik e.symm
        simp [hik, this]

theorem mapMembers_char (f : α → α) (l : List Nat) (h : Heap α) (hl : ∀ i ∈ l, i < h.members.length) :
    Heap.mapMembers f l h = some ((List.range l.length).map (fun k => h.members.length + k),
      { h with members := h.members ++ l.filterMap (fun i => (h.members[i]?).map (fun o => (f o.1, o.2))) }) := by
  induction l generalizing h with
  | nil => simp [Heap.mapMembers]
  | cons i l ih =>
    have hi := hl i (List.mem_cons_self ..)
    have hi' : h.members[i]? = some h.members[i] := List.getElem?_eq_getElem hi
    have h1 : h.mapMember f i = some (h.members.length,
        { h with members := h.members ++ [(f h.members[i].1, h.members[i].2)] }) := by
      simp only [Heap.mapMember, hi']; rfl
    have := ih { h with members := h.members ++ [(f h.members[i].1, h.members[i].2)] } (by
      intro j hj; have := hl j (List.mem_cons_of_mem _ hj); simp; omega)
    simp only [Heap.mapMembers, h1, Option.bind_eq_bind, Option.bind_some, this]
    simp only [pure, Option.some.injEq, Prod.mk.injEq, List.length_cons, List.range_succ_eq_map, List.map_cons,
      List.map_map, Nat.add_zero, List.cons.injEq, true_and]
    refine ⟨?_, ?_⟩
    · apply List.map_congr_left
      intro k _
      simp; omega
    · congr 1
      rw [List.append_assoc]
      congr 1
      simp only [List.filterMap_cons, hi', Option.map_some, List.singleton_append, List.cons.injEq, true_and]
      apply filterMap_congr'
      intro j hj
      rw [List.getElem?_append_left (hl j (List.mem_cons_of_mem _ hj))]

theorem filterMap_length_of_bound (f : α → α) (ms : List (α × Option String)) (l : List Nat) (h : ∀ i ∈ l, i < ms.length) :
    (l.filterMap (fun i => (ms[i]?).map (fun o => (f o.1, o.2)))).length = l.length := by
  induction l with
  | nil => rfl
  | cons i l ih =>
    rw [List.filterMap_cons, List.getElem?_eq_getElem (h i (List.mem_cons_self ..))]
    simp only [Option.map_some, List.length_cons, ih (fun j hj => h j (List.mem_cons_of_mem _ hj))]

/-- Model state and list state agree. -/
structure Rel (S : CollState α) (T : ListState α) : Prop where
  ok : HeapOk S.heap
  objects : S.heap.members = T.objects
  refs : ∀ v r, S.env v = some r → ∃ l, contents S.heap r = some l
  vars : ∀ v, T.vars v = (S.env v).bind (contents S.heap)

theorem heapOk_append {h : Heap α} (hok : HeapOk h) {l : List Nat} (hl : ∀ i ∈ l, i < h.members.length)
    (n : Option String) : HeapOk { h with colls := h.colls ++ [{ items := l, name := n }] } := by
  intro d hd i hi
  rcases List.mem_append.1 hd with hd | hd
  · exact hok d hd i hi
  · rw [List.mem_singleton.1 hd] at hi; exact hl i hi

theorem heapOk_members {h : Heap α} (hok : HeapOk h) (ms : List (α × Option String)) :
    HeapOk { h with members := h.members ++ ms } := by
  intro d hd i hi
  have := hok d hd i hi
  simp only [List.length_append]; omega

/-- A new variable for a reference in a grown heap. -/
theorem Rel.extend {S : CollState α} {T : ListState α} (R : Rel S T) {h : Heap α} {x : String} {r : Ref} {l : List Nat}
    {obs : List (α × Option String)} (hok : HeapOk h) (ho : h.members = obs)
    (hgrow : ∀ r l, contents S.heap r = some l → contents h r = some l) (hr : contents h r = some l) :
    Rel ⟨fun v => if v = x then some r else S.env v, h⟩ ({ T with objects := obs }.assign x l) := by
  refine ⟨hok, ho, ?_, ?_⟩
  · intro v r' hv
    dsimp only at hv
    split at hv
    · cases hv; exact ⟨l, hr⟩
    · obtain ⟨l', hl'⟩ := R.refs v r' hv; exact ⟨l', hgrow _ _ hl'⟩
  · intro v
    simp only [ListState.assign]
    split
    · exact hr.symm
    · rw [R.vars v]
      cases hv : S.env v with
      | none => rfl
      | some r' =>
        obtain ⟨l', hl'⟩ := R.refs v r' hv
        simp only [Option.bind_some, hl', hgrow _ _ hl']

theorem contents_naming {h h' : Heap α} (hc : h'.members.length = h.members.length)
    (hi : ∀ c : Nat, (h'.colls[c]?).map (·.items) = (h.colls[c]?).map (·.items)) (r : Ref) : contents h' r = contents h r := by
  cases r with
  | member i => simp only [contents, hc]
  | coll c => simp only [contents, hi]

/-- One statement, executed by the model, when the list semantics is defined. -/
theorem exec_forward (k : Kind) {S : CollState α} {T T' : ListState α} (R : Rel S T) (c : CollCmd α)
    (h : T.exec c = some T') (hk : k = .surface ∨ ∃ S', S.exec k c = some S') : ∃ S', S.exec k c = some S' ∧ Rel S' T' := by
  cases c with
  | new x a n =>
    cases h
    refine ⟨_, rfl, R.extend (heapOk_members R.ok _) (by rw [R.objects]) (fun r l => contents_append_members) ?_⟩
    simp [contents, R.objects]
  | add x y z =>
    simp only [ListState.exec, Option.bind_eq_bind, Option.bind_eq_some_iff, pure, Option.some.injEq] at h
    obtain ⟨ly, hy, lz, hz, rfl⟩ := h
    rw [R.vars] at hy hz
    obtain ⟨ry, hry, hly⟩ := Option.bind_eq_some_iff.1 hy
    obtain ⟨rz, hrz, hlz⟩ := Option.bind_eq_some_iff.1 hz
    have hk' : k = .surface ∨ ¬∃ i c, ry = .member i ∧ rz = .coll c := by
      cases k with
      | surface => exact .inl rfl
      | path =>
        rcases hk with hk | ⟨S', hS'⟩
        · cases hk
        · right
          rintro ⟨i, c, rfl, rfl⟩
          simp only [CollState.exec, hry, hrz, Option.bind_eq_bind, Option.bind_some, add_path_fails] at hS'
          cases hS'
    refine ⟨_, by simp only [CollState.exec, hry, hrz, Option.bind_eq_bind, Option.bind_some, add_char k hly hlz hk']; rfl,
      R.extend (heapOk_append R.ok ?_ none) R.objects (fun r l => contents_append) ?_⟩
    · intro i hi
      rcases List.mem_append.1 hi with hi | hi
      · exact contents_bound R.ok hly i hi
      · exact contents_bound R.ok hlz i hi
    · simp [contents]
  | iadd x y => cases h
  | setName x n =>
    simp only [ListState.exec, Option.bind_eq_bind, Option.bind_eq_some_iff, pure, Option.some.injEq] at h
    obtain ⟨l, hl, rfl⟩ := h
    rw [R.vars] at hl
    obtain ⟨r, hr, hl⟩ := Option.bind_eq_some_iff.1 hl
    cases r with
    | member i =>
      simp only [contents] at hl
      split at hl
      case isFalse => cases hl
      cases hl
      have hm : (S.heap.nameMember n i).members = T.objects.mapIdx (fun j o => if j ∈ [i] then (o.1, n) else o) := by
        rw [← R.objects]; exact nameMember_members n [i] S.heap
      have hlen : (S.heap.nameMember n i).members.length = S.heap.members.length := by simp [Heap.nameMember]
      refine ⟨{ S with heap := S.heap.nameMember n i }, by simp only [CollState.exec, hr]; rfl, ?_, hm, ?_, ?_⟩
      · intro d hd j hj; rw [hlen]; exact R.ok d hd j hj
      · intro v r hv; rw [contents_naming hlen (fun _ => rfl)]; exact R.refs v r hv
      · intro v
        have : contents (S.heap.nameMember n i) = contents S.heap := funext (contents_naming hlen (fun _ => rfl))
        simp only [this]; exact R.vars v
    | coll c =>
      simp only [contents, Option.map_eq_some_iff] at hl
      obtain ⟨d, hd, rfl⟩ := hl
      let h' : Heap α := { S.heap with colls := S.heap.colls.set c { d with name := n } }
      have hm : (d.items.foldl (Heap.nameMember n) h').members =
          T.objects.mapIdx (fun j o => if j ∈ d.items then (o.1, n) else o) := by
        rw [← R.objects]; exact nameMember_members n d.items h'
      have hlen : (d.items.foldl (Heap.nameMember n) h').members.length = S.heap.members.length := by
        rw [hm, List.length_mapIdx, R.objects]
      have hcolls : (d.items.foldl (Heap.nameMember n) h').colls = S.heap.colls.set c { d with name := n } :=
        nameMember_colls n d.items h'
      have hitems : ∀ j : Nat, ((d.items.foldl (Heap.nameMember n) h').colls[j]?).map (·.items) = (S.heap.colls[j]?).map (·.items) := by
        intro j
        rw [hcolls, List.getElem?_set]
        split
        · rename_i hcj
          subst hcj
          rw [hd, if_pos (List.getElem?_eq_some_iff.1 hd).1]; rfl
        · rfl
      refine ⟨{ S with heap := d.items.foldl (Heap.nameMember n) h' }, by
        simp only [CollState.exec, hr, Heap.setName, Option.bind_eq_bind, Option.bind_some, hd]; rfl, ?_, hm, ?_, ?_⟩
      · intro e he j hj
        rw [hlen]
        dsimp only at he
        rw [hcolls] at he
        rcases List.mem_or_eq_of_mem_set he with he | rfl
        · exact R.ok e he j hj
        · exact R.ok d (List.mem_of_getElem? hd) j hj
      · intro v r hv; rw [contents_naming hlen hitems]; exact R.refs v r hv
      · intro v
        have : contents (d.items.foldl (Heap.nameMember n) h') = contents S.heap := funext (contents_naming hlen hitems)
        simp only [this]; exact R.vars v
  | mapPoints x y f =>
    simp only [ListState.exec, Option.bind_eq_bind, Option.bind_eq_some_iff, pure, Option.some.injEq] at h
    obtain ⟨l, hl, rfl⟩ := h
    rw [R.vars] at hl
    obtain ⟨r, hr, hl⟩ := Option.bind_eq_some_iff.1 hl
    have hb := contents_bound R.ok hl
    have hmm := mapMembers_char f l S.heap hb
    cases r with
    | member i =>
      simp only [contents] at hl
      split at hl
      case isFalse => cases hl
      rename_i hi
      cases hl
      have hi' : S.heap.members[i]? = some S.heap.members[i] := List.getElem?_eq_getElem hi
      refine ⟨_, by
        simp only [CollState.exec, hr, Heap.mapPoints, Heap.mapMember, hi', Option.bind_eq_bind, Option.bind_some]; rfl,
        R.extend (heapOk_members R.ok _) ?_ (fun r l => contents_append_members) ?_⟩
      · rw [← R.objects]
        simp only [List.filterMap_cons, hi', Option.map_some, List.filterMap_nil]
      · simp [contents, R.objects, List.range_succ_eq_map]
    | coll c =>
      simp only [contents, Option.map_eq_some_iff] at hl
      obtain ⟨d, hd, rfl⟩ := hl
      have hok' : HeapOk { S.heap with members := S.heap.members ++ d.items.filterMap (fun i => (S.heap.members[i]?).map (fun o => (f o.1, o.2))) } :=
        heapOk_members R.ok _
      have hlen : (d.items.filterMap (fun i => (S.heap.members[i]?).map (fun o => (f o.1, o.2)))).length = d.items.length := by
        exact filterMap_length_of_bound f S.heap.members d.items hb
      refine ⟨_, by
        simp only [CollState.exec, hr, Heap.mapPoints, hd, Option.bind_eq_bind, Option.bind_some, hmm, mkColl_inl]; rfl,
        R.extend (heapOk_append hok' ?_ none) (by simp only [R.objects]) (fun r l hl => contents_append (contents_append_members hl)) ?_⟩
      · intro i hi
        obtain ⟨j, hj, rfl⟩ := List.mem_map.1 hi
        have := List.mem_range.1 hj
        simp only [List.length_append, hlen]; omega
      · simp [contents, R.objects]

/-- If the interpreter executes a statement without an exception, the list semantics is defined. -/
theorem exec_defined (k : Kind) {S S' : CollState α} {T : ListState α} (R : Rel S T) (c : CollCmd α) (hc : NotIadd c)
    (h : S.exec k c = some S') : ∃ T', T.exec c = some T' := by
  have hv : ∀ {v r}, S.env v = some r → ∃ l, T.vars v = some l := by
    intro v r hr
    obtain ⟨l, hl⟩ := R.refs v r hr
    exact ⟨l, by rw [R.vars, hr]; exact hl⟩
  cases c with
  | new x a n => exact ⟨_, rfl⟩
  | add x y z =>
    simp only [CollState.exec, Option.bind_eq_bind, Option.bind_eq_some_iff] at h
    obtain ⟨ry, hy, rz, hz, _⟩ := h
    obtain ⟨ly, hly⟩ := hv hy
    obtain ⟨lz, hlz⟩ := hv hz
    exact ⟨_, by simp only [ListState.exec, hly, hlz]; rfl⟩
  | iadd x y => exact absurd hc id
  | setName x n =>
    simp only [CollState.exec, Option.bind_eq_bind, Option.bind_eq_some_iff] at h
    obtain ⟨ry, hy, _⟩ := h
    obtain ⟨ly, hly⟩ := hv hy
    exact ⟨_, by simp only [ListState.exec, hly]; rfl⟩
  | mapPoints x y f =>
    simp only [CollState.exec, Option.bind_eq_bind, Option.bind_eq_some_iff] at h
    obtain ⟨ry, hy, _⟩ := h
    obtain ⟨ly, hly⟩ := hv hy
    exact ⟨_, by simp only [ListState.exec, hly]; rfl⟩

theorem rel_init : Rel ({} : CollState α) ({} : ListState α) :=
  ⟨by simp [HeapOk], rfl, by simp, by simp⟩

theorem run_rel (k : Kind) (cs : List (CollCmd α)) {S S' : CollState α} {T : ListState α} (R : Rel S T)
    (hc : ∀ c ∈ cs, NotIadd c) (h : S.run k cs = some S') : ∃ T', T.run cs = some T' ∧ Rel S' T' := by
  induction cs generalizing S T with
  | nil => cases h; exact ⟨T, rfl, R⟩
  | cons c cs ih =>
    simp only [CollState.run, List.foldlM_cons, Option.bind_eq_bind, Option.bind_eq_some_iff] at h
    obtain ⟨S1, h1, h2⟩ := h
    obtain ⟨T1, hT1⟩ := exec_defined k R c (hc c (List.mem_cons_self ..)) h1
    obtain ⟨S1', h1', R1⟩ := exec_forward k R c hT1 (.inr ⟨S1, h1⟩)
    rw [h1] at h1'
    cases h1'
    obtain ⟨T', hT', R'⟩ := ih R1 (fun c hc' => hc c (List.mem_cons_of_mem _ hc')) h2
    exact ⟨T', by simp only [ListState.run, List.foldlM_cons, hT1]; exact hT', R'⟩

theorem run_total (cs : List (CollCmd α)) {S : CollState α} {T T' : ListState α} (R : Rel S T)
    (h : T.run cs = some T') : ∃ S', S.run .surface cs = some S' ∧ Rel S' T' := by
  induction cs generalizing S T with
  | nil => cases h; exact ⟨S, rfl, R⟩
  | cons c cs ih =>
    simp only [ListState.run, List.foldlM_cons, Option.bind_eq_bind, Option.bind_eq_some_iff] at h
    obtain ⟨T1, h1, h2⟩ := h
    obtain ⟨S1, hS1, R1⟩ := exec_forward .surface R c h1 (.inl rfl)
    obtain ⟨S', hS', R'⟩ := ih R1 h2
    exact ⟨S', by simp only [CollState.run, List.foldlM_cons, hS1]; exact hS', R'⟩

end Coll

variable {α : Type}

/-- **C31**, programs without `+=`. Whenever a program (any sequence of creations, `+`, `.name =`, `map_points`) runs
without an exception, for paths or for surfaces, its objects (shapes and names) and the lists of objects its variables stand
for are those of the list semantics; for surfaces it does run whenever the list semantics is defined. -/
theorem C31_programs_partial (cs : List (CollCmd α)) :
    (∀ k S, (∀ c ∈ cs, NotIadd c) → CollState.run k {} cs = some S →
      ∃ T, ListState.run {} cs = some T ∧ S.heap.members = T.objects ∧ ∀ v, (S.env v).bind (contents S.heap) = T.vars v) ∧
    (∀ T, ListState.run {} cs = some T →
      ∃ S, CollState.run .surface {} cs = some S ∧ S.heap.members = T.objects ∧
        ∀ v, (S.env v).bind (contents S.heap) = T.vars v) := by
  refine ⟨fun k S hc h => ?_, fun T h => ?_⟩
  · obtain ⟨T, hT, R⟩ := Coll.run_rel k cs Coll.rel_init hc h
    exact ⟨T, hT, R.objects, fun v => (R.vars v).symm⟩
  · obtain ⟨S, hS, R⟩ := Coll.run_total cs Coll.rel_init h
    exact ⟨S, hS, R.objects, fun v => (R.vars v).symm⟩

/-- **C31**, single additions: for existing operands, `a + b` raises exactly for a path on the left of a path collection;
otherwise it is a new collection made of the members of `a` followed by those of `b`, and no existing object changes. -/
theorem C31_add_partial (k : Kind) {h : Heap α} {a b : Ref} {la lb : List Nat} (ha : contents h a = some la)
    (hb : contents h b = some lb) :
    (h.add k a b = none ↔ k = .path ∧ ∃ i c, a = .member i ∧ b = .coll c) ∧
    ∀ r h', h.add k a b = some (r, h') → contents h' r = some (la ++ lb) ∧ contents h r = none ∧
      h'.members = h.members ∧ ∀ r' l, contents h r' = some l → contents h' r' = some l := by
  have hcases : (k = .path ∧ ∃ i c, a = .member i ∧ b = .coll c) ∨
      (k = .surface ∨ ¬∃ i c, a = .member i ∧ b = .coll c) := by
    cases k with
    | surface => exact .inr (.inl rfl)
    | path => exact (Classical.em (∃ i c, a = .member i ∧ b = .coll c)).elim (fun h => .inl ⟨rfl, h⟩) (fun h => .inr (.inr h))
  rcases hcases with ⟨rfl, i, c, rfl, rfl⟩ | hk
  · rw [Coll.add_path_fails]; simp
  · rw [Coll.add_char k ha hb hk]
    refine ⟨⟨by simp, ?_⟩, ?_⟩
    · rintro ⟨rfl, hh⟩; rcases hk with hk | hk
      · cases hk
      · exact absurd hh hk
    · rintro r h' e
      cases e
      exact ⟨by simp [contents], by simp [contents], rfl, fun r' l => Coll.contents_append⟩

/-- **C31**, `+=` on a single path or surface: the variable is bound to the new collection of that object followed by the members of `b` (or the statement raises, for a path and a path collection);
no existing object changes. -/
theorem C31_iadd_member_partial (k : Kind) {h : Heap α} {i : Nat} {b : Ref} {lb : List Nat} (ha : contents h (.member i) = some [i]) (hb : contents h b = some lb) :
    (h.iadd k (.member i) b = none ↔ k = .path ∧ ∃ c, b = .coll c) ∧
    ∀ v h', h.iadd k (.member i) b = some (v, h') → ∃ r, v = some r ∧ contents h' r = some (i :: lb) ∧ contents h r = none ∧
      h'.members = h.members ∧ ∀ r' l, contents h r' = some l → contents h' r' = some l := by
  obtain ⟨h1, h2⟩ := C31_add_partial k ha hb
  refine ⟨?_, fun v h' e => ?_⟩
  · show (h.add k (.member i) b).map _ = none ↔ _
    rw [Option.map_eq_none_iff, h1]
    constructor
    · rintro ⟨hk, j, c, -, hc⟩
      exact ⟨hk, c, hc⟩
    · rintro ⟨hk, c, hc⟩
      exact ⟨hk, i, c, rfl, hc⟩
  · obtain ⟨⟨r, h''⟩, e1, e2⟩ := Option.map_eq_some_iff.1 (show (h.add k (.member i) b).map _ = some (v, h') from e)
    cases e2
    exact ⟨r, rfl, h2 r h'' e1⟩

/-- **C31**, `+=` on a collection: the members of `b` are appended to the collection object itself (all variables that refer
to it see them), no other object changes, and the statement leaves the variable bound to `None`. -/
theorem C31_iadd_partial (k : Kind) {h : Heap α} {c : Nat} {b : Ref} {la lb : List Nat} (ha : contents h (.coll c) = some la)
    (hb : contents h b = some lb) :
    ∃ h', h.iadd k (.coll c) b = some (none, h') ∧ contents h' (.coll c) = some (la ++ lb) ∧ h'.members = h.members ∧
      ∀ r, r ≠ .coll c → contents h' r = contents h r := by
  simp only [contents, Option.map_eq_some_iff] at ha
  obtain ⟨d, hd, rfl⟩ := ha
  have hop : h.operandItems b = some lb := by
    cases b with
    | member i => simp only [contents] at hb; split at hb <;> simp_all [Heap.operandItems]
    | coll j => exact hb
  refine ⟨{ h with colls := h.colls.set c { d with items := d.items ++ lb } }, ?_, ?_, rfl, ?_⟩
  · simp only [Heap.iadd, Heap.iaddColl, hd, hop]; rfl
  · simp only [contents, List.getElem?_set, if_pos (List.getElem?_eq_some_iff.1 hd).1]; rfl
  · intro r hr
    cases r with
    | member i => rfl
    | coll j =>
      have : c ≠ j := fun e => hr (by rw [e])
      simp only [contents, List.getElem?_set, this, if_false]

/-- **C31 is false in the code**: `p + (q + r)` raises for paths; and after `c += p` the variable `c` is `None`, so that the next
use of `c` raises. -/
theorem C31_refuted :
    CollState.run (α := Nat) .path {} [.new "p" 0 none, .new "q" 1 none, .new "r" 2 none, .add "c" "q" "r", .add "d" "p" "c"] = none ∧
    (∃ S, CollState.run (α := Nat) .path {} [.new "p" 0 none, .new "q" 1 none, .add "c" "p" "q", .iadd "c" "p"] = some S ∧
      S.env "c" = none) ∧
    ∀ k, CollState.run (α := Nat) k {} [.new "p" 0 none, .new "q" 1 none, .add "c" "p" "q", .iadd "c" "p", .add "d" "c" "p"] = none := by
  refine ⟨rfl, ⟨_, rfl, rfl⟩, fun k => rfl⟩

/-- a program with shared members, a collection on both sides and a renamed collection -/
example : ∃ S, CollState.run (α := Nat) .path {} [.new "p" 0 (some "a"), .new "q" 1 none, .add "c" "p" "q", .add "d" "c" "c",
    .setName "d" (some "b"), .mapPoints "e" "d" (· + 10)] = some S ∧
    (S.env "e").bind (contents S.heap) = some [2, 3, 4, 5] ∧
    S.heap.members = [(0, some "b"), (1, some "b"), (10, some "b"), (11, some "b"), (10, some "b"), (11, some "b")] :=
  ⟨_, rfl, rfl, rfl⟩

/-! ## Meshing a collection -/
variable {P : Type} {G : Geo P}

/-- Two elements with the same corners, the second possibly reversed by `rev`. -/
def Spec.SameUpTo (G : Geo P) (rev : List P → List P) (a b : List P) : Prop :=
  Matches (fun p q => G.eq q p = true) a b ∨ Matches (fun p q => G.eq q p = true) (rev a) b

/-- Concatenation of the groups that exist. -/
def Spec.catAll {β : Type _} (gs : List (Option (List β))) : Option (List β) :=
  if gs.all Option.isNone then none else some (gs.flatMap (fun g => g.getD []))

/-- What is needed of the geometric decisions: clearing low bits twice is clearing them once (`C62_trunc_twice`), and whether a triangle
is degenerate depends on its corners only, not on their order. -/
structure Geo.Stable (G : Geo P) : Prop where
  trunc_twice : ∀ p, G.eq (G.trunc (G.trunc p)) (G.trunc p) = true
  deg_congr : ∀ p q r p' q' r', G.eq p' p = true → G.eq q' q = true → G.eq r' r = true → G.degenerate p' q' r' = G.degenerate p q r
  deg_swap : ∀ p q r, G.degenerate p r q = G.degenerate p q r

namespace Coll

theorem _root_.Traceon.Spec.Matches.trans {A B C : Type _} {R : A → B → Prop} {S : B → C → Prop} {T : A → C → Prop}
    (h : ∀ a b c, R a b → S b c → T a c) {as : List A} {bs : List B} {cs : List C} (h1 : Matches R as bs) (h2 : Matches S bs cs) :
    Matches T as cs := by
  refine ⟨h1.1.trans h2.1, fun k a c ha hc => ?_⟩
  have hk : k < bs.length := by rw [h2.1]; exact (List.getElem?_eq_some_iff.1 hc).1
  exact h a bs[k] c (h1.2 k a _ ha (List.getElem?_eq_getElem hk)) (h2.2 k _ c (List.getElem?_eq_getElem hk) hc)

theorem _root_.Traceon.Spec.Matches.refl {A : Type _} {R : A → A → Prop} (h : ∀ a, R a a) (as : List A) : Matches R as as :=
  ⟨rfl, fun k a b ha hb => by rw [ha] at hb; cases hb; exact h a⟩

theorem revLine_revLine {A : Type _} (l : List A) : Spec.revLine (Spec.revLine l) = l := by
  match l with
  | [] => rfl
  | [_] => rfl
  | [_, _] => rfl
  | [_, _, _] => rfl
  | [_, _, _, _] => rfl
  | _ :: _ :: _ :: _ :: _ :: _ => rfl

theorem revTri_revTri {A : Type _} (l : List A) : Spec.revTri (Spec.revTri l) = l := by
  match l with
  | [] => rfl
  | [_] => rfl
  | [_, _] => rfl
  | [_, _, _] => rfl
  | _ :: _ :: _ :: _ :: _ => rfl

/-- Properties of `revLine` and `revTri`. -/
structure GoodRev (G : Geo P) (rev : List P → List P) : Prop where
  twice : ∀ l, rev (rev l) = l
  compat : ∀ {a b}, Matches (fun p q => G.eq q p = true) a b → Matches (fun p q => G.eq q p = true) (rev a) (rev b)

theorem goodRev_line : GoodRev G Spec.revLine := ⟨revLine_revLine, fun h => h.revLine⟩
theorem goodRev_tri : GoodRev G Spec.revTri := ⟨revTri_revTri, fun h => h.revTri⟩

theorem sameUpTo_refl (hG : G.Lawful) (rev : List P → List P) (a : List P) : SameUpTo G rev a a :=
  .inl (Matches.refl (fun p => hG.eq_refl p) a)

theorem sameUpTo_trans (hG : G.Lawful) {rev : List P → List P} (hr : GoodRev G rev) (a b c : List P) (h1 : SameUpTo G rev a b)
    (h2 : SameUpTo G rev b c) : SameUpTo G rev a c := by
  have tr : ∀ {a b c : List P}, Matches (fun p q => G.eq q p = true) a b → Matches (fun p q => G.eq q p = true) b c →
      Matches (fun p q => G.eq q p = true) a c := fun h1 h2 =>
    Matches.trans (R := fun p q => G.eq q p = true) (S := fun p q => G.eq q p = true) (T := fun p q => G.eq q p = true)
      (fun _ _ _ h1 h2 => hG.eq_trans h2 h1) h1 h2
  rcases h1 with h1 | h1 <;> rcases h2 with h2 | h2
  · exact .inl (tr h1 h2)
  · exact .inr (tr (hr.compat h1) h2)
  · exact .inr (tr h1 h2)
  · left; have := tr (hr.compat h1) h2; rwa [hr.twice] at this

theorem group_trans (hG : G.Lawful) {rev : List P → List P} (hr : GoodRev G rev) {a b c : Option (List (List P))}
    (h1 : MatchesGroup (SameUpTo G rev) a b) (h2 : MatchesGroup (SameUpTo G rev) b c) : MatchesGroup (SameUpTo G rev) a c := by
  cases a <;> cases b <;> cases c <;> simp only [MatchesGroup] at h1 h2 ⊢
  exact Matches.trans (sameUpTo_trans hG hr) h1 h2

theorem group_cat (hG : G.Lawful) {rev : List P → List P} {a b : Option (List (List P))} (c : Option (List (List P)))
    (h : MatchesGroup (SameUpTo G rev) a b) : MatchesGroup (SameUpTo G rev) (catOpt a c) (catOpt b c) := by
  have hr := Matches.refl (sameUpTo_refl hG rev)
  cases a <;> cases b <;> cases c <;> simp only [MatchesGroup, catOpt] at h ⊢
  · exact hr _
  · simpa using h
  · exact h.append (hr _)

theorem catAll_cons {β : Type _} (g : Option (List β)) (gs : List (Option (List β))) : catAll (g :: gs) = catOpt g (catAll gs) := by
  unfold catAll
  cases g with
  | none =>
    by_cases h : gs.all Option.isNone = true
    · simp [h, catOpt]
    · simp [h, catOpt]
  | some l =>
    have : gs.all Option.isNone = true → gs.flatMap (fun g => g.getD []) = [] := by
      intro h
      rw [List.flatMap_eq_nil_iff]
      intro g hg
      have := List.all_eq_true.1 h g hg
      cases g <;> simp_all
    by_cases h : gs.all Option.isNone = true
    · simp [h, catOpt, this h]
    · simp [h, catOpt]

theorem catOpt_assoc {β : Type _} (a b c : Option (List β)) : catOpt (catOpt a b) c = catOpt a (catOpt b c) := by
  cases a <;> cases b <;> cases c <;> simp [catOpt]

theorem catOpt_filter {β : Type _} (p : β → Bool) (a b : Option (List β)) :
    (catOpt a b).map (·.filter p) = catOpt (a.map (·.filter p)) (b.map (·.filter p)) := by
  cases a <;> cases b <;> simp [catOpt]

/-- All points of the mesh have cleared low bits. -/
def Cleared (G : Geo P) (m : Mesh P) : Prop := ∀ p ∈ m.points, G.eq (G.trunc p) p = true

theorem coords_mem {pts : List P} {e : List Nat} {p : P} (h : p ∈ coords pts e) : p ∈ pts := by
  obtain ⟨i, _, hi⟩ := List.mem_filterMap.1 h
  exact List.mem_of_getElem? hi

theorem mem_revLine {A : Type _} {l : List A} {x : A} (h : x ∈ Spec.revLine l) : x ∈ l := by
  unfold Spec.revLine at h; split at h <;> simp_all <;> grind

theorem mem_revTri {A : Type _} {l : List A} {x : A} (h : x ∈ Spec.revTri l) : x ∈ l := by
  unfold Spec.revTri at h; split at h <;> simp_all <;> grind

theorem upTo_of_shape (hG : G.Lawful) {a b : List P} (ha : ∀ p ∈ a, G.eq (G.trunc p) p = true) (h : SameShape G a b) :
    Matches (fun p q => G.eq q p = true) a b :=
  ⟨h.1, fun k p q hp hq => hG.eq_trans (h.2 k p q hp hq) (ha p (List.mem_of_getElem? hp))⟩

theorem upTo_of_sameLine (hG : G.Lawful) {a b : List P} (ha : ∀ p ∈ a, G.eq (G.trunc p) p = true) (h : SameLine G a b) :
    SameUpTo G Spec.revLine a b :=
  h.imp (upTo_of_shape hG ha) (upTo_of_shape hG (fun p hp => ha p (mem_revLine hp)))

theorem upTo_of_sameTri (hG : G.Lawful) {a b : List P} (ha : ∀ p ∈ a, G.eq (G.trunc p) p = true) (h : SameTri G a b) :
    SameUpTo G Spec.revTri a b :=
  h.imp (upTo_of_shape hG ha) (upTo_of_shape hG (fun p hp => ha p (mem_revTri hp)))

theorem matches_mem {A B : Type _} {R S : A → B → Prop} {as : List A} {bs : List B} (h : ∀ a ∈ as, ∀ b, R a b → S a b)
    (hm : Matches R as bs) : Matches S as bs :=
  ⟨hm.1, fun k a b ha hb => h a (List.mem_of_getElem? ha) b (hm.2 k a b ha hb)⟩

theorem nonDeg_match (hS : G.Stable) {a b : List P} (h : Matches (fun p q => G.eq q p = true) a b) : nonDegShape G b = nonDegShape G a := by
  obtain ⟨hl, hh⟩ := h
  match a, b, hl, hh with
  | [p, q, r], [p', q', r'], _, hh =>
    simp only [nonDegShape]
    rw [hS.deg_congr p q r p' q' r' (hh 0 p p' rfl rfl) (hh 1 q q' rfl rfl) (hh 2 r r' rfl rfl)]
  | [], [], _, _ => rfl
  | [_], [_], _, _ => rfl
  | [_, _], [_, _], _, _ => rfl
  | _ :: _ :: _ :: _ :: _, _ :: _ :: _ :: _ :: _, _, _ => rfl

theorem nonDeg_rev (hS : G.Stable) (a : List P) : nonDegShape G (Spec.revTri a) = nonDegShape G a := by
  unfold Spec.revTri; split
  · simp only [nonDegShape, hS.deg_swap]
  · rfl

theorem nonDeg_upTo (hS : G.Stable) {a b : List P} (h : SameUpTo G Spec.revTri a b) : nonDegShape G b = nonDegShape G a := by
  rcases h with h | h
  · exact nonDeg_match hS h
  · rw [nonDeg_match hS h, nonDeg_rev hS]

/-- `m` consists of lines with `cols` points. -/
def Cols (cols : Nat) (m : Mesh P) : Prop := ∀ s ∈ lineShapes m, s.length = cols

theorem cols_eq {m : Mesh P} {cols : Nat} (hv : Valid m) (h : Cols cols m) : m.lines = [] ∨ m.lineCols = cols := by
  cases hm : m.lines with
  | nil => exact .inl rfl
  | cons e es =>
    right
    have he : e ∈ m.lines := by rw [hm]; exact List.mem_cons_self ..
    rw [← (hv.lines e he).1, ← h _ (List.mem_map.2 ⟨e, he, rfl⟩), coords_length (hv.lines e he).2]

theorem revLine_length {A : Type _} (l : List A) : (Spec.revLine l).length = l.length := by
  unfold Spec.revLine; split <;> rfl

/-- Sum of two meshes with cleared points. -/
theorem add_step (hG : G.Lawful) (hS : G.Stable) {cols : Nat} {m1 m2 : Mesh P} (v1 : Valid m1) (v2 : Valid m2) (c1 : Cleared G m1)
    (c2 : Cleared G m2) (k1 : Cols cols m1) (k2 : Cols cols m2) :
    ∃ M, Mesh.add G m1 m2 = some M ∧ Valid M ∧ Cleared G M ∧ Cols cols M ∧
      Matches (SameUpTo G Spec.revLine) (lineShapes m1 ++ lineShapes m2) (lineShapes M) ∧
      Matches (SameUpTo G Spec.revTri) ((triShapes m1 ++ triShapes m2).filter (nonDegShape G)) (triShapes M) ∧
      (∀ n, MatchesGroup (SameUpTo G Spec.revLine) (catOpt (lineGroup m1 n) (lineGroup m2 n)) (lineGroup M n)) ∧
      (∀ n, MatchesGroup (SameUpTo G Spec.revTri) ((catOpt (triGroup m1 n) (triGroup m2 n)).map (·.filter (nonDegShape G))) (triGroup M n)) := by
  have hc : m1.lines = [] ∨ m2.lines = [] ∨ m1.lineCols = m2.lineCols := by
    rcases cols_eq v1 k1 with h | h
    · exact .inl h
    · rcases cols_eq v2 k2 with h' | h'
      · exact .inr (.inl h')
      · exact .inr (.inr (h.trans h'.symm))
  obtain ⟨m, ha, hv, hls, hts, hp, hlg, htg⟩ := Mesh.addRaw_spec m1 m2 v1 v2 hc
  obtain ⟨M, hM, r⟩ := Mesh.build_shapes hG m hv true
  have hcl : ∀ p ∈ m.points, G.eq (G.trunc p) p = true := by
    intro p hp'
    rw [hp] at hp'
    rcases List.mem_append.1 hp' with h | h
    · exact c1 p h
    · exact c2 p h
  have hshape : ∀ s ∈ lineShapes m, ∀ p ∈ s, G.eq (G.trunc p) p = true := by
    intro s hs p hp'
    obtain ⟨e, _, rfl⟩ := List.mem_map.1 hs
    exact hcl p (coords_mem hp')
  have hshapeT : ∀ s ∈ triShapes m, ∀ p ∈ s, G.eq (G.trunc p) p = true := by
    intro s hs p hp'
    obtain ⟨e, _, rfl⟩ := List.mem_map.1 hs
    exact hcl p (coords_mem hp')
  have hgl : ∀ n g, lineGroup m n = some g → ∀ s ∈ g, s ∈ lineShapes m := by
    intro n g hg s hs
    simp only [lineGroup, Option.map_eq_some_iff] at hg
    obtain ⟨_, _, rfl⟩ := hg
    obtain ⟨i, _, hi⟩ := List.mem_filterMap.1 hs
    exact List.mem_of_getElem? hi
  have hgt : ∀ n g, triGroup m n = some g → ∀ s ∈ g, s ∈ triShapes m := by
    intro n g hg s hs
    simp only [triGroup, Option.map_eq_some_iff] at hg
    obtain ⟨_, _, rfl⟩ := hg
    obtain ⟨i, _, hi⟩ := List.mem_filterMap.1 hs
    exact List.mem_of_getElem? hi
  have hlines := matches_mem (fun a ha b => upTo_of_sameLine hG (hshape a ha)) r.lines
  refine ⟨M, by unfold Mesh.add; rw [ha]; exact hM, r.valid, ?_, ?_, by rw [← hls]; exact hlines, ?_, fun n => ?_, fun n => ?_⟩
  · intro q hq
    obtain ⟨p, _, rfl⟩ := r.from' q hq
    exact hS.trunc_twice p
  · intro s hs
    obtain ⟨k, hk⟩ := List.getElem?_of_mem hs
    obtain ⟨a, ha⟩ : ∃ a, (lineShapes m)[k]? = some a :=
      ⟨_, List.getElem?_eq_getElem (by rw [hlines.1]; exact (List.getElem?_eq_some_iff.1 hk).1)⟩
    have h1 := hlines.2 k a s ha hk
    have h2 : a.length = cols := by
      have := List.mem_of_getElem? ha
      rw [hls] at this
      rcases List.mem_append.1 this with h | h
      · exact k1 a h
      · exact k2 a h
    rcases h1 with h1 | h1
    · rw [← h1.1, h2]
    · rw [← h1.1, revLine_length, h2]
  · rw [← hts]
    exact matches_mem (fun a ha b => upTo_of_sameTri hG (hshapeT a (List.mem_filter.1 ha).1)) r.tris
  · have := r.lineGroups n
    rw [← hlg]
    cases hg : lineGroup m n <;> cases hg' : lineGroup M n <;> rw [hg, hg'] at this <;> simp only [MatchesGroup] at this ⊢
    exact matches_mem (fun a ha b => upTo_of_sameLine hG (hshape a (hgl n _ hg a ha))) this
  · have := r.triGroups n
    rw [← htg]
    cases hg : triGroup m n <;> cases hg' : triGroup M n <;> rw [hg, hg'] at this <;>
      simp only [MatchesGroup, Option.map_some, Option.map_none] at this ⊢
    exact matches_mem (fun a ha b => upTo_of_sameTri hG (hshapeT a (hgt n _ hg a (List.mem_filter.1 ha).1))) this

theorem all_nonDeg (hS : G.Stable) {as bs : List (List P)} (h : Matches (SameUpTo G Spec.revTri) (as.filter (nonDegShape G)) bs) :
    bs.filter (nonDegShape G) = bs := by
  rw [List.filter_eq_self]
  intro b hb
  obtain ⟨k, hk⟩ := List.getElem?_of_mem hb
  obtain ⟨a, ha⟩ : ∃ a, (as.filter (nonDegShape G))[k]? = some a :=
    ⟨_, List.getElem?_eq_getElem (by rw [h.1]; exact (List.getElem?_eq_some_iff.1 hk).1)⟩
  rw [nonDeg_upTo hS (h.2 k a b ha hk)]
  exact (List.mem_filter.1 (List.mem_of_getElem? ha)).2

theorem fold_spec (hG : G.Lawful) (hS : G.Stable) {cols : Nat} (ms : List (Mesh P)) (m0 : Mesh P) (v0 : Valid m0) (c0 : Cleared G m0)
    (k0 : Cols cols m0) (hms : ∀ m ∈ ms, Valid m ∧ Cleared G m ∧ Cols cols m) :
    ∃ M, ms.foldlM (Mesh.add G) m0 = some M ∧ Valid M ∧
      Matches (SameUpTo G Spec.revLine) (lineShapes m0 ++ ms.flatMap lineShapes) (lineShapes M) ∧
      (∀ n, MatchesGroup (SameUpTo G Spec.revLine) (catOpt (lineGroup m0 n) (catAll (ms.map (lineGroup · n)))) (lineGroup M n)) ∧
      ((∀ s ∈ triShapes m0, nonDegShape G s = true) →
        Matches (SameUpTo G Spec.revTri) (triShapes m0 ++ (ms.flatMap triShapes).filter (nonDegShape G)) (triShapes M)) ∧
      (∀ n, (∀ g, triGroup m0 n = some g → ∀ s ∈ g, nonDegShape G s = true) →
        MatchesGroup (SameUpTo G Spec.revTri)
          (catOpt (triGroup m0 n) ((catAll (ms.map (triGroup · n))).map (·.filter (nonDegShape G)))) (triGroup M n)) := by
  induction ms generalizing m0 with
  | nil =>
    refine ⟨m0, rfl, v0, ?_, ?_, ?_, ?_⟩
    · simpa using Matches.refl (sameUpTo_refl hG _) _
    · intro n
      cases lineGroup m0 n <;> simp [catAll, catOpt, MatchesGroup]
      exact Matches.refl (sameUpTo_refl hG _) _
    · intro _; simpa using Matches.refl (sameUpTo_refl hG _) _
    · intro n _
      cases triGroup m0 n <;> simp [catAll, catOpt, MatchesGroup]
      exact Matches.refl (sameUpTo_refl hG _) _
  | cons m ms ih =>
    obtain ⟨vm, cm, km⟩ := hms m (List.mem_cons_self ..)
    obtain ⟨M1, h1, v1, c1, k1, hl1, ht1, hlg1, htg1⟩ := add_step hG hS v0 vm c0 cm k0 km
    obtain ⟨M, h2, v2, hl2, hlg2, ht2, htg2⟩ := ih M1 v1 c1 k1 (fun m' hm' => hms m' (List.mem_cons_of_mem _ hm'))
    have nd1 : ∀ s ∈ triShapes M1, nonDegShape G s = true := by
      intro s hs
      have := all_nonDeg hS ht1
      rw [List.filter_eq_self] at this
      exact this s hs
    refine ⟨M, by rw [List.foldlM_cons, h1]; exact h2, v2, ?_, fun n => ?_, fun hnd => ?_, fun n hnd => ?_⟩
    · rw [List.flatMap_cons, ← List.append_assoc]
      exact Matches.trans (sameUpTo_trans hG goodRev_line) (hl1.append (Matches.refl (sameUpTo_refl hG _) _)) hl2
    · rw [List.map_cons, catAll_cons, ← catOpt_assoc]
      exact group_trans hG goodRev_line (group_cat hG _ (hlg1 n)) (hlg2 n)
    · rw [List.flatMap_cons, List.filter_append, ← List.append_assoc]
      have h3 : triShapes m0 ++ (triShapes m).filter (nonDegShape G) = (triShapes m0 ++ triShapes m).filter (nonDegShape G) := by
        rw [List.filter_append, List.filter_eq_self.2 hnd]
      rw [h3]
      exact Matches.trans (sameUpTo_trans hG goodRev_tri) (ht1.append (Matches.refl (sameUpTo_refl hG _) _)) (ht2 nd1)
    · rw [List.map_cons, catAll_cons, catOpt_filter, ← catOpt_assoc]
      have h3 : (triGroup m0 n).map (·.filter (nonDegShape G)) = triGroup m0 n := by
        cases hg : triGroup m0 n with
        | none => rfl
        | some g => simp only [Option.map_some, List.filter_eq_self.2 (hnd g hg)]
      have h4 := htg1 n
      rw [catOpt_filter, h3] at h4
      refine group_trans hG goodRev_tri (group_cat hG _ h4) (htg2 n ?_)
      intro g hg s hs
      simp only [triGroup, Option.map_eq_some_iff] at hg
      obtain ⟨_, _, rfl⟩ := hg
      obtain ⟨i, _, hi⟩ := List.mem_filterMap.1 hs
      exact nd1 s (List.mem_of_getElem? hi)

end Coll

/-- **C31**, meshing. If the meshes `ms` of the members (with the name that applies) are valid and have lines of one kind, then the
collection is meshed, and its mesh consists of the lines and the non-degenerate triangles of the meshes of the members, one member after
the other (elements may be turned around, since addition orients named groups outward), and under every name are the elements that the members have under that name. -/
theorem C31_mesh (hG : G.Lawful) (hS : G.Stable) (meshMember : α → Option String → Option String → Option (Mesh P)) (h : Heap α) (c : Nat)
    (d : Coll) (name : Option String) (hd : h.colls[c]? = some d) (ms : List (Mesh P))
    (hms : d.items.mapM (fun i => do let p ← h.members[i]?; meshMember p.1 p.2 (name.or d.name)) = some ms) (cols : Nat)
    (hv : ∀ m ∈ ms, Valid m ∧ (∀ p ∈ m.points, G.eq (G.trunc p) p = true) ∧ ∀ s ∈ lineShapes m, s.length = cols) :
    ∃ M, h.mesh G meshMember c name = some M ∧ Valid M ∧
      Matches (SameUpTo G Spec.revLine) (ms.flatMap lineShapes) (lineShapes M) ∧
      Matches (SameUpTo G Spec.revTri) ((ms.flatMap triShapes).filter (nonDegShape G)) (triShapes M) ∧
      (∀ n, MatchesGroup (SameUpTo G Spec.revLine) (catAll (ms.map (lineGroup · n))) (lineGroup M n)) ∧
      (∀ n, MatchesGroup (SameUpTo G Spec.revTri) ((catAll (ms.map (triGroup · n))).map (·.filter (nonDegShape G))) (triGroup M n)) := by
  have he : Valid ({} : Mesh P) := by refine ⟨Or.inl rfl, ?_, ?_, ?_, ?_, ?_, ?_⟩ <;> simp
  obtain ⟨M, h1, h2, h3, h4, h5, h6⟩ := Coll.fold_spec hG hS (cols := cols) ms {} he (by simp [Coll.Cleared]) (by simp [Coll.Cols, lineShapes]) hv
  have hfold : ∀ (l : List Nat) (ms : List (Mesh P)) (m0 : Mesh P),
      l.mapM (fun i => do let p ← h.members[i]?; meshMember p.1 p.2 (name.or d.name)) = some ms →
      l.foldlM (fun m i => do let p ← h.members[i]?; Mesh.add G m (← meshMember p.1 p.2 (name.or d.name))) m0 = ms.foldlM (Mesh.add G) m0 := by
    intro l
    induction l with
    | nil => intro ms m0 h; cases h; rfl
    | cons i l ih =>
      intro ms m0 h
      simp only [List.mapM_cons, Option.bind_eq_bind, Option.bind_eq_some_iff, pure, Option.some.injEq] at h
      obtain ⟨m, ⟨p, hp, hm⟩, ms', hms', rfl⟩ := h
      simp only [List.foldlM_cons, hp, hm, Option.bind_eq_bind, Option.bind_some]
      cases hadd : Mesh.add G m0 m with
      | none => rfl
      | some m1 => exact ih ms' m1 hms'
  have hcat : ∀ {β : Type} (x : Option (List β)), catOpt none x = x := by intro β x; cases x <;> simp [catOpt]
  refine ⟨M, ?_, h2, by simpa [lineShapes] using h3, ?_, fun n => ?_, fun n => ?_⟩
  · simp only [Heap.mesh, hd, Option.bind_eq_bind, Option.bind_some]
    exact (hfold _ _ _ hms).trans h1
  · have := h5 (by simp [triShapes])
    simpa [triShapes] using this
  · have := h4 n
    have e : lineGroup ({} : Mesh P) n = none := rfl
    rwa [e, hcat] at this
  · have := h6 n (by intro g hg; cases hg)
    have e : triGroup ({} : Mesh P) n = none := rfl
    rwa [e, hcat] at this

theorem intGeo_stable : intGeo.Stable where
  trunc_twice p := by simp [intGeo]
  deg_congr p q r p' q' r' h1 h2 h3 := by
    simp only [intGeo, beq_iff_eq] at h1 h2 h3 ⊢
    rw [h1, h2, h3]
  deg_swap p q r := by
    rw [Bool.eq_iff_iff]
    simp only [intGeo, IPoint.cross, IPoint.sub, beq_iff_eq, IPoint.mk.injEq]
    constructor <;> rintro ⟨h1, h2, h3⟩ <;> refine ⟨?_, ?_, ?_⟩ <;> grind

/-- two member meshes that share a corner, in a collection with a name -/
def exHeap : Heap (Mesh IPoint) :=
  { members := [(exSquare, none), (exSecond, some "x")], colls := [{ items := [0, 1, 1] }] }

/-- the hypotheses of `C31_mesh` hold for a collection that contains one member twice -/
example : ∃ ms, (exHeap.colls[0]?.map (·.items)).bind (fun l => l.mapM (fun i => do
      let p ← exHeap.members[i]?; (fun m _ _ => some m : Mesh IPoint → Option String → Option String → Option (Mesh IPoint)) p.1 p.2 none)) = some ms ∧
    ∀ m ∈ ms, Valid m ∧ (∀ p ∈ m.points, intGeo.eq (intGeo.trunc p) p = true) ∧ ∀ s ∈ lineShapes m, s.length = 2 := by
  refine ⟨[exSquare, exSecond, exSecond], rfl, ?_⟩
  have h2 : Valid exSecond := by refine ⟨Or.inl rfl, ?_, ?_, ?_, ?_, ?_, ?_⟩ <;> decide
  intro m hm
  simp only [List.mem_cons, List.not_mem_nil, or_false] at hm
  rcases hm with rfl | rfl | rfl
  · exact ⟨exSquare_valid, by decide, by decide⟩
  · exact ⟨h2, by decide, by decide⟩
  · exact ⟨h2, by decide, by decide⟩

example : (exHeap.mesh intGeo (fun m _ _ => some m) 0 none).map (fun M => (M.points.length, M.lines.length, M.physLines)) =
    some (5, 8, [("electrode", [0, 1, 2, 3, 5, 7]), ("other", [4, 6])]) := by decide +kernel

end Traceon
