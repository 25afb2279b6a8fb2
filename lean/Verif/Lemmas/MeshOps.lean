import Verif.Lemmas.Shape

/-! Lemmas about addition, extraction, flipping and meshio conversion. -/
namespace Traceon
open Spec
variable {P : Type} {G : Geo P}

theorem filterMap_congr' {α β : Type _} {f g : α → Option β} :
    ∀ {l : List α}, (∀ x ∈ l, f x = g x) → l.filterMap f = l.filterMap g
  | [], _ => rfl
  | a :: l, h => by
    rw [List.filterMap_cons, List.filterMap_cons, h a (by simp),
      filterMap_congr' (l := l) (fun x hx => h x (by simp [hx]))]

/-! ### merging dictionaries -/

/-- values with key `n` in a list of pairs, concatenated -/
def catVals (l : List (String × List Nat)) (n : String) : List Nat :=
  (l.filter (fun p => p.1 == n)).flatMap (·.2)

theorem catVals_of_nodup {d : Dict (List Nat)} (h : d.keys.Nodup) (n : String) :
    catVals d n = (d.get n).getD [] := by
  induction d with
  | nil => rfl
  | cons p d ih =>
    obtain ⟨k, v⟩ := p
    have h' : k ∉ Dict.keys d ∧ (Dict.keys d).Nodup := List.nodup_cons.1 h
    rw [Dict.get_cons]
    unfold catVals at ih ⊢
    by_cases hk : k = n
    · subst hk
      have := ih h'.2
      rw [Dict.get_none_iff.2 h'.1] at this
      simp only [List.filter_cons, beq_self_eq_true, if_true, List.flatMap_cons, this]
      simp
    · have hk' : (k == n) = false := by simpa using hk
      simp only [List.filter_cons, hk', Bool.false_eq_true, if_false, hk]
      exact ih h'.2

namespace Mesh

/-- one step of the loop in `_merge_dicts` -/
def mergeStep (d : Dict (List Nat)) (kv : String × List Nat) : Dict (List Nat) :=
  match d.get kv.1 with
  | some v => d.set kv.1 (v ++ kv.2)
  | none => d.set kv.1 kv.2

theorem mergeDicts_eq (d1 d2 : Dict (List Nat)) : mergeDicts d1 d2 = (d1 ++ d2).foldl mergeStep [] := by
  unfold mergeDicts
  congr 1

theorem mergeStep_get (d : Dict (List Nat)) (kv : String × List Nat) (n : String) :
    (mergeStep d kv).get n = if kv.1 = n then some ((d.get n).getD [] ++ kv.2) else d.get n := by
  unfold mergeStep
  split
  · rename_i v hv
    rw [Dict.get_set]
    split
    · rename_i h; subst h; rw [hv]; rfl
    · rfl
  · rename_i hv
    rw [Dict.get_set]
    split
    · rename_i h; subst h; rw [hv]; rfl
    · rfl

theorem mergeStep_keys_nodup {d : Dict (List Nat)} (h : d.keys.Nodup) (kv : String × List Nat) :
    (mergeStep d kv).keys.Nodup := by
  unfold mergeStep
  split <;> exact Dict.keys_set_nodup h

theorem foldl_mergeStep_get (l : List (String × List Nat)) (d : Dict (List Nat)) (n : String) :
    (l.foldl mergeStep d).get n =
      if n ∈ l.map (·.1) ∨ n ∈ d.keys then some ((d.get n).getD [] ++ catVals l n) else none := by
  induction l generalizing d with
  | nil =>
    simp only [List.foldl_nil, catVals, List.filter_nil, List.flatMap_nil, List.append_nil,
      List.map_nil, List.not_mem_nil, false_or]
    split
    · rename_i h
      rw [← Dict.get_isSome_iff] at h
      cases hg : d.get n <;> simp_all
    · rename_i h
      exact Dict.get_none_iff.2 h
  | cons kv l ih =>
    rw [List.foldl_cons, ih, mergeStep_get]
    have hkeys : n ∈ (mergeStep d kv).keys ↔ kv.1 = n ∨ n ∈ d.keys := by
      rw [← Dict.get_isSome_iff, mergeStep_get, ← Dict.get_isSome_iff]
      split <;> simp_all
    by_cases hk : kv.1 = n
    · have hk' : (kv.1 == n) = true := by simpa using hk
      have c1 : n ∈ l.map (·.1) ∨ n ∈ (mergeStep d kv).keys := Or.inr (hkeys.2 (Or.inl hk))
      have c2 : n ∈ (kv :: l).map (·.1) ∨ n ∈ d.keys := Or.inl (by simp [hk])
      rw [if_pos c1, if_pos c2, if_pos hk]
      simp only [catVals, List.filter_cons, hk', if_true, List.flatMap_cons, Option.getD_some,
        List.append_assoc]
    · have hk' : (kv.1 == n) = false := by simpa using hk
      rw [if_neg hk]
      have hc : (n ∈ l.map (·.1) ∨ n ∈ (mergeStep d kv).keys) ↔ (n ∈ (kv :: l).map (·.1) ∨ n ∈ d.keys) := by
        rw [hkeys]
        simp only [List.map_cons, List.mem_cons, hk, false_or]
        constructor
        · rintro (h | h)
          · exact Or.inl (Or.inr h)
          · exact Or.inr h
        · rintro ((h | h) | h)
          · exact absurd h.symm hk
          · exact Or.inl h
          · exact Or.inr h
      have hv : catVals (kv :: l) n = catVals l n := by
        simp [catVals, hk']
      rw [hv]
      by_cases h : n ∈ l.map (·.1) ∨ n ∈ (mergeStep d kv).keys
      · rw [if_pos h, if_pos (hc.1 h)]
      · rw [if_neg h, if_neg (fun h' => h (hc.2 h'))]

theorem mergeDicts_get {d1 d2 : Dict (List Nat)} (h1 : d1.keys.Nodup) (h2 : d2.keys.Nodup)
    (n : String) : (mergeDicts d1 d2).get n = catOpt (d1.get n) (d2.get n) := by
  rw [mergeDicts_eq, foldl_mergeStep_get]
  have hc : catVals (d1 ++ d2) n = (d1.get n).getD [] ++ (d2.get n).getD [] := by
    rw [← catVals_of_nodup h1, ← catVals_of_nodup h2]
    simp [catVals]
  rw [hc]
  have hk : (n ∈ (d1 ++ d2).map (·.1) ∨ n ∈ Dict.keys ([] : Dict (List Nat))) ↔
      ((d1.get n).isSome ∨ (d2.get n).isSome) := by
    rw [Dict.get_isSome_iff, Dict.get_isSome_iff]
    simp [Dict.keys]
  by_cases h : n ∈ (d1 ++ d2).map (·.1) ∨ n ∈ Dict.keys ([] : Dict (List Nat))
  · rw [if_pos h]
    rw [hk] at h
    cases h3 : d1.get n <;> cases h4 : d2.get n <;> simp_all [catOpt]
  · rw [if_neg h]
    rw [hk] at h
    cases h3 : d1.get n <;> cases h4 : d2.get n <;> simp_all [catOpt]

theorem mergeDicts_keys_nodup (d1 d2 : Dict (List Nat)) : (mergeDicts d1 d2).keys.Nodup := by
  rw [mergeDicts_eq]
  generalize d1 ++ d2 = l
  have : ∀ (l : List (String × List Nat)) (d : Dict (List Nat)), d.keys.Nodup →
      (l.foldl mergeStep d).keys.Nodup := by
    intro l
    induction l with
    | nil => exact fun d h => h
    | cons kv l ih => exact fun d h => ih _ (mergeStep_keys_nodup h kv)
  exact this l [] (by simp [Dict.keys])

theorem mergeDicts_bound {d1 d2 : Dict (List Nat)} (h1 : d1.keys.Nodup) (h2 : d2.keys.Nodup)
    {B : Nat} (hb1 : ∀ kv ∈ d1, ∀ i ∈ kv.2, i < B) (hb2 : ∀ kv ∈ d2, ∀ i ∈ kv.2, i < B) :
    ∀ kv ∈ mergeDicts d1 d2, ∀ i ∈ kv.2, i < B := by
  rintro ⟨k, v⟩ hkv i hi
  have hg := Dict.get_of_mem (mergeDicts_keys_nodup d1 d2) hkv
  rw [mergeDicts_get h1 h2] at hg
  have hmem : i ∈ (d1.get k).getD [] ∨ i ∈ (d2.get k).getD [] := by
    cases h3 : d1.get k <;> cases h4 : d2.get k <;> rw [h3, h4] at hg <;>
      simp [catOpt] at hg <;> subst hg <;> simp_all
  rcases hmem with h | h
  · cases h3 : d1.get k with
    | none => rw [h3] at h; simp at h
    | some w => rw [h3] at h; exact hb1 _ (Dict.mem_of_get h3) i h
  · cases h3 : d2.get k with
    | none => rw [h3] at h; simp at h
    | some w => rw [h3] at h; exact hb2 _ (Dict.mem_of_get h3) i h

/-! ### addition -/

theorem coords_append_left {pts1 pts2 : List P} {e : List Nat} (h : ∀ i ∈ e, i < pts1.length) :
    coords (pts1 ++ pts2) e = coords pts1 e := by
  unfold coords
  apply filterMap_congr'
  intro i hi
  rw [List.getElem?_append_left (h i hi)]

theorem coords_append_right {pts1 pts2 : List P} {e : List Nat} :
    coords (pts1 ++ pts2) (e.map (· + pts1.length)) = coords pts2 e := by
  unfold coords
  rw [List.filterMap_map]
  apply filterMap_congr'
  intro i _
  simp only [Function.comp]
  rw [List.getElem?_append_right (by omega)]
  simp

theorem filterMap_index_append_left {α : Type _} {a b : List α} {g : List Nat}
    (h : ∀ i ∈ g, i < a.length) :
    g.filterMap (fun i => (a ++ b)[i]?) = g.filterMap (fun i => a[i]?) := by
  apply filterMap_congr'
  intro i hi
  rw [List.getElem?_append_left (h i hi)]

theorem filterMap_index_append_right {α : Type _} {a b : List α} {g : List Nat} :
    (g.map (· + a.length)).filterMap (fun i => (a ++ b)[i]?) = g.filterMap (fun i => b[i]?) := by
  rw [List.filterMap_map]
  apply filterMap_congr'
  intro i _
  simp only [Function.comp]
  rw [List.getElem?_append_right (by omega)]
  simp

/-- The raw sum: valid and, seen as shapes, a concatenation. -/
theorem addRaw_spec (m1 m2 : Mesh P) (h1 : Valid m1) (h2 : Valid m2)
    (hc : m1.lines = [] ∨ m2.lines = [] ∨ m1.lineCols = m2.lineCols) :
    ∃ m, addRaw m1 m2 = some m ∧ Valid m ∧ lineShapes m = lineShapes m1 ++ lineShapes m2 ∧
      triShapes m = triShapes m1 ++ triShapes m2 ∧ m.points = m1.points ++ m2.points ∧
      (∀ n, lineGroup m n = catOpt (lineGroup m1 n) (lineGroup m2 n)) ∧
      (∀ n, triGroup m n = catOpt (triGroup m1 n) (triGroup m2 n)) := by
  let shift := List.map (fun e : Elem => e.map (· + m1.points.length))
  have hcat : ∃ cols, concatLines m1.lineCols m1.lines m2.lineCols (shift m2.lines)
      = some (cols, m1.lines ++ shift m2.lines) ∧ (cols = 2 ∨ cols = 4) ∧
      (m1.lines = [] ∨ cols = m1.lineCols) ∧ (m2.lines = [] ∨ cols = m2.lineCols) := by
    unfold concatLines
    by_cases ha : m1.lines = []
    · refine ⟨m2.lineCols, by simp [ha], h2.cols, Or.inl ha, Or.inr rfl⟩
    · by_cases hb : m2.lines = []
      · refine ⟨m1.lineCols, by simp [ha, hb, shift], h1.cols, Or.inr rfl, Or.inl hb⟩
      · have he : m1.lineCols = m2.lineCols := by
          rcases hc with h | h | h
          · exact absurd h ha
          · exact absurd h hb
          · exact h
        refine ⟨m1.lineCols, ?_, h1.cols, Or.inr rfl, Or.inr he⟩
        simp [ha, hb, he, shift]
  obtain ⟨cols, hcat1, hcols, hcl1, hcl2⟩ := hcat
  let D1 := m1.physLines
  let D2 : Dict (List Nat) := m2.physLines.map fun kv => (kv.1, kv.2.map (· + m1.lines.length))
  let T1 := m1.physTris
  let T2 : Dict (List Nat) := m2.physTris.map fun kv => (kv.1, kv.2.map (· + m1.triangles.length))
  let m : Mesh P := {
    points := m1.points ++ m2.points
    lineCols := cols
    lines := m1.lines ++ shift m2.lines
    triangles := m1.triangles ++ shift m2.triangles
    physLines := mergeDicts D1 D2
    physTris := mergeDicts T1 T2 }
  have hD2k : Dict.keys D2 = m2.physLines.keys := by simp [D2, Dict.keys]
  have hT2k : Dict.keys T2 = m2.physTris.keys := by simp [T2, Dict.keys]
  have hD2 : (Dict.keys D2).Nodup := by rw [hD2k]; exact h2.keysLines
  have hT2 : (Dict.keys T2).Nodup := by rw [hT2k]; exact h2.keysTris
  have hls : lineShapes m = lineShapes m1 ++ lineShapes m2 := by
    simp only [lineShapes, m, List.map_append, shift, List.map_map]
    congr 1
    · apply List.map_congr_left
      intro e he; exact coords_append_left (h1.lines e he).2
    · apply List.map_congr_left
      intro e _; exact coords_append_right
  have hts : triShapes m = triShapes m1 ++ triShapes m2 := by
    simp only [triShapes, m, List.map_append, shift, List.map_map]
    congr 1
    · apply List.map_congr_left
      intro e he; exact coords_append_left (h1.tris e he).2
    · apply List.map_congr_left
      intro e _; exact coords_append_right
  refine ⟨m, ?_, ?_, hls, hts, rfl, ?_, ?_⟩
  · unfold addRaw
    have := hcat1
    simp only [shift] at this
    simp only [this, Option.bind_eq_bind, Option.bind_some]
    rfl
  · refine ⟨hcols, ?_, ?_, ?_, ?_, mergeDicts_keys_nodup _ _, mergeDicts_keys_nodup _ _⟩
    · intro e he
      rcases List.mem_append.1 he with he | he
      · have := h1.lines e he
        refine ⟨?_, fun i hi => ?_⟩
        · rcases hcl1 with h | h
          · rw [h] at he; simp at he
          · rw [this.1]; exact h.symm
        · have := this.2 i hi
          simp [m]; omega
      · obtain ⟨e', he', rfl⟩ := List.mem_map.1 he
        have := h2.lines e' he'
        refine ⟨?_, fun i hi => ?_⟩
        · rcases hcl2 with h | h
          · rw [h] at he'; simp at he'
          · rw [List.length_map, this.1]; exact h.symm
        · obtain ⟨j, hj, rfl⟩ := List.mem_map.1 hi
          have := this.2 j hj
          simp [m]; omega
    · intro e he
      rcases List.mem_append.1 he with he | he
      · have := h1.tris e he
        refine ⟨this.1, fun i hi => ?_⟩
        have := this.2 i hi
        simp [m]; omega
      · obtain ⟨e', he', rfl⟩ := List.mem_map.1 he
        have := h2.tris e' he'
        refine ⟨by simpa using this.1, fun i hi => ?_⟩
        obtain ⟨j, hj, rfl⟩ := List.mem_map.1 hi
        have := this.2 j hj
        simp [m]; omega
    · apply mergeDicts_bound h1.keysLines hD2
      · intro kv hkv i hi
        have := h1.groupLines kv hkv i hi
        simp [m]; omega
      · intro kv hkv i hi
        obtain ⟨kv', hkv', rfl⟩ := List.mem_map.1 hkv
        obtain ⟨j, hj, rfl⟩ := List.mem_map.1 hi
        have := h2.groupLines kv' hkv' j hj
        simp [m, shift]; omega
    · apply mergeDicts_bound h1.keysTris hT2
      · intro kv hkv i hi
        have := h1.groupTris kv hkv i hi
        simp [m]; omega
      · intro kv hkv i hi
        obtain ⟨kv', hkv', rfl⟩ := List.mem_map.1 hkv
        obtain ⟨j, hj, rfl⟩ := List.mem_map.1 hi
        have := h2.groupTris kv' hkv' j hj
        simp [m, shift]; omega
  · intro n
    have hlen : (lineShapes m1).length = m1.lines.length := by simp [lineShapes]
    unfold lineGroup
    rw [hls]
    have hg : m.physLines.get n = catOpt (m1.physLines.get n)
        ((m2.physLines.get n).map (·.map (· + m1.lines.length))) := by
      show (mergeDicts D1 D2).get n = _
      rw [mergeDicts_get h1.keysLines hD2]
      congr 1
      exact Dict.get_map m2.physLines (fun v => v.map (· + m1.lines.length)) n
    rw [hg]
    have hr : ∀ w : List Nat, (w.map (· + m1.lines.length)).filterMap
        (fun i => (lineShapes m1 ++ lineShapes m2)[i]?) = w.filterMap (fun i => (lineShapes m2)[i]?) := by
      intro w; rw [← hlen]; exact filterMap_index_append_right
    have hl : ∀ v, m1.physLines.get n = some v → v.filterMap
        (fun i => (lineShapes m1 ++ lineShapes m2)[i]?) = v.filterMap (fun i => (lineShapes m1)[i]?) := by
      intro v hv
      exact filterMap_index_append_left
        (fun i hi => by rw [hlen]; exact h1.groupLines _ (Dict.mem_of_get hv) i hi)
    cases ha : m1.physLines.get n with
    | none =>
      cases hb : m2.physLines.get n with
      | none => rfl
      | some w =>
        simp only [catOpt, Option.map_some, Option.map_none, Option.getD_none, Option.getD_some,
          List.nil_append, hr]
    | some v =>
      cases hb : m2.physLines.get n with
      | none =>
        simp only [catOpt, Option.map_some, Option.map_none, Option.getD_none, Option.getD_some,
          List.append_nil, hl v ha]
      | some w =>
        simp only [catOpt, Option.map_some, Option.getD_some, List.filterMap_append, hl v ha, hr]
  · intro n
    have hlen : (triShapes m1).length = m1.triangles.length := by simp [triShapes]
    unfold triGroup
    rw [hts]
    have hg : m.physTris.get n = catOpt (m1.physTris.get n)
        ((m2.physTris.get n).map (·.map (· + m1.triangles.length))) := by
      show (mergeDicts T1 T2).get n = _
      rw [mergeDicts_get h1.keysTris hT2]
      congr 1
      exact Dict.get_map m2.physTris (fun v => v.map (· + m1.triangles.length)) n
    rw [hg]
    have hr : ∀ w : List Nat, (w.map (· + m1.triangles.length)).filterMap
        (fun i => (triShapes m1 ++ triShapes m2)[i]?) = w.filterMap (fun i => (triShapes m2)[i]?) := by
      intro w; rw [← hlen]; exact filterMap_index_append_right
    have hl : ∀ v, m1.physTris.get n = some v → v.filterMap
        (fun i => (triShapes m1 ++ triShapes m2)[i]?) = v.filterMap (fun i => (triShapes m1)[i]?) := by
      intro v hv
      exact filterMap_index_append_left
        (fun i hi => by rw [hlen]; exact h1.groupTris _ (Dict.mem_of_get hv) i hi)
    cases ha : m1.physTris.get n with
    | none =>
      cases hb : m2.physTris.get n with
      | none => rfl
      | some w =>
        simp only [catOpt, Option.map_some, Option.map_none, Option.getD_none, Option.getD_some,
          List.nil_append, hr]
    | some v =>
      cases hb : m2.physTris.get n with
      | none =>
        simp only [catOpt, Option.map_some, Option.map_none, Option.getD_none, Option.getD_some,
          List.append_nil, hl v ha]
      | some w =>
        simp only [catOpt, Option.map_some, Option.getD_some, List.filterMap_append, hl v ha, hr]

/-! ### extraction -/

theorem mem_unique {v : List Nat} {i : Nat} : i ∈ unique v ↔ i ∈ v := by
  unfold unique
  simp only [List.mem_filter, List.mem_range, List.contains_iff_mem]
  constructor
  · exact fun h => h.2
  · intro h
    refine ⟨?_, h⟩
    have : ∀ l : List Nat, i ∈ l → i ≤ l.foldr max 0 := by
      intro l
      induction l with
      | nil => simp
      | cons a l ih =>
        intro h
        simp only [List.foldr_cons]
        rcases List.mem_cons.1 h with rfl | h
        · omega
        · have := ih h; omega
    have := this v h
    omega

theorem unique_sorted (v : List Nat) : (unique v).Pairwise (· < ·) :=
  List.Pairwise.sublist List.filter_sublist List.pairwise_lt_range

/-- Selecting and renumbering: coordinates are unchanged, only used points are kept. -/
theorem extractElems_spec (pts : List P) (els : List Elem) (g : List Nat)
    (hg : ∀ i ∈ g, i < els.length) (hv : ∀ e ∈ els, ∀ i ∈ e, i < pts.length) :
    ∃ pts' els', extractElems pts els g = some (pts', els') ∧
      els'.map (coords pts') = (unique g).filterMap (fun i => (els.map (coords pts))[i]?) ∧
      (∀ e ∈ els', ∀ i ∈ e, i < pts'.length) ∧
      (∀ e ∈ els', ∃ e0 ∈ els, e.length = e0.length) ∧
      (∀ q, q ∈ pts' ↔ ∃ k ∈ g, ∃ e i, els[k]? = some e ∧ i ∈ e ∧ pts[i]? = some q) := by
  obtain ⟨sel, hsel⟩ := gather_isSome (arr := els) (idx := unique g)
    (fun i hi => hg i (mem_unique.1 hi))
  have hselmem : ∀ e, e ∈ sel ↔ ∃ k ∈ g, els[k]? = some e := by
    intro e
    constructor
    · intro he
      obtain ⟨k, hk, hke⟩ := mapM_mem' hsel he
      exact ⟨k, mem_unique.1 hk, hke⟩
    · rintro ⟨k, hk, hke⟩
      obtain ⟨b, hb, hkb⟩ := mapM_mem hsel (mem_unique.2 hk)
      rw [hke] at hkb; cases hkb; exact hb
  have hselv : ∀ e ∈ sel, ∀ i ∈ e, i < pts.length := by
    intro e he i hi
    obtain ⟨k, _, hke⟩ := (hselmem e).1 he
    exact hv e (List.mem_of_getElem? hke) i hi
  let mask := (List.range pts.length).map (fun i => sel.any (fun e => e.contains i))
  have hmlen : mask.length = pts.length := by simp [mask]
  have hmask : ∀ i, i < pts.length → (mask[i]? = some true ↔ ∃ e ∈ sel, i ∈ e) := by
    intro i hi
    simp only [mask, List.getElem?_map, List.getElem?_range hi, Option.map_some,
      Option.some.injEq, List.any_eq_true, List.contains_iff_mem]
  let newIdx := (cumsum mask).map (· - 1)
  have hnew : ∀ i, i < pts.length → mask[i]? = some true →
      newIdx[i]? = some ((mask.take i).count true) := by
    intro i hi hm
    simp only [newIdx, List.getElem?_map, cumsum_getElem? mask i (by omega), Option.map_some]
    rw [count_take_succ hm]; simp
  have hpt : ∀ i, i < pts.length → mask[i]? = some true →
      (compress mask pts)[(mask.take i).count true]? = pts[i]? := by
    intro i _ hm; exact compress_rank mask pts i hmlen hm
  have hgather : ∀ e ∈ sel, ∃ e', gather newIdx e = some e' ∧
      coords (compress mask pts) e' = coords pts e ∧ (∀ i ∈ e', i < (compress mask pts).length) := by
    intro e he
    refine ⟨e.map (fun i => (mask.take i).count true), ?_, ?_, ?_⟩
    · rw [gather_eq_some_iff, List.map_map]
      apply List.map_congr_left
      intro i hi
      have hlt := hselv e he i hi
      rw [hnew i hlt ((hmask i hlt).2 ⟨e, he, hi⟩)]; rfl
    · unfold coords
      rw [List.filterMap_map]
      apply filterMap_congr'
      intro i hi
      have hlt := hselv e he i hi
      simp only [Function.comp]
      rw [hpt i hlt ((hmask i hlt).2 ⟨e, he, hi⟩)]
    · intro j hj
      obtain ⟨i, hi, rfl⟩ := List.mem_map.1 hj
      have hlt := hselv e he i hi
      rw [compress_length mask pts hmlen]
      exact count_true_take_lt ((hmask i hlt).2 ⟨e, he, hi⟩)
  obtain ⟨els', hels'⟩ := mapM_isSome (f := fun e => gather newIdx e) (l := sel)
    (fun e he => by obtain ⟨e', h, _⟩ := hgather e he; exact ⟨e', h⟩)
  refine ⟨compress mask pts, els', ?_, ?_, ?_, ?_, ?_⟩
  · unfold extractElems
    have hall : sel.all (fun e => e.all (fun i => decide (i < pts.length))) = true := by
      simp only [List.all_eq_true, decide_eq_true_eq]
      exact hselv
    simp only [hsel, Option.bind_eq_bind, Option.bind_some]
    rw [if_pos hall]
    simp only [newIdx, mask] at hels'
    simp only [hels', Option.bind_some]
    rfl
  · have h1 : els'.map (coords (compress mask pts)) = sel.map (coords pts) := by
      apply List.ext_getElem?
      intro k
      rw [List.getElem?_map, List.getElem?_map, mapM_getElem? hels' k]
      cases hs : sel[k]? with
      | none => rfl
      | some e =>
        obtain ⟨e', h, hc, _⟩ := hgather e (List.mem_of_getElem? hs)
        simp [h, hc]
    rw [h1]
    have h2 := gather_eq_some_iff.1 hsel
    have h3 : sel = (unique g).filterMap (fun i => els[i]?) := by
      have h4 : (unique g).filterMap (fun i => els[i]?) = ((unique g).map (fun i => els[i]?)).filterMap id := by
        rw [List.filterMap_map]; rfl
      rw [h4, h2, List.filterMap_map]
      simp
    rw [h3, List.map_filterMap]
    apply filterMap_congr'
    intro i _
    rw [List.getElem?_map]
  · intro e' he' i hi
    obtain ⟨e, he, hee⟩ := mapM_mem' hels' he'
    obtain ⟨e2, h, _, hlt⟩ := hgather e he
    rw [h] at hee; cases hee
    exact hlt i hi
  · intro e' he'
    obtain ⟨e, he, hee⟩ := mapM_mem' hels' he'
    obtain ⟨k, _, hke⟩ := (hselmem e).1 he
    exact ⟨e, List.mem_of_getElem? hke, gather_length hee⟩
  · intro q
    rw [mem_compress hmlen]
    constructor
    · rintro ⟨i, hi, hq⟩
      have hlt := (List.getElem?_eq_some_iff.1 hq).1
      obtain ⟨e, he, hie⟩ := (hmask i hlt).1 hi
      obtain ⟨k, hk, hke⟩ := (hselmem e).1 he
      exact ⟨k, hk, e, i, hke, hie, hq⟩
    · rintro ⟨k, hk, e, i, hke, hie, hq⟩
      have hlt := (List.getElem?_eq_some_iff.1 hq).1
      exact ⟨i, (hmask i hlt).2 ⟨e, (hselmem e).2 ⟨k, hk, hke⟩, hie⟩, hq⟩

theorem filterMap_range_getElem? {α : Type _} (l : List α) :
    (List.range l.length).filterMap (fun i => l[i]?) = l := by
  have h : (List.range l.length).map (fun i => l[i]?) = l.map some := by
    apply List.ext_getElem?
    intro k
    rw [List.getElem?_map, List.getElem?_map]
    by_cases hk : k < l.length
    · rw [List.getElem?_range hk]; simp [hk]
    · have h1 : (List.range l.length)[k]? = none := by simp; omega
      have h2 : l[k]? = none := by simp; omega
      rw [h1, h2]; rfl
  have h4 : (List.range l.length).filterMap (fun i => l[i]?) =
      ((List.range l.length).map (fun i => l[i]?)).filterMap id := by
    rw [List.filterMap_map]; rfl
  rw [h4, h, List.filterMap_map]; simp

end Mesh
end Traceon
