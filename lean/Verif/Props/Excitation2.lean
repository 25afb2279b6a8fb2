import Verif.Spec.Excitation
import Verif.Props.Excitation
import Verif.Lemmas.Shape

/-!
# C33, C34: active elements and the right hand side of the linear system
-/
namespace Traceon
open Spec
variable {V P : Type}

/-- Writing `f i` at every index `i`. -/
theorem scatter_map_getElem? {α : Type _} (arr : List α) (idx : List Nat) (f : Nat → α) (k : Nat) :
    (scatter arr idx (idx.map f))[k]? = if k ∈ idx ∧ k < arr.length then some (f k) else arr[k]? := by
  unfold scatter
  induction idx generalizing arr with
  | nil => simp
  | cons i idx ih =>
    simp only [List.map_cons, List.zip_cons_cons, List.foldl_cons]
    rw [ih, List.length_set]
    by_cases hk : k < arr.length
    · by_cases h1 : k ∈ idx
      · simp [h1, hk]
      · by_cases h2 : k = i
        · subst h2; simp [h1, hk]
        · have : i ≠ k := fun e => h2 e.symm
          rw [if_neg (by simp [h1]), if_neg (by simp [h1, h2]), List.getElem?_set_ne this]
    · have h1 : arr[k]? = none := List.getElem?_eq_none (by omega)
      have h2 : (arr.set i (f i))[k]? = none := List.getElem?_eq_none (by simp; omega)
      simp [hk, h1, h2]

theorem compress_map {α β : Type _} (m : List Bool) (f : α → β) (xs : List α) :
    compress m (xs.map f) = (compress m xs).map f := by
  induction m generalizing xs with
  | nil => rfl
  | cons b m ih =>
    cases xs with
    | nil => cases b <;> rfl
    | cons x xs => cases b <;> simp [compress, ih]

theorem compress_sublist {α : Type _} (m : List Bool) (xs : List α) : (compress m xs).Sublist xs := by
  induction m generalizing xs with
  | nil => cases xs <;> simp [compress]
  | cons b m ih =>
    cases xs with
    | nil => cases b <;> simp [compress]
    | cons x xs =>
      cases b
      · exact (ih xs).cons _
      · exact (ih xs).cons_cons _

theorem map_some_eq_range {α : Type _} (xs : List α) : xs.map some = (List.range xs.length).map (fun i => xs[i]?) := by
  apply List.ext_getElem?
  intro k
  rw [List.getElem?_map, List.getElem?_map]
  by_cases hk : k < xs.length
  · rw [List.getElem?_range hk]; simp [hk]
  · rw [List.getElem?_eq_none (by omega), List.getElem?_eq_none (by simp; omega)]; rfl

namespace Excitation

/-- Every index in a group of the right dimension is the number of an element. -/
theorem physicals_bound {x : Excitation V P} (hv : Valid x.mesh) {n : String} {g : List Nat} (h : x.physicals.get n = some g) :
    ∀ i ∈ g, i < x.elements.length := by
  have := Dict.mem_of_get h
  unfold physicals elements at *
  split at this
  · rename_i hs; rw [if_pos hs]; exact hv.groupLines _ this
  · rename_i hs; rw [if_neg hs]; exact hv.groupTris _ this

theorem physicals_nodup {x : Excitation V P} (hv : Valid x.mesh) : x.physicals.keys.Nodup := by
  unfold physicals
  split
  · exact hv.keysLines
  · exact hv.keysTris

theorem elements_bound {x : Excitation V P} (hv : Valid x.mesh) {e : Elem} (he : e ∈ x.elements) : ∀ i ∈ e, i < x.mesh.points.length := by
  unfold elements at he
  split at he
  · exact (hv.lines e he).2
  · exact (hv.tris e he).2

/-- the step of the loop of `inactiveMask` -/
def maskStep (x : Excitation V P) (s : Statics) (mask : List Bool) (nv : String × (ExcType × ExcVal V P)) : Option (List Bool) :=
  if typeCheck s nv.2.1 then do
      let idx ← x.physicals.get nv.1
      return scatter mask idx (idx.map (fun _ => false))
    else some mask

theorem mask_spec (x : Excitation V P) (s : Statics) (l : List (String × (ExcType × ExcVal V P))) (mask : List Bool)
    (hp : ∀ nv ∈ l, typeCheck s nv.2.1 = true → ∃ g, x.physicals.get nv.1 = some g) :
    ∃ M, l.foldlM (maskStep x s) mask = some M ∧ M.length = mask.length ∧
      ∀ i : Nat, i < mask.length → (M[i]? = some false ↔ mask[i]? = some false ∨
        ∃ nv ∈ l, typeCheck s nv.2.1 = true ∧ ∃ g, x.physicals.get nv.1 = some g ∧ i ∈ g) := by
  induction l generalizing mask with
  | nil => exact ⟨mask, rfl, rfl, fun i _ => by simp⟩
  | cons nv l ih =>
    rw [List.foldlM_cons]
    unfold maskStep
    by_cases hc : typeCheck s nv.2.1 = true
    · obtain ⟨g, hg⟩ := hp nv (by simp) hc
      obtain ⟨M, h1, h2, h3⟩ := ih (scatter mask g (g.map (fun _ => false))) (fun nv' h => hp nv' (by simp [h]))
      refine ⟨M, ?_, by rw [h2]; simp, fun i hi => ?_⟩
      · rw [if_pos hc, hg]; exact h1
      · rw [h3 i (by simpa using hi), scatter_map_getElem?]
        constructor
        · rintro (h | ⟨nv', h4, h5⟩)
          · by_cases hig : i ∈ g
            · exact .inr ⟨nv, by simp, hc, g, hg, hig⟩
            · rw [if_neg (by simp [hig])] at h; exact .inl h
          · exact .inr ⟨nv', by simp [h4], h5⟩
        · rintro (h | ⟨nv', h4, h5, g', h6, h7⟩)
          · left; split
            · rfl
            · exact h
          · rcases List.mem_cons.1 h4 with rfl | h4
            · left; rw [hg] at h6; cases h6; simp [h7, hi]
            · exact .inr ⟨nv', h4, h5, g', h6, h7⟩
    · obtain ⟨M, h1, h2, h3⟩ := ih mask (fun nv' h => hp nv' (by simp [h]))
      refine ⟨M, ?_, h2, fun i hi => ?_⟩
      · rw [if_neg hc]; exact h1
      · rw [h3 i hi]
        constructor
        · rintro (h | ⟨nv', h4, h5⟩)
          · exact .inl h
          · exact .inr ⟨nv', by simp [h4], h5⟩
        · rintro (h | ⟨nv', h4, h5⟩)
          · exact .inl h
          · rcases List.mem_cons.1 h4 with rfl | h4
            · exact absurd h5.1 hc
            · exact .inr ⟨nv', h4, h5⟩

theorem mask_none (x : Excitation V P) (s : Statics) (l : List (String × (ExcType × ExcVal V P))) (mask : List Bool)
    {nv : String × (ExcType × ExcVal V P)} (hnv : nv ∈ l) (hc : typeCheck s nv.2.1 = true) (hn : x.physicals.get nv.1 = none) :
    l.foldlM (maskStep x s) mask = none := by
  induction l generalizing mask with
  | nil => cases hnv
  | cons a l ih =>
    rw [List.foldlM_cons]
    rcases List.mem_cons.1 hnv with rfl | hnv
    · unfold maskStep; rw [if_pos hc, hn]; rfl
    · cases h : maskStep x s mask a with
      | none => rfl
      | some M => exact ih M hnv

/-- Everything about the active elements. -/
structure ActiveSpec (x : Excitation V P) (s : Statics) (verts : List (List P)) (names : Dict (List Nat)) (idx : List Nat) : Prop where
  eq : x.activeElements s = some (verts, names)
  sorted : idx.Pairwise (· < ·)
  mem : ∀ i, i ∈ idx ↔ i < x.elements.length ∧ Excited x s i
  len : verts.length = idx.length
  vertIdx : ∀ k i : Nat, idx[k]? = some i → verts[k]? = (x.elements.map (coords x.mesh.points))[i]?
  keys : names.keys = Dict.keys (x.physicals.filter (fun ni => (x.types.get ni.1).any (fun tv => typeCheck s tv.1)))
  nameIdx : ∀ n g, x.physicals.get n = some g → (∃ tv, x.types.get n = some tv ∧ typeCheck s tv.1 = true) →
      ∃ js, names.get n = some js ∧ js.map (fun j => idx[j]?) = g.map some
  other : ∀ n, (¬∃ tv, x.types.get n = some tv ∧ typeCheck s tv.1 = true) → names.get n = none
  pairs : ∀ k : Nat, ∀ ni, (x.physicals.filter (fun ni => (x.types.get ni.1).any (fun tv => typeCheck s tv.1)))[k]? = some ni →
      ∃ js, names[k]? = some (ni.1, js) ∧ js.map (fun j => idx[j]?) = ni.2.map some
  pairsLen : names.length = (x.physicals.filter (fun ni => (x.types.get ni.1).any (fun tv => typeCheck s tv.1))).length

theorem any_typeCheck {x : Excitation V P} {s : Statics} {n : String} :
    ((x.types.get n).any (fun tv => typeCheck s tv.1)) = true ↔ ∃ tv, x.types.get n = some tv ∧ typeCheck s tv.1 = true := by
  cases x.types.get n <;> simp

theorem active_spec {x : Excitation V P} {s : Statics} (hv : Valid x.mesh) (hn : x.types.keys.Nodup) (hp : Proper x s) :
    ∃ verts names idx, ActiveSpec x s verts names idx := by
  obtain ⟨M, hM, hl, hM2⟩ := mask_spec x s x.types (List.replicate x.elements.length true)
    (fun nv h hc => hp nv.1 nv.2 (Dict.get_of_mem hn h) hc)
  rw [List.length_replicate] at hl hM2
  have hex : ∀ i : Nat, i < x.elements.length → (M[i]? = some false ↔ Excited x s i) := by
    intro i hi
    rw [hM2 i hi]
    have : (List.replicate x.elements.length true)[i]? = some true := by simp [hi]
    rw [this]
    constructor
    · rintro (h | ⟨nv, h1, h2, g, h3, h4⟩)
      · cases h
      · exact ⟨nv.1, g, nv.2, h3, h4, Dict.get_of_mem hn h1, h2⟩
    · rintro ⟨n, g, tv, h1, h2, h3, h4⟩
      exact .inr ⟨(n, tv), Dict.mem_of_get h3, h4, g, h1, h2⟩
  let idx := compress (M.map (!·)) (List.range x.elements.length)
  have hidxl : (M.map (!·)).length = (List.range x.elements.length).length := by simp [hl]
  have hmem : ∀ i, i ∈ idx ↔ i < x.elements.length ∧ Excited x s i := by
    intro i
    rw [mem_compress hidxl]
    constructor
    · rintro ⟨k, h1, h2⟩
      have hk : k < x.elements.length := by
        have := (List.getElem?_eq_some_iff.1 h2).1; simpa using this
      rw [List.getElem?_range hk] at h2
      have h2 : k = i := Option.some.inj h2
      subst h2
      refine ⟨hk, (hex k hk).1 ?_⟩
      rw [List.getElem?_map] at h1
      cases h : M[k]? with
      | none => rw [h] at h1; cases h1
      | some b => rw [h] at h1; simp at h1; simp [h1]
    · rintro ⟨h1, h2⟩
      refine ⟨i, ?_, List.getElem?_range h1⟩
      rw [List.getElem?_map, (hex i h1).2 h2]; rfl
  have hrank : ∀ g : List Nat, (∀ i ∈ g, i < x.elements.length ∧ Excited x s i) →
      ∃ js, gather (mapIndex M) g = some js ∧ js.map (fun j => idx[j]?) = g.map some := by
    intro g hg
    have hM' : ∀ i ∈ g, M[i]? = some false := fun i hi => (hex i (hg i hi).1).2 (hg i hi).2
    refine ⟨g.map (fun i => ((M.map (!·)).take i).count true), ?_, ?_⟩
    · rw [gather_eq_some_iff, List.map_map]
      apply List.map_congr_left
      intro i hi
      exact Mesh.mapIndex_getElem? (hM' i hi)
    · rw [List.map_map]
      apply List.map_congr_left
      intro i hi
      simp only [Function.comp]
      have : idx[((M.map (!·)).take i).count true]? = (List.range x.elements.length)[i]? := by
        apply compress_rank _ _ _ hidxl
        rw [List.getElem?_map, hM' i hi]; rfl
      rw [this, List.getElem?_range (hg i hi).1]
  have hfilt : ∀ ni ∈ x.physicals.filter (fun ni => (x.types.get ni.1).any (fun tv => typeCheck s tv.1)),
      ∀ i ∈ ni.2, i < x.elements.length ∧ Excited x s i := by
    intro ni h i hi
    obtain ⟨h1, h2⟩ := List.mem_filter.1 h
    obtain ⟨tv, h3, h4⟩ := any_typeCheck.1 h2
    have hget := Dict.get_of_mem (physicals_nodup hv) h1
    exact ⟨physicals_bound hv hget i hi, ni.1, ni.2, tv, hget, hi, h3, h4⟩
  obtain ⟨names, hnames⟩ : ∃ names, x.activeNames s M = some names := by
    apply mapM_isSome
    intro ni h
    obtain ⟨js, hjs, _⟩ := hrank ni.2 (hfilt ni h)
    exact ⟨(ni.1, js), by rw [hjs]; rfl⟩
  have hpairs : ∀ k : Nat, ∀ ni, (x.physicals.filter (fun ni => (x.types.get ni.1).any (fun tv => typeCheck s tv.1)))[k]? = some ni →
      ∃ js, names[k]? = some (ni.1, js) ∧ js.map (fun j => idx[j]?) = ni.2.map some := by
    intro k ni h
    obtain ⟨js, hjs, hjs2⟩ := hrank ni.2 (hfilt ni (List.mem_of_getElem? h))
    refine ⟨js, ?_, hjs2⟩
    have := mapM_getElem? hnames k
    rw [this, h, Option.bind_some, hjs]; rfl
  have hlen := mapM_length hnames
  have hkeys : names.keys = Dict.keys (x.physicals.filter (fun ni => (x.types.get ni.1).any (fun tv => typeCheck s tv.1))) := by
    unfold Dict.keys
    apply List.ext_getElem?
    intro k
    rw [List.getElem?_map, List.getElem?_map]
    cases h : (x.physicals.filter (fun ni => (x.types.get ni.1).any (fun tv => typeCheck s tv.1)))[k]? with
    | none =>
      rw [List.getElem?_eq_none_iff] at h
      rw [List.getElem?_eq_none (by omega)]
    | some ni =>
      obtain ⟨js, h1, _⟩ := hpairs k ni h
      rw [h1]; rfl
  have hknd : names.keys.Nodup := by
    rw [hkeys]
    exact (List.filter_sublist.map _).nodup (physicals_nodup hv)
  obtain ⟨verts, hverts⟩ : ∃ verts, (compress (M.map (!·)) x.elements).mapM (fun e => gather x.mesh.points e) = some verts := by
    apply mapM_isSome
    intro e he
    exact gather_isSome (elements_bound hv ((compress_sublist _ _).mem he))
  have hce : (compress (M.map (!·)) x.elements).map some = idx.map (fun i => x.elements[i]?) := by
    rw [← compress_map, map_some_eq_range, compress_map]
  refine ⟨verts, names, idx, ?_, ?_, hmem, ?_, ?_, hkeys, ?_, ?_, hpairs, hlen⟩
  · unfold activeElements
    have : x.inactiveMask s = some M := hM
    rw [this]
    simp only [Option.bind_eq_bind, Option.bind_some, hnames, hverts]
    rfl
  · exact List.Pairwise.sublist (compress_sublist _ _) List.pairwise_lt_range
  · rw [mapM_length hverts]
    have := congrArg List.length hce
    simpa using this
  · intro k i hk
    have h1 := congrArg (fun l => l[k]?) hce
    simp only [List.getElem?_map, hk, Option.map_some] at h1
    rw [mapM_getElem? hverts, List.getElem?_map]
    have hi := ((hmem i).1 (List.mem_of_getElem? hk)).1
    have he : x.elements[i]? = some x.elements[i] := by simp [hi]
    rw [he] at h1 ⊢
    cases h2 : (compress (M.map (!·)) x.elements)[k]? with
    | none => rw [h2] at h1; cases h1
    | some e =>
      rw [h2] at h1
      simp only [Option.map_some, Option.some.injEq] at h1
      rw [Option.bind_some, Option.map_some, h1]
      rw [gather_eq_some_iff, coords_eq_map]
      exact elements_bound hv (List.getElem_mem hi)
  · intro n g hg hex'
    have h1 : (n, g) ∈ x.physicals.filter (fun ni => (x.types.get ni.1).any (fun tv => typeCheck s tv.1)) :=
      List.mem_filter.2 ⟨Dict.mem_of_get hg, any_typeCheck.2 hex'⟩
    obtain ⟨k, hk⟩ := List.mem_iff_getElem?.1 h1
    obtain ⟨js, h2, h3⟩ := hpairs k _ hk
    exact ⟨js, Dict.get_of_mem hknd (List.mem_of_getElem? h2), h3⟩
  · intro n hnot
    rw [Dict.get_none_iff, hkeys]
    intro h
    obtain ⟨ni, h1, rfl⟩ := List.mem_map.1 h
    exact hnot (any_typeCheck.1 (List.mem_filter.1 h1).2)

end Excitation

/-- **C33.** For every excitation (unique names, as after every history, see `C32_history`) on a valid mesh whose excited names all name elements of the
dimension used for solving: the active elements are those of the elements `idx`, namely the elements carrying an excitation of the kind asked for,
each once and in mesh order, as points of their vertices; the names returned are the names with such an excitation, and
the index array of a name refers, position by position, to the elements of the group. -/
theorem C33_active {x : Excitation V P} {s : Excitation.Statics} (hv : Valid x.mesh) (hn : x.types.keys.Nodup) (hp : Proper x s) :
    ∃ (verts : List (List P)) (names : Dict (List Nat)) (idx : List Nat), x.activeElements s = some (verts, names) ∧
      idx.Pairwise (· < ·) ∧ (∀ i, i ∈ idx ↔ i < x.elements.length ∧ Excited x s i) ∧
      verts.length = idx.length ∧
      (∀ k i : Nat, idx[k]? = some i → verts[k]? = (x.elements.map (coords x.mesh.points))[i]?) ∧
      (∀ n g, x.physicals.get n = some g → (∃ tv, x.types.get n = some tv ∧ Excitation.typeCheck s tv.1 = true) →
        ∃ js, names.get n = some js ∧ js.map (fun j => idx[j]?) = g.map some) ∧
      (∀ n, (¬∃ tv, x.types.get n = some tv ∧ Excitation.typeCheck s tv.1 = true) → names.get n = none) := by
  obtain ⟨verts, names, idx, h⟩ := Excitation.active_spec hv hn hp
  exact ⟨verts, names, idx, h.eq, h.sorted, h.mem, h.len, h.vertIdx, h.nameIdx, h.other⟩

/-- **C33**, the other excitations: a name with an excitation of the kind asked for that does not name elements of the dimension used raises. -/
theorem C33_wrong_dimension {x : Excitation V P} {s : Excitation.Statics} (h : ¬Proper x s) : x.activeElements s = none := by
  unfold Proper at h
  simp only [Classical.not_forall, not_exists] at h
  obtain ⟨n, tv, h1, h2, h3⟩ := h
  have hnone : x.physicals.get n = none := by
    cases hg : x.physicals.get n with
    | none => rfl
    | some g => exact absurd hg (h3 g)
  have : x.inactiveMask s = none :=
    Excitation.mask_none x s x.types _ (nv := (n, tv)) (Dict.mem_of_get h1) h2 hnone
  unfold Excitation.activeElements
  rw [this]; rfl

namespace Excitation

/-- value assigned to element `k` -/
def valueAt [Zero V] (centre : Nat → P) (tv : ExcType × ExcVal V P) (k : Nat) : V :=
  match tv.2 with
  | .num v => v
  | .fn f => f (centre k)
  | .other => 0

theorem assigned_eq [Zero V] (centre : Nat → P) (tv : ExcType × ExcVal V P) (idx : List Nat)
    (h : (tv.1 = .voltageFun → ∃ f, tv.2 = .fn f) ∧ (tv.1 ≠ .voltageFun → ∃ v, tv.2 = .num v)) :
    assigned centre tv idx = some (idx.map (valueAt centre tv)) := by
  obtain ⟨t, v⟩ := tv
  by_cases ht : t = .voltageFun
  · obtain ⟨f, hf⟩ := h.1 ht
    simp only at hf
    subst ht hf
    rfl
  · obtain ⟨f, hf⟩ := h.2 ht
    simp only at hf
    subst hf
    simp only [assigned, ne_eq, ht, not_false_eq_true, if_true]
    rfl

/-- the step of the loop of `typesAndValues` -/
def tvStep [Zero V] (x : Excitation V P) (centre : Nat → P) (st : List (Option ExcType) × List V) (ni : String × List Nat) :
    Option (List (Option ExcType) × List V) := do
  let tv ← x.types.get ni.1
  let vals ← assigned centre tv ni.2
  return (scatter st.1 ni.2 (ni.2.map (fun _ => some tv.1)), scatter st.2 ni.2 vals)

theorem tv_fold [Zero V] (x : Excitation V P) (centre : Nat → P) (l : List (String × List Nat)) (ts : List (Option ExcType)) (vs : List V)
    (hl : ∀ ni ∈ l, ∃ tv, x.types.get ni.1 = some tv ∧ ((tv.1 = .voltageFun → ∃ f, tv.2 = .fn f) ∧ (tv.1 ≠ .voltageFun → ∃ v, tv.2 = .num v))) :
    ∃ ts' vs', l.foldlM (tvStep x centre) (ts, vs) = some (ts', vs') ∧ ts'.length = ts.length ∧ vs'.length = vs.length ∧
      (∀ k : Nat, (∀ ni ∈ l, k ∉ ni.2) → ts'[k]? = ts[k]? ∧ vs'[k]? = vs[k]?) ∧
      (∀ (k : Nat) (pre : List (String × List Nat)) n js post tv, l = pre ++ (n, js) :: post → k ∈ js → (∀ ni ∈ post, k ∉ ni.2) →
        x.types.get n = some tv → k < ts.length → k < vs.length →
        ts'[k]? = some (some tv.1) ∧ vs'[k]? = some (valueAt centre tv k)) := by
  induction l generalizing ts vs with
  | nil => exact ⟨ts, vs, rfl, rfl, rfl, fun _ _ => ⟨rfl, rfl⟩, fun k pre n js post tv h => by simp at h⟩
  | cons ni l ih =>
    obtain ⟨tv, htv, hnum⟩ := hl ni (by simp)
    have hstep : tvStep x centre (ts, vs) ni =
        some (scatter ts ni.2 (ni.2.map (fun _ => some tv.1)), scatter vs ni.2 (ni.2.map (valueAt centre tv))) := by
      unfold tvStep
      rw [htv]
      simp only [Option.bind_eq_bind, Option.bind_some, assigned_eq centre tv ni.2 hnum]
      rfl
    obtain ⟨ts', vs', h1, h2, h3, h4, h5⟩ := ih (scatter ts ni.2 (ni.2.map (fun _ => some tv.1))) (scatter vs ni.2 (ni.2.map (valueAt centre tv)))
      (fun a ha => hl a (by simp [ha]))
    refine ⟨ts', vs', ?_, by rw [h2]; simp, by rw [h3]; simp, ?_, ?_⟩
    · rw [List.foldlM_cons, hstep]; exact h1
    · intro k hk
      obtain ⟨e1, e2⟩ := h4 k (fun a ha => hk a (by simp [ha]))
      have hkn : k ∉ ni.2 := hk ni (by simp)
      rw [e1, e2, scatter_map_getElem?, scatter_map_getElem?]
      simp [hkn]
    · intro k pre n js post tv' heq hk hpost htv' hkt hkv
      cases pre with
      | nil =>
        rw [List.nil_append, List.cons.injEq] at heq
        obtain ⟨rfl, rfl⟩ := heq
        obtain ⟨e1, e2⟩ := h4 k hpost
        rw [htv] at htv'
        cases htv'
        rw [e1, e2, scatter_map_getElem?, scatter_map_getElem?]
        simp [hk, hkt, hkv]
      | cons a pre =>
        rw [List.cons_append, List.cons.injEq] at heq
        exact h5 k pre n js post tv' heq.2 hk hpost htv' (by simpa using hkt) (by simpa using hkv)

/-- `excitation_types` and `excitation_values` of the solver. -/
theorem solver_arrays [Zero V] {x : Excitation V P} {s : Statics} (hv : Valid x.mesh) (hnum : Numeric x s)
    {verts : List (List P)} {names : Dict (List Nat)} {idx : List Nat} (h : ActiveSpec x s verts names idx) (centre : Nat → P) :
    ∃ ts vs, x.typesAndValues names verts.length centre = some (ts, vs) ∧ ts.length = idx.length ∧ vs.length = idx.length ∧
      ∀ (k i : Nat) n tv, idx[k]? = some i → Decides x s n i → x.types.get n = some tv →
        ts[k]? = some (some tv.1) ∧ vs[k]? = some (valueAt centre tv k) := by
  have hcorr : ∀ (b : Nat) (n' : String) (js' : List Nat), names[b]? = some (n', js') →
      ∃ g', (x.physicals.filter (fun ni => (x.types.get ni.1).any (fun tv => typeCheck s tv.1)))[b]? = some (n', g') ∧
        js'.map (fun j => idx[j]?) = g'.map some := by
    intro b n' js' hb
    have hbl := (List.getElem?_eq_some_iff.1 hb).1
    rw [h.pairsLen] at hbl
    obtain ⟨js, e1, e2⟩ := h.pairs b _ (List.getElem?_eq_getElem hbl)
    rw [hb] at e1
    simp only [Option.some.injEq, Prod.mk.injEq] at e1
    refine ⟨_, ?_, by rw [e1.2]; exact e2⟩
    rw [List.getElem?_eq_getElem hbl, e1.1]
  obtain ⟨ts, vs, h1, h2, h3, _, h5⟩ := tv_fold x centre names (List.replicate verts.length none) (List.replicate verts.length 0) (by
    rintro ⟨n', js'⟩ hni
    obtain ⟨b, hb⟩ := List.mem_iff_getElem?.1 hni
    obtain ⟨g', e1, _⟩ := hcorr b n' js' hb
    obtain ⟨tv, e2, e3⟩ := any_typeCheck.1 (List.mem_filter.1 (List.mem_of_getElem? e1)).2
    exact ⟨tv, e2, hnum _ tv e2 e3⟩)
  rw [List.length_replicate, h.len] at h2 h3
  refine ⟨ts, vs, h1, h2, h3, ?_⟩
  rintro k i n tv hk ⟨pre, g, post, hphys, hig, hkind, hpost⟩ htv
  have hfil : x.physicals.filter (fun ni => (x.types.get ni.1).any (fun tv => typeCheck s tv.1)) =
      pre.filter (fun ni => (x.types.get ni.1).any (fun tv => typeCheck s tv.1)) ++ (n, g) ::
        post.filter (fun ni => (x.types.get ni.1).any (fun tv => typeCheck s tv.1)) := by
    rw [hphys, List.filter_append, List.filter_cons, if_pos (any_typeCheck.2 hkind)]
  let a := (pre.filter (fun ni => (x.types.get ni.1).any (fun tv => typeCheck s tv.1))).length
  have ha : (x.physicals.filter (fun ni => (x.types.get ni.1).any (fun tv => typeCheck s tv.1)))[a]? = some (n, g) := by
    rw [hfil]; simp [a]
  obtain ⟨js, e1, e2⟩ := h.pairs a _ ha
  simp only at e1 e2
  have hal := (List.getElem?_eq_some_iff.1 e1).1
  have hsplit : names = names.take a ++ (n, js) :: names.drop (a + 1) := by
    have h6 := List.take_append_drop a names
    rw [List.drop_eq_getElem_cons hal] at h6
    rw [(List.getElem?_eq_some_iff.1 e1).2] at h6
    exact h6.symm
  have hmem : ∀ (js' g' : List Nat), js'.map (fun j => idx[j]?) = g'.map some → (k ∈ js' ↔ i ∈ g') := by
    intro js' g' he
    constructor
    · intro hkj
      have : idx[k]? ∈ js'.map (fun j => idx[j]?) := List.mem_map_of_mem hkj
      rw [he, hk] at this
      obtain ⟨i', h7, h8⟩ := List.mem_map.1 this
      cases h8; exact h7
    · intro hi
      have : some i ∈ g'.map some := List.mem_map_of_mem hi
      rw [← he] at this
      obtain ⟨j, h7, h8⟩ := List.mem_map.1 this
      have hnd : idx.Nodup := h.sorted.imp (fun {a b} hab => by omega)
      have : j = k := (List.getElem?_inj (List.getElem?_eq_some_iff.1 h8).1 hnd).1 (h8.trans hk.symm)
      subst this; exact h7
  apply h5 k (names.take a) n js (names.drop (a+1)) tv hsplit ((hmem js g e2).2 hig) ?_ htv ?_ ?_
  · rintro ⟨n', js'⟩ hni
    obtain ⟨b, hb⟩ := List.mem_iff_getElem?.1 hni
    rw [List.getElem?_drop] at hb
    obtain ⟨g', e3, e4⟩ := hcorr _ n' js' hb
    rw [hfil, List.getElem?_append_right (by simp only [a]; omega)] at e3
    have : a + 1 + b - (pre.filter (fun ni => (x.types.get ni.1).any (fun tv => typeCheck s tv.1))).length = b + 1 := by simp only [a]; omega
    rw [this, List.getElem?_cons_succ] at e3
    have e5 := List.mem_filter.1 (List.mem_of_getElem? e3)
    exact fun hkj => hpost n' g' e5.1 (any_typeCheck.1 e5.2) ((hmem js' g' e4).1 hkj)
  · rw [List.length_replicate, h.len]; exact (List.getElem?_eq_some_iff.1 hk).1
  · rw [List.length_replicate, h.len]; exact (List.getElem?_eq_some_iff.1 hk).1

end Excitation

/-- An element in the group of one excited name only is decided by that name. -/
theorem decides_of_unique {x : Excitation V P} {s : Excitation.Statics} {n : String} {g : List Nat} {i : Nat} (hv : Valid x.mesh)
    (hg : x.physicals.get n = some g) (hi : i ∈ g) (hk : HasKind x s n)
    (hu : ∀ n' g', x.physicals.get n' = some g' → HasKind x s n' → i ∈ g' → n' = n) : Decides x s n i := by
  obtain ⟨pre, post, hp⟩ := List.append_of_mem (Dict.mem_of_get hg)
  refine ⟨pre, g, post, hp, hi, hk, fun n' g' hm hk' hi' => ?_⟩
  have hnd := Excitation.physicals_nodup hv
  have h1 : (n', g') ∈ x.physicals := by rw [hp]; simp [hm]
  have h2 := hu n' g' (Dict.get_of_mem hnd h1) hk' hi'
  subst h2
  rw [hp] at hnd
  simp only [Dict.keys, List.map_append, List.map_cons] at hnd
  have := (List.nodup_cons.1 (List.nodup_append.1 hnd).2.1).1
  exact this (List.mem_map.2 ⟨(n', g'), hm, rfl⟩)

/-- Every excited element is decided by a name. -/
theorem exists_decides {x : Excitation V P} {s : Excitation.Statics} {i : Nat} (h : Excited x s i) : ∃ n, Decides x s n i := by
  obtain ⟨n, g, tv, h1, h2, h3, h4⟩ := h
  have key : ∀ l : List (String × List Nat), (∃ ni ∈ l, HasKind x s ni.1 ∧ i ∈ ni.2) →
      ∃ n pre g post, l = pre ++ (n, g) :: post ∧ i ∈ g ∧ HasKind x s n ∧ ∀ n' g', (n', g') ∈ post → HasKind x s n' → i ∉ g' := by
    intro l
    induction l with
    | nil => rintro ⟨_, h, _⟩; cases h
    | cons a l ih =>
      rintro ⟨ni, hni, hk, hi⟩
      by_cases hl : ∃ ni ∈ l, HasKind x s ni.1 ∧ i ∈ ni.2
      · obtain ⟨n, pre, g, post, e, r⟩ := ih hl
        exact ⟨n, a :: pre, g, post, by rw [e]; rfl, r⟩
      · rcases List.mem_cons.1 hni with rfl | hni
        · exact ⟨ni.1, [], ni.2, l, rfl, hi, hk, fun n' g' hm hk' hi' => hl ⟨(n', g'), hm, hk', hi'⟩⟩
        · exact absurd ⟨ni, hni, hk, hi⟩ hl
  obtain ⟨n', pre, g', post, r⟩ := key x.physicals ⟨(n, g), Dict.mem_of_get h1, ⟨tv, h3, h4⟩, h2⟩
  exact ⟨n', pre, g', post, r⟩

/-- **C34.** The linear system of the electrostatic solver, for every excitation with unique names and sensible values on a valid mesh, the names being of
the right dimension: it has one row per active element, and the right hand side of a row is what the excitation of the electrode deciding about the element prescribes
(every active element has a deciding electrode, `exists_decides`, for elements in one excited group only it is that group, `decides_of_unique`). -/
theorem C34_electrostatic [Zero V] [Inhabited P] {x : Excitation V P} (hv : Valid x.mesh) (hn : x.types.keys.Nodup) (hp : Proper x .electrostatic)
    (hnum : Numeric x .electrostatic) (centre : List P → P) :
    ∃ (F : List V) (idx : List Nat), x.electricRhs centre = some F ∧
      idx.Pairwise (· < ·) ∧ (∀ i, i ∈ idx ↔ i < x.elements.length ∧ Excited x .electrostatic i) ∧ F.length = idx.length ∧
      ∀ (k i : Nat) e n tv, idx[k]? = some i → x.elements[i]? = some e → Decides x .electrostatic n i → x.types.get n = some tv →
        F[k]? = expectedElectric (centre (coords x.mesh.points e)) tv ∧ F[k]?.isSome := by
  obtain ⟨verts, names, idx, h⟩ := Excitation.active_spec hv hn hp
  obtain ⟨ts, vs, h1, h2, h3, h4⟩ := Excitation.solver_arrays hv hnum h (fun k => centre (verts.getD k []))
  refine ⟨(ts.zip vs).map (fun tv => Excitation.rhsElectric tv.1 tv.2), idx, ?_, h.sorted, h.mem, by simp [h2, h3], ?_⟩
  · unfold Excitation.electricRhs
    rw [h.eq]
    simp only [Option.bind_eq_bind, Option.bind_some]
    rw [h1]; rfl
  · intro k i e n tv hk he hd htv
    obtain ⟨e1, e2⟩ := h4 k i n tv hk hd htv
    have hkind : Excitation.typeCheck .electrostatic tv.1 = true := by
      obtain ⟨_, _, _, _, _, ⟨tv', h5, h6⟩, _⟩ := hd
      rw [htv] at h5; cases h5; exact h6
    have hnn := hnum n tv htv hkind
    have hvert : verts.getD k [] = coords x.mesh.points e := by
      rw [List.getD_eq_getElem?_getD, h.vertIdx k i hk, List.getElem?_map, he]; rfl
    have hF : ((ts.zip vs).map (fun tv => Excitation.rhsElectric tv.1 tv.2))[k]? =
        some (Excitation.rhsElectric (some tv.1) (Excitation.valueAt (fun k => centre (verts.getD k [])) tv k)) := by
      rw [List.getElem?_map, (List.getElem?_zip_eq_some (z := (some tv.1, Excitation.valueAt (fun k => centre (verts.getD k [])) tv k))).2 ⟨e1, e2⟩]; rfl
    rw [hF]
    refine ⟨?_, rfl⟩
    obtain ⟨t, v⟩ := tv
    cases t with
    | voltageFixed => obtain ⟨a, rfl⟩ := hnn.2 (by simp); rfl
    | voltageFun =>
      obtain ⟨f, hf⟩ := hnn.1 rfl
      simp only at hf; subst hf
      simp only [Excitation.rhsElectric, Excitation.valueAt, expectedElectric, hvert]
    | dielectric => obtain ⟨a, rfl⟩ := hnn.2 (by simp); rfl
    | current => simp [Excitation.typeCheck, ExcType.isElectrostatic] at hkind
    | magnetostaticPot => simp [Excitation.typeCheck, ExcType.isElectrostatic] at hkind
    | magnetizable => simp [Excitation.typeCheck, ExcType.isElectrostatic] at hkind

/-- **C34** for the magnetostatic solver: the prescribed potential, or the term `flux` for a magnetizable element. -/
theorem C34_magnetostatic [Zero V] [Inhabited P] {x : Excitation V P} (hv : Valid x.mesh) (hn : x.types.keys.Nodup) (hp : Proper x .magnetostatic)
    (hnum : Numeric x .magnetostatic) (centre : List P → P) (flux : List P → V → V) :
    ∃ (F : List V) (idx : List Nat), x.magneticRhs centre flux = some F ∧
      idx.Pairwise (· < ·) ∧ (∀ i, i ∈ idx ↔ i < x.elements.length ∧ Excited x .magnetostatic i) ∧ F.length = idx.length ∧
      ∀ (k i : Nat) e n tv, idx[k]? = some i → x.elements[i]? = some e → Decides x .magnetostatic n i → x.types.get n = some tv →
        F[k]? = expectedMagnetic (flux (coords x.mesh.points e)) tv ∧ F[k]?.isSome := by
  obtain ⟨verts, names, idx, h⟩ := Excitation.active_spec hv hn hp
  obtain ⟨ts, vs, h1, h2, h3, h4⟩ := Excitation.solver_arrays hv hnum h (fun k => centre (verts.getD k []))
  refine ⟨((ts.zip vs).zipIdx).map (fun tv => Excitation.rhsMagnetic (fun k => flux (verts.getD k [])) tv.2 tv.1.1 tv.1.2), idx, ?_,
    h.sorted, h.mem, by simp [h2, h3], ?_⟩
  · unfold Excitation.magneticRhs
    rw [h.eq]
    simp only [Option.bind_eq_bind, Option.bind_some]
    rw [h1]; rfl
  · intro k i e n tv hk he hd htv
    obtain ⟨e1, e2⟩ := h4 k i n tv hk hd htv
    have hkind : Excitation.typeCheck .magnetostatic tv.1 = true := by
      obtain ⟨_, _, _, _, _, ⟨tv', h5, h6⟩, _⟩ := hd
      rw [htv] at h5; cases h5; exact h6
    have hnn := hnum n tv htv hkind
    have hvert : verts.getD k [] = coords x.mesh.points e := by
      rw [List.getD_eq_getElem?_getD, h.vertIdx k i hk, List.getElem?_map, he]; rfl
    have hF : (((ts.zip vs).zipIdx).map (fun tv => Excitation.rhsMagnetic (fun k => flux (verts.getD k [])) tv.2 tv.1.1 tv.1.2))[k]? =
        some (Excitation.rhsMagnetic (fun k => flux (verts.getD k [])) k (some tv.1) (Excitation.valueAt (fun k => centre (verts.getD k [])) tv k)) := by
      rw [List.getElem?_map, List.getElem?_zipIdx, (List.getElem?_zip_eq_some (z := (some tv.1, Excitation.valueAt (fun k => centre (verts.getD k [])) tv k))).2 ⟨e1, e2⟩]
      simp
    rw [hF]
    refine ⟨?_, rfl⟩
    obtain ⟨t, v⟩ := tv
    cases t with
    | magnetostaticPot => obtain ⟨a, rfl⟩ := hnn.2 (by simp); rfl
    | magnetizable =>
      obtain ⟨a, ha⟩ := hnn.2 (by simp)
      simp only at ha; subst ha
      simp only [Excitation.rhsMagnetic, Excitation.valueAt, expectedMagnetic, hvert]
    | voltageFixed => simp [Excitation.typeCheck] at hkind
    | voltageFun => simp [Excitation.typeCheck] at hkind
    | dielectric => simp [Excitation.typeCheck] at hkind
    | current => simp [Excitation.typeCheck] at hkind

end Traceon
