import Verif.Spec.Excitation
import Verif.Props.Mesh

/-!
# C32, C33: excitations
-/
namespace Traceon
open Spec
variable {V P : Type}

namespace Excitation

theorem lastAssigned_append {α : Type _} (a b : List (String × α)) (n : String) :
    lastAssigned (a ++ b) n = (lastAssigned b n).or (lastAssigned a n) := by
  unfold lastAssigned
  rw [List.reverse_append, List.find?_append]
  cases List.find? (fun r => r.1 == n) b.reverse <;> rfl

theorem lastAssigned_nil {α : Type _} (n : String) : lastAssigned ([] : List (String × α)) n = none := rfl

theorem lastAssigned_single {α : Type _} (k : String) (v : α) (n : String) :
    lastAssigned [(k, v)] n = if k = n then some v else none := by
  unfold lastAssigned
  simp only [List.reverse_singleton, List.find?_singleton, beq_iff_eq]
  split <;> rfl

/-- The loop applies the granted requests. -/
theorem addLoop_types (accept : String → ExcVal V P → Option (ExcType × ExcVal V P)) (kw : List (String × ExcVal V P))
    (x : Excitation V P) (n : String) :
    (addLoop accept kw x).1.types.get n =
      (lastAssigned (((kw.map (fun nv => (nv.1, accept nv.1 nv.2))).takeWhile (fun r => r.2.isSome)).filterMap
        (fun r => r.2.map (fun tv => (r.1, tv)))) n).or (x.types.get n) := by
  induction kw generalizing x with
  | nil => simp [addLoop, lastAssigned_nil]
  | cons nv kw ih =>
    obtain ⟨k, v⟩ := nv
    unfold addLoop
    cases h : accept k v with
    | none => simp [h, lastAssigned_nil]
    | some tv =>
      simp only
      rw [ih]
      simp only [List.map_cons, h, List.takeWhile_cons, Option.isSome_some, if_true, List.filterMap_cons, Option.map_some]
      rw [← List.singleton_append, lastAssigned_append, lastAssigned_single, Option.or_assoc]
      congr 1
      rw [Dict.get_set]
      by_cases hk : k = n
      · simp [hk]
      · have : n ≠ k := fun e => hk e.symm
        simp [hk, this]

theorem addLoop_frame (accept : String → ExcVal V P → Option (ExcType × ExcVal V P)) (kw : List (String × ExcVal V P))
    (x : Excitation V P) :
    (addLoop accept kw x).1.mesh = x.mesh ∧ (addLoop accept kw x).1.electrodes = x.electrodes ∧
      (addLoop accept kw x).1.symmetry = x.symmetry ∧
      (x.types.keys.Nodup → (addLoop accept kw x).1.types.keys.Nodup) := by
  induction kw generalizing x with
  | nil => exact ⟨rfl, rfl, rfl, id⟩
  | cons nv kw ih =>
    obtain ⟨k, v⟩ := nv
    unfold addLoop
    cases h : accept k v with
    | none => exact ⟨rfl, rfl, rfl, id⟩
    | some tv =>
      obtain ⟨h1, h2, h3, h4⟩ := ih { x with types := x.types.set k tv }
      exact ⟨h1, h2, h3, fun h => h4 (Dict.keys_set_nodup h)⟩

/-- The call returns normally iff no request is refused. -/
theorem addLoop_ok (accept : String → ExcVal V P → Option (ExcType × ExcVal V P)) (kw : List (String × ExcVal V P))
    (x : Excitation V P) : (addLoop accept kw x).2 = true ↔ ∀ nv ∈ kw, (accept nv.1 nv.2).isSome := by
  induction kw generalizing x with
  | nil => simp [addLoop]
  | cons nv kw ih =>
    obtain ⟨k, v⟩ := nv
    unfold addLoop
    cases h : accept k v with
    | none => simp [h]
    | some tv => simp only [ih, List.forall_mem_cons, h, Option.isSome_some, true_and]

/-! `{a: 0 for a in args}` -/

theorem zeros_fold [Zero V] (p : String → Bool) (names : List String) (d : Dict (ExcVal V P))
    (hd : ∀ kv ∈ d, kv.2 = .num 0) :
    (∀ kv ∈ names.foldl (fun (d : Dict (ExcVal V P)) n => d.set n (.num 0)) d, kv.2 = .num 0) ∧
    (∀ n, n ∈ ((names.foldl (fun (d : Dict (ExcVal V P)) n => d.set n (.num 0)) d).keys.takeWhile p) ↔
      n ∈ (d.keys ++ names).takeWhile p) ∧
    (∀ n, n ∈ (names.foldl (fun (d : Dict (ExcVal V P)) n => d.set n (.num 0)) d).keys ↔ n ∈ d.keys ++ names) := by
  induction names generalizing d with
  | nil => exact ⟨hd, by simp, by simp⟩
  | cons a names ih =>
    have hd' : ∀ kv ∈ d.set a (.num 0), kv.2 = ExcVal.num 0 := by
      intro kv hkv
      unfold Dict.set at hkv
      split at hkv
      · obtain ⟨q, hq, rfl⟩ := List.mem_map.1 hkv
        split
        · rfl
        · exact hd q hq
      · rcases List.mem_append.1 hkv with h | h
        · exact hd kv h
        · rw [List.mem_singleton.1 h]
    obtain ⟨h1, h2, h3⟩ := ih (d.set a (.num 0)) hd'
    refine ⟨h1, fun n => ?_, fun n => ?_⟩
    · rw [List.foldl_cons, h2 n, Dict.keys_set]
      split
      · rename_i ha
        have key : ∀ (l : List String), a ∈ l → ∀ n, (n ∈ (l ++ names).takeWhile p ↔ n ∈ (l ++ a :: names).takeWhile p) := by
          intro l hal n
          by_cases hall : ∀ y ∈ l, p y = true
          · rw [List.takeWhile_append_of_pos hall, List.takeWhile_append_of_pos hall, List.takeWhile_cons, if_pos (hall a hal)]
            simp only [List.mem_append, List.mem_cons]
            constructor
            · rintro (h | h)
              · exact .inl h
              · exact .inr (.inr h)
            · rintro (h | rfl | h)
              · exact .inl h
              · exact .inl hal
              · exact .inr h
          · have : ∀ t : List String, (l ++ t).takeWhile p = l.takeWhile p := by
              intro t
              rw [List.takeWhile_append]
              split
              · rename_i hlen
                exfalso
                apply hall
                intro y hy
                have : l.takeWhile p = l := (List.takeWhile_sublist p).eq_of_length hlen
                rw [← this] at hy
                exact List.all_eq_true.1 List.all_takeWhile y hy
              · rfl
            rw [this, this]
        exact key _ ha n
      · rw [List.append_assoc]; rfl
    · rw [List.foldl_cons, h3 n, Dict.keys_set]
      split
      · rename_i ha
        simp only [List.mem_append, List.mem_cons]
        constructor
        · rintro (h | h)
          · exact .inl h
          · exact .inr (.inr h)
        · rintro (h | rfl | h)
          · exact .inl h
          · exact .inl ha
          · exact .inr h
      · simp

theorem lastAssigned_const {α : Type _} (v : α) (l : List String) (n : String) :
    lastAssigned (l.map (fun k => (k, v))) n = if n ∈ l then some v else none := by
  induction l with
  | nil => rfl
  | cons a l ih =>
    rw [List.map_cons, ← List.singleton_append, lastAssigned_append, ih, lastAssigned_single]
    by_cases h : n ∈ l
    · simp [h]
    · by_cases h' : a = n
      · subst h'; simp [h]
      · have : n ≠ a := fun e => h' e.symm
        simp [h, h', this]

theorem granted_const (p : String → Bool) (v : ExcType × ExcVal V P) (l : List String) :
    ((l.map (fun n => (n, if p n = true then some v else none))).takeWhile (fun r => r.2.isSome)).filterMap
      (fun r => r.2.map (fun tv => (r.1, tv))) = (l.takeWhile p).map (fun k => (k, v)) := by
  induction l with
  | nil => rfl
  | cons a l ih =>
    rw [List.map_cons, List.takeWhile_cons, List.takeWhile_cons]
    by_cases h : p a = true
    · simp only [h, if_true, Option.isSome_some, List.filterMap_cons, Option.map_some, List.map_cons, ih]
    · simp [h]

/-- State invariant of an excitation during a history of calls. -/
structure Inv [Zero V] (m : Mesh P) (sym : Symmetry) (hist : List (Call V P)) (x : Excitation V P) : Prop where
  mesh : Mesh.OrientRel m x.mesh
  electrodes : x.electrodes = m.electrodes
  symmetry : x.symmetry = sym
  nodup : x.types.keys.Nodup
  last : ∀ n, x.types.get n = lastAssigned (hist.flatMap (granted m sym)) n

theorem mem_electrodes {m : Mesh P} {n : String} : n ∈ m.electrodes ↔ n ∈ m.physLines.keys ∨ n ∈ m.physTris.keys := by
  unfold Mesh.electrodes; exact List.mem_append

theorem Inv.step [Zero V] {G : Geo P} {m : Mesh P} {sym : Symmetry} {hist : List (Call V P)} {x : Excitation V P} (hv : Valid m)
    (h : Inv m sym hist x) (c : Call V P) : Inv m sym (hist ++ [c]) (x.call G c).1 := by
  have hadd : ∀ (y : Excitation V P) (acc : String → ExcVal V P → Option (ExcType × ExcVal V P)) (kw : List (String × ExcVal V P)),
      Mesh.OrientRel m y.mesh → y.electrodes = m.electrodes → y.symmetry = sym → y.types = x.types →
      (∀ n, lastAssigned (((kw.map (fun nv => (nv.1, acc nv.1 nv.2))).takeWhile (fun r => r.2.isSome)).filterMap
        (fun r => r.2.map (fun tv => (r.1, tv)))) n = lastAssigned (granted m sym c) n) →
      Inv m sym (hist ++ [c]) (addLoop acc kw y).1 := by
    intro y acc kw h1 h2 h3 h4 h5
    obtain ⟨f1, f2, f3, f4⟩ := addLoop_frame acc kw y
    refine ⟨f1 ▸ h1, f2.trans h2, f3.trans h3, f4 (by rw [h4]; exact h.nodup), fun n => ?_⟩
    rw [addLoop_types, h5, h4, h.last, List.flatMap_append, lastAssigned_append, List.flatMap_singleton]
  have hboundary : ∀ (t : ExcType) (names : List String) (y : Excitation V P), Mesh.OrientRel m y.mesh → y.electrodes = m.electrodes →
      y.symmetry = sym → y.types = x.types →
      (requests m sym c = names.map (fun n => (n, if n ∈ m.physLines.keys ∨ n ∈ m.physTris.keys then some (t, .num 0) else none))) →
      Inv m sym (hist ++ [c]) (addLoop (x.acceptOther t) (zeros names) y).1 := by
    intro t names y h1 h2 h3 h4 h5
    apply hadd y _ _ h1 h2 h3 h4
    intro n
    obtain ⟨z1, z2, _⟩ := zeros_fold (V := V) (P := P) (fun n => decide (n ∈ m.electrodes)) names [] (by simp)
    have e1 : (zeros names : List (String × ExcVal V P)).map (fun nv => (nv.1, x.acceptOther t nv.1 nv.2)) =
        (Dict.keys (zeros names : Dict (ExcVal V P))).map (fun n => (n, if decide (n ∈ m.electrodes) = true then some (t, ExcVal.num 0) else none)) := by
      unfold Dict.keys
      rw [List.map_map]
      apply List.map_congr_left
      intro kv hkv
      have := z1 kv hkv
      simp only [Function.comp, acceptOther, h.electrodes, this, decide_eq_true_eq]
    rw [e1, granted_const, lastAssigned_const]
    unfold granted
    rw [h5]
    have e2 : names.map (fun n => (n, if n ∈ m.physLines.keys ∨ n ∈ m.physTris.keys then some (t, (ExcVal.num 0 : ExcVal V P)) else none)) =
        names.map (fun n => (n, if decide (n ∈ m.electrodes) = true then some (t, ExcVal.num 0) else none)) := by
      apply List.map_congr_left
      intro n _
      simp only [decide_eq_true_eq, mem_electrodes]
    rw [e2, granted_const, lastAssigned_const]
    have := z2 n
    simp only [Dict.keys, List.map_nil, List.nil_append] at this
    simp only [zeros, Dict.keys, this]
  have hel : ∀ n, n ∈ x.electrodes ↔ n ∈ m.physLines.keys ∨ n ∈ m.physTris.keys := by
    intro n; rw [h.electrodes]; exact mem_electrodes
  cases c with
  | voltage kw =>
    apply hadd x _ _ h.mesh h.electrodes h.symmetry rfl
    intro n
    have : (fun nv : String × ExcVal V P => (nv.1, x.acceptVoltage nv.1 nv.2)) = (fun nv : String × ExcVal V P => (nv.1,
        if nv.1 ∈ m.physLines.keys ∨ nv.1 ∈ m.physTris.keys then
          match nv.2 with
          | .num a => some (.voltageFixed, .num a)
          | .fn f => some (.voltageFun, .fn f)
          | .other => none
        else none)) := by
      funext nv
      simp only [acceptVoltage, hel]
      obtain ⟨k, v⟩ := nv
      cases v <;> rfl
    rw [this]; rfl
  | current kw =>
    simp only [call]
    by_cases hs : x.symmetry = .radial
    · rw [if_pos hs]
      apply hadd x _ _ h.mesh h.electrodes h.symmetry rfl
      intro n
      have hs' : sym = .radial := by rw [← h.symmetry]; exact hs
      simp only [granted, requests, acceptCurrent, hs', true_and, Dict.has_iff, h.mesh.physTris]
    · rw [if_neg hs]
      have hs' : ¬sym = .radial := by rw [← h.symmetry]; exact hs
      refine ⟨h.mesh, h.electrodes, h.symmetry, h.nodup, fun n => ?_⟩
      rw [List.flatMap_append, lastAssigned_append, List.flatMap_singleton]
      have : granted m sym (Call.current kw) = [] := by
        simp only [granted, requests, hs', false_and, if_false]
        cases kw <;> simp
      rw [this, h.last]; rfl
  | magnetostaticPotential kw =>
    apply hadd x _ _ h.mesh h.electrodes h.symmetry rfl
    intro n
    simp only [granted, requests, acceptOther, hel]
  | magnetizable kw =>
    apply hadd x _ _ h.mesh h.electrodes h.symmetry rfl
    intro n
    simp only [granted, requests, acceptOther, hel]
  | dielectric kw =>
    apply hadd x _ _ h.mesh h.electrodes h.symmetry rfl
    intro n
    simp only [granted, requests, acceptOther, hel]
  | electrostaticBoundary names ensure =>
    obtain ⟨M, hM, hr⟩ : ∃ M, (if ensure then inward G names x.mesh else some x.mesh) = some M ∧ Mesh.OrientRel m M := by
      cases ensure with
      | false => exact ⟨x.mesh, rfl, h.mesh⟩
      | true =>
        obtain ⟨M, h1, h2⟩ := Mesh.ensureAll_spec (G := G) false names x.mesh (h.mesh.valid hv)
        exact ⟨M, h1, h.mesh.trans h2⟩
    simp only [call, hM]
    exact hboundary .dielectric names { x with mesh := M } hr h.electrodes h.symmetry rfl rfl
  | magnetostaticBoundary names ensure =>
    obtain ⟨M, hM, hr⟩ : ∃ M, (if ensure then inward G names x.mesh else some x.mesh) = some M ∧ Mesh.OrientRel m M := by
      cases ensure with
      | false => exact ⟨x.mesh, rfl, h.mesh⟩
      | true =>
        obtain ⟨M, h1, h2⟩ := Mesh.ensureAll_spec (G := G) false names x.mesh (h.mesh.valid hv)
        exact ⟨M, h1, h.mesh.trans h2⟩
    simp only [call, hM]
    exact hboundary .magnetizable names { x with mesh := M } hr h.electrodes h.symmetry rfl rfl

theorem calls_inv [Zero V] {G : Geo P} {m : Mesh P} {sym : Symmetry} {hist : List (Call V P)} {x : Excitation V P} (hv : Valid m)
    (h : Inv m sym hist x) (cs : List (Call V P)) : Inv m sym (hist ++ cs) (x.calls G cs) := by
  induction cs generalizing x hist with
  | nil => simpa [calls] using h
  | cons c cs ih =>
    have := ih (h.step (G := G) hv c)
    rw [List.append_assoc] at this
    exact this

end Excitation

/-- every granted request is about a name of the mesh, and its value fits its type -/
theorem granted_legal [Zero V] {m : Mesh P} {sym : Symmetry} {c : Excitation.Call V P} {n : String} {tv : ExcType × ExcVal V P}
    (h : (n, tv) ∈ granted m sym c) :
    (n ∈ m.physLines.keys ∨ n ∈ m.physTris.keys) ∧ (tv.1 = .current → sym = .radial ∧ n ∈ m.physTris.keys) ∧
      (tv.1 = .voltageFixed → ∃ v, tv.2 = .num v) ∧ (tv.1 = .voltageFun → ∃ f, tv.2 = .fn f) := by
  obtain ⟨⟨k, o⟩, hr, ho⟩ := List.mem_filterMap.1 h
  simp only [Option.map_eq_some_iff, Prod.mk.injEq] at ho
  obtain ⟨tv', rfl, rfl, rfl⟩ := ho
  have hr := (List.takeWhile_sublist _).mem hr
  cases c with
  | voltage kw =>
    obtain ⟨⟨k', v⟩, _, hk⟩ := List.mem_map.1 hr
    simp only [Prod.mk.injEq] at hk
    obtain ⟨rfl, hk⟩ := hk
    split at hk
    · rename_i hn
      refine ⟨hn, ?_⟩
      split at hk <;> cases hk <;> simp
    · cases hk
  | current kw =>
    obtain ⟨⟨k', v⟩, _, hk⟩ := List.mem_map.1 hr
    simp only [Prod.mk.injEq] at hk
    obtain ⟨rfl, hk⟩ := hk
    split at hk
    · rename_i hn
      cases hk
      exact ⟨.inr hn.2, fun _ => hn, by simp, by simp⟩
    · cases hk
  | magnetostaticPotential kw =>
    obtain ⟨⟨k', v⟩, _, hk⟩ := List.mem_map.1 hr
    simp only [Prod.mk.injEq] at hk
    obtain ⟨rfl, hk⟩ := hk
    split at hk
    · rename_i hn; cases hk; exact ⟨hn, by simp, by simp, by simp⟩
    · cases hk
  | magnetizable kw =>
    obtain ⟨⟨k', v⟩, _, hk⟩ := List.mem_map.1 hr
    simp only [Prod.mk.injEq] at hk
    obtain ⟨rfl, hk⟩ := hk
    split at hk
    · rename_i hn; cases hk; exact ⟨hn, by simp, by simp, by simp⟩
    · cases hk
  | dielectric kw =>
    obtain ⟨⟨k', v⟩, _, hk⟩ := List.mem_map.1 hr
    simp only [Prod.mk.injEq] at hk
    obtain ⟨rfl, hk⟩ := hk
    split at hk
    · rename_i hn; cases hk; exact ⟨hn, by simp, by simp, by simp⟩
    · cases hk
  | electrostaticBoundary names e =>
    obtain ⟨k', _, hk⟩ := List.mem_map.1 hr
    simp only [Prod.mk.injEq] at hk
    obtain ⟨rfl, hk⟩ := hk
    split at hk
    · rename_i hn; cases hk; exact ⟨hn, by simp, by simp, by simp⟩
    · cases hk
  | magnetostaticBoundary names e =>
    obtain ⟨k', _, hk⟩ := List.mem_map.1 hr
    simp only [Prod.mk.injEq] at hk
    obtain ⟨rfl, hk⟩ := hk
    split at hk
    · rename_i hn; cases hk; exact ⟨hn, by simp, by simp, by simp⟩
    · cases hk

/-- **C32.** After any sequence of `add_*` calls on a new excitation of a valid mesh, calls that raise included: a name carries the last
excitation that was granted to it (a call that meets an illegal request has granted the requests before it); hence only names of the mesh occur, each once,
with a value that fits its type; the mesh keeps its points, its names, and its elements up to direction. -/
theorem C32_history [Zero V] {G : Geo P} {m : Mesh P} (hv : Valid m) {sym : Symmetry} {inXZ : P → Bool} {x0 : Excitation V P}
    (h0 : Excitation.new m sym inXZ = some x0) (cs : List (Excitation.Call V P)) :
    (∀ n, (x0.calls G cs).types.get n = lastAssigned (cs.flatMap (granted m sym)) n) ∧
    (x0.calls G cs).types.keys.Nodup ∧
    (∀ n tv, (n, tv) ∈ (x0.calls G cs).types → (n ∈ m.physLines.keys ∨ n ∈ m.physTris.keys) ∧
      (tv.1 = .current → sym = .radial ∧ n ∈ m.physTris.keys) ∧
      (tv.1 = .voltageFixed → ∃ v, tv.2 = .num v) ∧ (tv.1 = .voltageFun → ∃ f, tv.2 = .fn f)) := by
  have hx0 : Excitation.Inv m sym [] x0 := by
    unfold Excitation.new at h0
    split at h0
    · cases h0
    · cases h0
      exact ⟨Mesh.OrientRel.refl m, rfl, rfl, by simp [Dict.keys], fun n => by simp [lastAssigned]⟩
  have h := Excitation.calls_inv (G := G) hv hx0 cs
  rw [List.nil_append] at h
  refine ⟨h.last, h.nodup, fun n tv hn => ?_⟩
  have := Dict.get_of_mem h.nodup hn
  rw [h.last] at this
  unfold lastAssigned at this
  obtain ⟨r, hr, rfl⟩ := Option.map_eq_some_iff.1 this
  have h1 := List.mem_of_find?_eq_some hr
  have h2 := List.find?_some hr
  simp only [beq_iff_eq] at h2
  rw [List.mem_reverse, List.mem_flatMap] at h1
  obtain ⟨c, _, hc⟩ := h1
  obtain ⟨k, tv⟩ := r
  subst h2
  exact granted_legal hc

/-- **C32**, the mesh: turning normals inward for boundaries changes the direction of named elements only. -/
theorem C32_boundary_mesh [Zero V] {G : Geo P} {m : Mesh P} (hv : Valid m) {sym : Symmetry} {inXZ : P → Bool} {x0 : Excitation V P}
    (h0 : Excitation.new m sym inXZ = some x0) (cs : List (Excitation.Call V P)) :
    Valid (x0.calls G cs).mesh ∧ (x0.calls G cs).mesh.points = m.points ∧ (x0.calls G cs).mesh.physLines = m.physLines ∧
    (x0.calls G cs).mesh.physTris = m.physTris ∧
    (∀ k : Nat, (x0.calls G cs).mesh.lines[k]? = m.lines[k]? ∨
      InGroup m.physLines k ∧ (x0.calls G cs).mesh.lines[k]? = (m.lines[k]?).map revLine) ∧
    (∀ k : Nat, (x0.calls G cs).mesh.triangles[k]? = m.triangles[k]? ∨
      InGroup m.physTris k ∧ (x0.calls G cs).mesh.triangles[k]? = (m.triangles[k]?).map revTri) := by
  have hx0 : Excitation.Inv m sym [] x0 := by
    unfold Excitation.new at h0
    split at h0
    · cases h0
    · cases h0
      exact ⟨Mesh.OrientRel.refl m, rfl, rfl, by simp [Dict.keys], fun n => by simp [lastAssigned]⟩
  have h := (Excitation.calls_inv (G := G) hv hx0 cs).mesh
  refine ⟨h.valid hv, h.points, h.physLines, h.physTris, fun k => ?_, fun k => ?_⟩
  · by_cases hk : InGroup m.physLines k
    · rcases h.lines.2 k with h1 | h1
      · exact .inl h1
      · right; refine ⟨hk, h1.trans ?_⟩
        cases m.lines[k]? <;> simp [flipLine_eq]
    · exact .inl (h.linesOut k hk)
  · by_cases hk : InGroup m.physTris k
    · rcases h.tris.2 k with h1 | h1
      · exact .inl h1
      · right; refine ⟨hk, h1.trans ?_⟩
        cases m.triangles[k]? <;> simp [flipTri_eq]
    · exact .inl (h.trisOut k hk)

/-- **C32** (constructor). With radial symmetry an excitation is made exactly if all points of the mesh are in the plane `y = 0`; in three dimensions it is
always made. A new excitation has the mesh, and no electrode is excited. -/
theorem C32_new (m : Mesh P) (sym : Symmetry) (inXZ : P → Bool) :
    ((∃ x : Excitation V P, Excitation.new m sym inXZ = some x) ↔ (sym = .radial → ∀ p ∈ m.points, inXZ p = true)) ∧
    ∀ x : Excitation V P, Excitation.new m sym inXZ = some x → x.mesh = m ∧ x.symmetry = sym ∧ (∀ n, x.types.get n = none) ∧
      ∀ n, n ∈ x.electrodes ↔ n ∈ m.physLines.keys ∨ n ∈ m.physTris.keys := by
  constructor
  · constructor
    · rintro ⟨x, hx⟩ hs p hp
      unfold Excitation.new at hx
      cases hc : inXZ p with
      | true => rfl
      | false =>
        rw [if_pos ⟨hs, fun hall => by have := List.all_eq_true.1 hall p hp; rw [hc] at this; cases this⟩] at hx
        cases hx
    · intro h
      unfold Excitation.new
      rw [if_neg (fun c => c.2 (List.all_eq_true.2 (h c.1)))]
      exact ⟨_, rfl⟩
  · intro x hx
    unfold Excitation.new at hx
    split at hx
    · cases hx
    · cases hx
      refine ⟨rfl, rfl, fun n => rfl, fun n => ?_⟩
      simp [Mesh.electrodes]

end Traceon
