import Verif.Spec.Pipeline
import Verif.Props.Collections
import Verif.Props.Excitation2
import Verif.Props.SolveField2
import Verif.Lemmas.Build
import Verif.Lemmas.MeshOps

/-!
# Named parts stay apart

Every element of a part has at most one name. This survives everything the mesh code does: removing degenerate triangles, merging points, adding meshes.
-/
namespace Traceon
open Spec Excitation
variable {P : Type} {G : Geo P}

namespace Pipe

theorem rank_lt {α : Type _} (l : List α) (p : α → Bool) {i j : Nat} {a : α} (hi : l[i]? = some a) (ha : p a = true) (hij : i < j) :
    ((l.take i).filter p).length < ((l.take j).filter p).length := by
  have h : (l.take j)[i]? = some a := by rw [List.getElem?_take_of_lt hij]; exact hi
  have := Mesh.filter_take_length_lt (l.take j) p i a h ha
  rwa [List.take_take, Nat.min_eq_left hij.le] at this

theorem namedOnce_remove {m M : Mesh P} {keep : Elem → Bool} (r : Mesh.RemoveRel G m M keep) (h : NamedOnce m.physTris) : NamedOnce M.physTris := by
  have hinj : ∀ i j : Nat, (m.triangles[i]?.map keep).getD false = true → (m.triangles[j]?.map keep).getD false = true →
      ((m.triangles.take i).filter keep).length = ((m.triangles.take j).filter keep).length → i = j := by
    intro i j hi hj he
    have key : ∀ i j : Nat, (m.triangles[i]?.map keep).getD false = true → i < j →
        ((m.triangles.take i).filter keep).length < ((m.triangles.take j).filter keep).length := by
      intro i j hi hij
      cases hm : m.triangles[i]? with
      | none => simp [hm] at hi
      | some a =>
        simp [hm] at hi
        exact rank_lt _ _ hm hi hij
    rcases lt_trichotomy i j with hij | hij | hij
    · have := key i j hi hij; omega
    · exact hij
    · have := key j i hj hij; omega
  have hget : ∀ n g, M.physTris.get n = some g → ∃ g0, m.physTris.get n = some g0 ∧
      g = (g0.filter (fun i => (m.triangles[i]?.map keep).getD false)).map (fun i => ((m.triangles.take i).filter keep).length) := by
    intro n g hg
    rw [r.groups, Dict.get_map (f := fun g : List Nat => (g.filter (fun i => (m.triangles[i]?.map keep).getD false)).map (fun i => ((m.triangles.take i).filter keep).length))] at hg
    obtain ⟨g0, h0, rfl⟩ := Option.map_eq_some_iff.1 hg
    exact ⟨g0, h0, rfl⟩
  constructor
  · intro n g hg
    obtain ⟨g0, h0, rfl⟩ := hget n g hg
    refine List.Nodup.map_on ?_ ((h.nodup n g0 h0).filter _)
    intro i hi j hj he
    exact hinj i j (List.mem_filter.1 hi).2 (List.mem_filter.1 hj).2 he
  · intro n n' g g' hg hg' hne i hi hi'
    obtain ⟨g0, h0, rfl⟩ := hget n g hg
    obtain ⟨g0', h0', rfl⟩ := hget n' g' hg'
    obtain ⟨a, ha, rfl⟩ := List.mem_map.1 hi
    obtain ⟨b, hb, he⟩ := List.mem_map.1 hi'
    obtain ⟨ha1, ha2⟩ := List.mem_filter.1 ha
    obtain ⟨hb1, hb2⟩ := List.mem_filter.1 hb
    have := hinj b a hb2 ha2 he
    subst this
    exact h.apart n n' g0 g0' h0 h0' hne _ ha1 hb1

theorem namedOnce_build (hG : G.Lawful) {m M : Mesh P} (hv : Valid m) {ensure : Bool} (hb : Mesh.build G m ensure = some M) :
    (NamedOnce m.physLines → NamedOnce M.physLines) ∧ (NamedOnce m.physTris → NamedOnce M.physTris) := by
  obtain ⟨m1, m2, M', keep, r1, r2, r3, _, hb', _⟩ := Mesh.build_phases hG m hv ensure
  rw [hb] at hb'
  cases hb'
  refine ⟨fun h => ?_, fun h => ?_⟩
  · rw [r3.physLines, r2.physLines, r1.physLines]; exact h
  · rw [r3.physTris, r2.physTris]; exact namedOnce_remove r1 h

theorem namedOnce_merge {d1 d2 : Dict (List Nat)} {N : Nat} (k1 : d1.keys.Nodup) (k2 : d2.keys.Nodup) (hN : ∀ kv ∈ d1, ∀ i ∈ kv.2, i < N)
    (h1 : NamedOnce d1) (h2 : NamedOnce d2) : NamedOnce (Mesh.mergeDicts d1 (d2.map fun kv => (kv.1, kv.2.map (· + N)))) := by
  have k2' : Dict.keys (d2.map fun kv => (kv.1, kv.2.map (· + N))) |>.Nodup := by
    have : Dict.keys (d2.map fun kv => (kv.1, kv.2.map (· + N))) = d2.keys := by simp [Dict.keys]
    rw [this]; exact k2
  have hget : ∀ n g, (Mesh.mergeDicts d1 (d2.map fun kv => (kv.1, kv.2.map (· + N)))).get n = some g →
      ∃ a b, g = a ++ b.map (· + N) ∧ (a = [] ∨ d1.get n = some a) ∧ (b = [] ∨ d2.get n = some b) := by
    intro n g hg
    rw [Mesh.mergeDicts_get k1 k2', Dict.get_map (f := fun g : List Nat => g.map (· + N))] at hg
    cases ha : d1.get n <;> cases hb : d2.get n <;> rw [ha, hb] at hg <;> simp [catOpt] at hg
    · exact ⟨[], _, by simpa using hg.symm, .inl rfl, .inr rfl⟩
    · exact ⟨_, [], by simpa using hg.symm, .inr rfl, .inl rfl⟩
    · exact ⟨_, _, hg.symm, .inr rfl, .inr rfl⟩
  have hlt : ∀ n a, (a = [] ∨ d1.get n = some a) → ∀ i ∈ a, i < N := by
    rintro n a (rfl | ha) i hi
    · cases hi
    · exact hN _ (Dict.mem_of_get ha) i hi
  constructor
  · intro n g hg
    obtain ⟨a, b, rfl, ha, hb⟩ := hget n g hg
    rw [List.nodup_append]
    refine ⟨?_, ?_, ?_⟩
    · rcases ha with rfl | ha
      · exact List.nodup_nil
      · exact h1.nodup n a ha
    · refine List.Nodup.map (fun x y h => by simpa using h) ?_
      rcases hb with rfl | hb
      · exact List.nodup_nil
      · exact h2.nodup n b hb
    · intro i hi j hj
      obtain ⟨j', _, rfl⟩ := List.mem_map.1 hj
      have := hlt n a ha i hi
      omega
  · intro n n' g g' hg hg' hne i hi hi'
    obtain ⟨a, b, rfl, ha, hb⟩ := hget n g hg
    obtain ⟨a', b', rfl, ha', hb'⟩ := hget n' g' hg'
    rcases List.mem_append.1 hi with h | h <;> rcases List.mem_append.1 hi' with h' | h'
    · rcases ha with rfl | ha
      · cases h
      rcases ha' with rfl | ha'
      · cases h'
      exact h1.apart n n' a a' ha ha' hne i h h'
    · obtain ⟨j, _, rfl⟩ := List.mem_map.1 h'
      have := hlt n a ha _ h
      omega
    · obtain ⟨j, _, rfl⟩ := List.mem_map.1 h
      have := hlt n' a' ha' _ h'
      omega
    · obtain ⟨j, hj, rfl⟩ := List.mem_map.1 h
      obtain ⟨j', hj', he⟩ := List.mem_map.1 h'
      have : j' = j := by simpa using he
      subst this
      rcases hb with rfl | hb
      · cases hj
      rcases hb' with rfl | hb'
      · cases hj'
      exact h2.apart n n' b b' hb hb' hne _ hj hj'

theorem namedOnce_add (hG : G.Lawful) {m1 m2 M : Mesh P} (v1 : Valid m1) (v2 : Valid m2) (h : Mesh.add G m1 m2 = some M) (hc : m1.lines = [] ∨ m2.lines = [] ∨ m1.lineCols = m2.lineCols) :
    (NamedOnce m1.physLines → NamedOnce m2.physLines → NamedOnce M.physLines) ∧ (NamedOnce m1.physTris → NamedOnce m2.physTris → NamedOnce M.physTris) := by
  obtain ⟨R, hR, vR, _⟩ := Mesh.addRaw_spec m1 m2 v1 v2 hc
  have hb : Mesh.build G R = some M := by
    unfold Mesh.add at h
    rw [hR] at h
    exact h
  obtain ⟨h1, h2⟩ := namedOnce_build hG vR hb
  have hp : R.physLines = Mesh.mergeDicts m1.physLines (m2.physLines.map fun kv => (kv.1, kv.2.map (· + m1.lines.length))) ∧
      R.physTris = Mesh.mergeDicts m1.physTris (m2.physTris.map fun kv => (kv.1, kv.2.map (· + m1.triangles.length))) := by
    unfold Mesh.addRaw at hR
    simp only [Option.bind_eq_bind, Option.bind_eq_some_iff] at hR
    obtain ⟨⟨c, l⟩, _, hR⟩ := hR
    cases hR
    exact ⟨rfl, rfl⟩
  rw [hp.1] at h1
  rw [hp.2] at h2
  exact ⟨fun a b => h1 (namedOnce_merge v1.keysLines v2.keysLines v1.groupLines a b), fun a b => h2 (namedOnce_merge v1.keysTris v2.keysTris v1.groupTris a b)⟩

theorem namedOnce_fold (hG : G.Lawful) (hS : G.Stable) {cols : Nat} (ms : List (Mesh P)) (m0 : Mesh P) (v0 : Valid m0) (c0 : Coll.Cleared G m0)
    (k0 : Coll.Cols cols m0) (hms : ∀ m ∈ ms, Valid m ∧ Coll.Cleared G m ∧ Coll.Cols cols m) {M : Mesh P} (hM : ms.foldlM (Mesh.add G) m0 = some M) :
    (NamedOnce m0.physLines → (∀ m ∈ ms, NamedOnce m.physLines) → NamedOnce M.physLines) ∧
    (NamedOnce m0.physTris → (∀ m ∈ ms, NamedOnce m.physTris) → NamedOnce M.physTris) := by
  induction ms generalizing m0 with
  | nil => cases hM; exact ⟨fun h _ => h, fun h _ => h⟩
  | cons m ms ih =>
    obtain ⟨vm, cm, km⟩ := hms m (List.mem_cons_self ..)
    obtain ⟨M1, h1, v1, c1, k1, _⟩ := Coll.add_step hG hS v0 vm c0 cm k0 km
    rw [List.foldlM_cons, h1] at hM
    have hc : m0.lines = [] ∨ m.lines = [] ∨ m0.lineCols = m.lineCols := by
      rcases Coll.cols_eq v0 k0 with h | h
      · exact .inl h
      · rcases Coll.cols_eq vm km with h' | h'
        · exact .inr (.inl h')
        · exact .inr (.inr (h.trans h'.symm))
    obtain ⟨a1, a2⟩ := namedOnce_add hG v0 vm h1 hc
    obtain ⟨b1, b2⟩ := ih M1 v1 c1 k1 (fun m' hm' => hms m' (List.mem_cons_of_mem _ hm')) hM
    exact ⟨fun h h' => b1 (a1 h (h' m (List.mem_cons_self ..))) (fun m' hm' => h' m' (List.mem_cons_of_mem _ hm')),
      fun h h' => b2 (a2 h (h' m (List.mem_cons_self ..))) (fun m' hm' => h' m' (List.mem_cons_of_mem _ hm'))⟩

end Pipe
end Traceon
