import Verif.Props.Pipeline4
import Verif.Props.Paths
import Verif.Props.SurfaceMesh7
import Verif.Props.OrientTri
import Verif.Props.Rigid5
import Verif.Lemmas.Settled

/-!
# C91: where parts come from, and an example
-/
namespace Traceon
open Spec Excitation
variable {G : Geo V3}

namespace Pipe

theorem namedOnce_empty {d : Dict (List Nat)} (h : ∀ kv ∈ d, ∀ i ∈ kv.2, i < 0) : NamedOnce d := by
  have : ∀ n g, d.get n = some g → g = [] := by
    intro n g hg
    cases g with
    | nil => rfl
    | cons i g => exact absurd (h _ (Dict.mem_of_get hg) i (by simp)) (by omega)
  constructor
  · intro n g hg; rw [this n g hg]; exact List.nodup_nil
  · intro n n' g g' hg _ _ i hi
    rw [this n g hg] at hi; cases hi

theorem namedOnce_single (n : Option String) (k : Nat) : NamedOnce (n.elim [] (fun n => [(n, List.range k)])) := by
  cases n with
  | none => exact namedOnce_empty (by simp)
  | some n =>
    have hg : ∀ n' g, Dict.get [(n, List.range k)] n' = some g → n' = n ∧ g = List.range k := by
      intro n' g h
      unfold Dict.get at h
      simp only [List.find?_cons, List.find?_nil] at h
      split at h
      · rename_i e; cases h; exact ⟨(by simpa using e : n = n').symm, rfl⟩
      · cases h
    constructor
    · intro n' g h; rw [(hg n' g h).2]; exact List.nodup_range
    · intro n1 n2 g g' h h' hne
      exact absurd ((hg n1 g h).1.trans (hg n2 g' h').1.symm) hne

theorem cleared_build (hG : G.Lawful) (hS : G.Stable) (hE : ∀ p q, G.eq p q = true ↔ p = q) {m M : Mesh V3} (hv : Valid m) {ensure : Bool} (hb : Mesh.build G m ensure = some M) :
    ∀ p ∈ M.points, G.trunc p = p := by
  obtain ⟨M', hM', r⟩ := Mesh.build_shapes hG m hv ensure
  rw [hb] at hM'; cases hM'
  intro p hp
  obtain ⟨q, _, rfl⟩ := r.from' p hp
  exact (hE _ _).1 (hS.trunc_twice q)

end Pipe

/-- **C91**: what `Path.mesh` returns can be used as a part. -/
theorem C91_path (hG : G.Lawful) (hS : G.Stable) (hE : ∀ p q, G.eq p q = true ↔ p = q) {p : Path} (hp : GoodPath p) {ms : Option ℝ} {mf : Option ℤ} (h1 : ∀ h, ms = some h → 0 < h)
    (h2 : ms.isSome ∨ mf.isSome) (ho : Bool) (name : Option String) (ensure : Bool) :
    ∃ M, p.mesh G ms mf ho name ensure = some M ∧ IsPart G (if ho then 4 else 2) M := by
  obtain ⟨us, M, n, hM, hv, _, _, _, _, _, hc, ht, _, hpl, _⟩ := C16_path_mesh hG hp h1 h2 ho name ensure
  obtain ⟨us', m, n', hm, S, hlen, hv', _⟩ := rawMesh_spec hp h1 h2 ho name
  have hb : Mesh.build G m ensure = some M := by
    unfold Path.mesh at hM
    rw [hm] at hM
    exact hM
  refine ⟨M, hM, hv, Pipe.cleared_build hG hS hE hv' hb, ?_, ?_, ?_⟩
  · intro s hs
    obtain ⟨e, he, rfl⟩ := List.mem_map.1 hs
    rw [coords_length (hv.lines e he).2, (hv.lines e he).1, hc]
  · rw [hpl]; exact Pipe.namedOnce_single _ _
  · refine Pipe.namedOnce_empty fun kv hkv i hi => ?_
    have := hv.groupTris kv hkv i hi
    rwa [ht] at this

/-- **C91**: what `Surface.mesh` returns can be used as a part. -/
theorem C91_surface (hG : G.Lawful) (hS : G.Stable) (hE : ∀ p q, G.eq p q = true ↔ p = q) {s : Surface} (hs : GoodSurface s) {K : ℝ} (hK : 0 ≤ K) (hl : LipschitzSurface s K)
    {size : V3 → ℝ} {m0 : ℝ} (hm0 : 0 < m0) (hsize : ∀ p, m0 ≤ size p) (name : Option String) (ensure : Bool) (cols : Nat) :
    ∃ fuel0, ∀ fuel, fuel0 ≤ fuel → ∃ M, s.mesh G fuel (some size) none name ensure = some M ∧ IsPart G cols M := by
  obtain ⟨fuel0, h⟩ := C66_finishes hs hK hl hm0 hsize (name.or s.name) hG ensure
  refine ⟨fuel0, fun fuel hfu => ?_⟩
  obtain ⟨raw, M, h1, h2, h3, h4, h5, h6⟩ := h fuel hfu
  obtain ⟨M', hM', r⟩ := Mesh.build_shapes hG raw h2 ensure
  rw [h5] at hM'; cases hM'
  have hl0 : M.lines = [] := by
    have := r.lines.1
    rw [← List.length_eq_zero_iff]
    simpa [lineShapes, h3] using this.symm
  refine ⟨M, by simp [Surface.mesh, Surface.meshSize, h1, h5], h6, Pipe.cleared_build hG hS hE h2 h5, ?_, ?_, ?_⟩
  · intro t ht; simp [lineShapes, hl0] at ht
  · refine Pipe.namedOnce_empty fun kv hkv i hi => ?_
    have := h6.groupLines kv hkv i hi
    rwa [hl0] at this
  · refine (Pipe.namedOnce_build hG h2 h5).2 ?_
    rw [h4]; exact Pipe.namedOnce_single _ _

/-- **C91**: meshing a collection (`(a + b + ...).mesh()`) adds the meshes of its members, in order. -/
theorem C91_collection {α : Type} (meshMember : α → Option String → Option String → Option (Mesh V3)) (h : Heap α) (c : Nat) (d : Coll) (name : Option String)
    (hd : h.colls[c]? = some d) (parts : List (Mesh V3))
    (hms : d.items.mapM (fun i => do let p ← h.members[i]?; meshMember p.1 p.2 (name.or d.name)) = some parts) : h.mesh G meshMember c name = parts.foldlM (Mesh.add G) {} := by
  have hfold : ∀ (l : List Nat) (ms : List (Mesh V3)) (m0 : Mesh V3),
      l.mapM (fun i => do let p ← h.members[i]?; meshMember p.1 p.2 (name.or d.name)) = some ms →
      l.foldlM (fun m i => do let p ← h.members[i]?; Mesh.add G m (← meshMember p.1 p.2 (name.or d.name))) m0 = ms.foldlM (Mesh.add G) m0 := by
    intro l
    induction l with
    | nil => intro ms m0 h; cases h; rfl
    | cons i l ih =>
      intro ms m0 h
      simp only [List.mapM_cons, Option.bind_eq_bind, Option.bind_eq_some_iff, pure, Option.some.injEq] at h
      obtain ⟨m, ⟨p, hp, hm⟩, ms', hms', rfl⟩ := h
      simp only [List.foldlM_cons, hp, hm, Option.bind_eq_bind, Option.bind_some]
      cases hadd : Mesh.add G m0 m with
      | none => rfl
      | some m1 => exact ih ms' m1 hms'
  simp only [Heap.mesh, hd, Option.bind_eq_bind, Option.bind_some]
  exact hfold _ _ _ hms

/-- The geometric decisions in exact arithmetic meet what is assumed of them. -/
theorem realGeo_ok {trunc : V3 → V3} (ht : ∀ p, trunc (trunc p) = trunc p) :
    (realGeo trunc).Lawful ∧ (realGeo trunc).Stable ∧ ∀ p q, (realGeo trunc).eq p q = true ↔ p = q := by
  have hE : ∀ p q, (realGeo trunc).eq p q = true ↔ p = q := by intro p q; simp [realGeo]
  refine ⟨realGeo_lawful trunc, ⟨fun p => (hE _ _).2 (ht p), ?_, ?_⟩, hE⟩
  · intro p q r p' q' r' h1 h2 h3
    rw [(hE _ _).1 h1, (hE _ _).1 h2, (hE _ _).1 h3]
  · intro p q r
    have : V3.norm (V3.cross (r - p) (q - p)) = V3.norm (V3.cross (q - p) (r - p)) := by
      unfold V3.norm
      congr 1
      simp [V3.dot, V3.cross]; ring
    simp only [realGeo, this]

end Traceon
