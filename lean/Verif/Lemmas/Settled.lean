import Verif.Lemmas.MeshOps

/-! Rebuilding an already built mesh does nothing (apart from orienting named groups). -/
namespace Traceon
open Spec
variable {P : Type} {G : Geo P}

namespace Mesh

theorem pairwise_zip_tail {α : Type _} {R : α → α → Prop} {l : List α} (h : l.Pairwise R) :
    ∀ p ∈ l.zip l.tail, R p.1 p.2 := by
  induction l with
  | nil => simp
  | cons a l ih =>
    cases l with
    | nil => simp
    | cons b l =>
      intro p hp
      simp only [List.tail_cons, List.zip_cons_cons, List.mem_cons] at hp
      rcases hp with rfl | hp
      · exact (List.pairwise_cons.1 h).1 b (by simp)
      · exact ih (List.pairwise_cons.1 h).2 p hp

theorem cumsumFrom_replicate (n a : Nat) :
    cumsumFrom a (List.replicate n true) = (List.range n).map (fun i => a + i + 1) := by
  induction n generalizing a with
  | zero => rfl
  | succ n ih =>
    rw [List.replicate_succ, cumsumFrom, ih, List.range_succ_eq_map, List.map_cons, List.map_map]
    congr 1
    apply List.map_congr_left
    intro i _
    simp only [Function.comp, Bool.toNat_true]
    omega

theorem compress_replicate {α : Type _} (l : List α) : compress (List.replicate l.length true) l = l := by
  induction l with
  | nil => rfl
  | cons a l ih => simp only [List.length_cons, List.replicate_succ, compress, ih]

theorem find?_zip_range (n i : Nat) (hi : i < n) :
    oldToNew (List.range n) (List.range n) i = some i := by
  unfold oldToNew
  rw [find?_zip_of_nodup (i := i) (k := i) (j := i) List.nodup_range (by simp) (by simp [hi])
    (by simp [hi])]
  rfl

theorem mapElems_id {f : Nat → Option Nat} {n : Nat} (hf : ∀ i, i < n → f i = some i)
    (els : List Elem) (h : ∀ e ∈ els, ∀ i ∈ e, i < n) : mapElems f els = some els := by
  unfold mapElems
  rw [mapM_eq_some_iff]
  apply List.map_congr_left
  intro e he
  rw [mapM_eq_some_iff]
  apply List.map_congr_left
  intro i hi
  exact hf i (h e he i hi)

theorem dedup_settled (m : Mesh P) (hv : Valid m)
    (hs : m.points.Pairwise (fun a b => G.le a b = true ∧ G.eq b a = false))
    (ht : ∀ p ∈ m.points, G.trunc p = p) : dedup G m = some m := by
  unfold dedup
  by_cases hp : m.points = []
  · simp [hp]
  · rw [if_neg (by simpa using hp)]
    have h0 : m.points.map G.trunc = m.points := by
      conv => rhs; rw [← List.map_id m.points]
      apply List.map_congr_left
      intro p hp; exact ht p hp
    have hsort : sortedPoints G m.points = m.points.zipIdx := by
      unfold sortedPoints
      rw [h0]
      apply stableSort_of_pairwise
      have h1 : (m.points.zipIdx.map (·.1)).Pairwise (fun a b => G.le a b = true) := by
        rw [List.zipIdx_map_fst]
        exact hs.imp (fun h => h.1)
      exact List.pairwise_map.1 h1
    have hf : m.points.zipIdx.map (·.1) = m.points := List.zipIdx_map_fst ..
    have hsn : m.points.zipIdx.map (·.2) = List.range m.points.length := by
      rw [List.zipIdx_map_snd, List.range_eq_range']
    have hkeep : keepMask G m.points = List.replicate m.points.length true := by
      unfold keepMask
      have : (m.points.zip m.points.tail).map (fun p => !(G.eq p.2 p.1)) =
          List.replicate (m.points.length - 1) true := by
        rw [List.eq_replicate_iff]
        refine ⟨by simp, ?_⟩
        intro b hb
        obtain ⟨p, hp, rfl⟩ := List.mem_map.1 hb
        have := pairwise_zip_tail hs p hp
        simp [this.2]
      rw [this, ← List.replicate_succ]
      congr 1
      have : 0 < m.points.length := List.length_pos_iff.2 hp
      omega
    have hnew : newIndices (List.replicate m.points.length true) = List.range m.points.length := by
      unfold newIndices cumsum
      rw [cumsumFrom_replicate, List.map_map]
      conv => rhs; rw [← List.map_id (List.range m.points.length)]
      apply List.map_congr_left
      intro i _
      simp
    simp only [hsort, hf, hsn, hkeep, hnew, compress_replicate]
    have hid := fun i hi => find?_zip_range m.points.length i hi
    rw [mapElems_id hid m.triangles (fun e he => (hv.tris e he).2),
      mapElems_id hid m.lines (fun e he => (hv.lines e he).2)]
    rfl

theorem removeDegenerate_none (m : Mesh P) (hv : Valid m)
    (hn : ∀ e ∈ m.triangles, NonDegenerate G m.points e) : removeDegenerate G m = some m := by
  obtain ⟨M, keep, h1, r⟩ := removeDegenerate_spec (G := G) m hv
  have ht := r.tris_eq hn
  have hg := r.groups_eq hv hn
  rw [h1]
  cases M; cases m
  simp only [Option.some.injEq, Mesh.mk.injEq]
  exact ⟨r.points, r.cols, r.lines, ht, r.physLines, hg⟩

theorem build_settled (m : Mesh P) (hv : Valid m)
    (hs : m.points.Pairwise (fun a b => G.le a b = true ∧ G.eq b a = false))
    (ht : ∀ p ∈ m.points, G.trunc p = p)
    (hn : ∀ e ∈ m.triangles, NonDegenerate G m.points e)
    (ensure : Bool) (he : ensure = false ∨ (m.physLines = [] ∧ m.physTris = [])) :
    build G m ensure = some m := by
  unfold build
  rw [removeDegenerate_none m hv hn]
  simp only [Option.bind_eq_bind, Option.bind_some, dedup_settled m hv hs ht]
  rcases he with rfl | ⟨h1, h2⟩
  · simp [assertions_of_valid hv]
  · have : m.electrodes = [] := by simp [electrodes, h1, h2, Dict.keys]
    cases ensure <;> simp [this, assertions_of_valid hv]

end Mesh
end Traceon
