import Verif.Lemmas.Discretize
import Verif.Lemmas.Build
import Verif.Lemmas.Shape
import Verif.Lemmas.MeshOps

/-! # Lemmas on `Path.mesh` -/
namespace Traceon
open Spec

theorem zip_map_same {α β γ : Type _} (f : α → β) (g : α → γ) (l : List α) :
    (l.map f).zip (l.map g) = l.map (fun a => (f a, g a)) := by
  induction l with
  | nil => rfl
  | cons a l ih => simp [ih]

theorem curvedLines_eq (m : ℕ) : Path.curvedLines (3 * m + 1)
    = some ((List.range m).map (fun k => [3 * k, 3 * (k + 1), 3 * k + 1, 3 * k + 2])) := by
  have e0 : (3 * m + 1 - 1 - 0 + 2) / 3 = m := by omega
  have e1 : (3 * m + 1 - 3 + 2) / 3 = m := by omega
  have e2 : (3 * m + 1 - 1 + 2) / 3 = m := by omega
  have e3 : (3 * m + 1 - 2 + 2) / 3 = m := by omega
  have hm : (3 * m + 1) % 3 = 1 := by omega
  unfold Path.curvedLines Path.slice3
  simp only [e0, e1, e2, e3, hm, ne_eq, not_true_eq_false, if_false, List.length_map, List.length_range,
    and_self, if_true, zip_map_same, List.map_map]
  congr 1
  apply List.map_congr_left
  intro k _
  simp only [Function.comp]
  congr 1
  · omega
  · congr 1
    · omega
    · congr 1
      · omega
      · congr 1; omega

end Traceon

namespace Traceon
open Spec

/-- A path as the meshing code expects it: breakpoints in order and within the path, and a point for
every length along the path. -/
structure Spec.GoodPath (p : Path) : Prop where
  len : 0 ≤ p.length
  sorted : p.breaks.Pairwise (· ≤ ·)
  inside : ∀ b ∈ p.breaks, 0 ≤ b ∧ b ≤ p.length
  defined : ∀ u, 0 ≤ u → u ≤ p.length → ∃ q, p.func u = some q

theorem discretizePath_spec {p : Path} (hp : GoodPath p) {ms : Option ℝ} {mf : Option ℤ}
    (h1 : ∀ h, ms = some h → 0 < h) (h2 : ms.isSome ∨ mf.isSome) {nf : ℕ} (hnf : 0 < nf) :
    ∃ us, discretizePath p.length p.breaks ms mf nf = some us ∧
      Sampled ms mf nf (0 :: p.breaks ++ [p.length]) us := by
  have hs : (0 :: p.breaks ++ [p.length]).Pairwise (· ≤ ·) := by
    rw [List.pairwise_append, List.pairwise_cons]
    refine ⟨⟨fun b hb => (hp.inside b hb).1, hp.sorted⟩, by simp, ?_⟩
    intro x hx y hy
    simp only [List.mem_singleton] at hy
    subst hy
    rcases List.mem_cons.1 hx with rfl | hx
    · exact hp.len
    · exact (hp.inside x hx).2
  obtain ⟨l, hl, S⟩ := discretizeLoop_spec h1 h2 hnf (0 :: p.breaks ++ [p.length]) p.length hs
    (by rw [List.getLast?_append]; rfl)
  refine ⟨l ++ [p.length], ?_, S⟩
  have hc : (ms.isNone && mf.isNone) = false := by
    rcases h2 with h | h
    · cases ms <;> simp_all
    · cases mf <;> simp_all
  unfold discretizePath
  rw [hc]
  simp only [Bool.false_eq_true, if_false, hl]
  rfl

theorem Sampled.le_last {ms mf nf pts w} (S : Sampled ms mf nf pts w) {e : ℝ} (he : pts.getLast? = some e) :
    ∀ x ∈ w, x ≤ e := by
  intro x hx
  have h1 := S.last
  rw [he] at h1
  obtain ⟨ys, rfl⟩ := List.getLast?_eq_some_iff.1 h1
  rcases List.mem_append.1 hx with hx | hx
  · exact ((List.pairwise_append.1 S.inc).2.2 x hx e (by simp)).le
  · simp at hx; exact hx.le

/-- The samples used by the `k`-th element of a chain, end points first, then inner points. -/
def Spec.chainIndices (ho : Bool) (k : ℕ) : List ℕ :=
  if ho then [3 * k, 3 * (k + 1), 3 * k + 1, 3 * k + 2] else [k, k + 1]

/-- The positions in space of the `k`-th element of the chain through the samples `us`. -/
def Spec.chainElement (p : Path) (us : List ℝ) (ho : Bool) (k : ℕ) : List V3 :=
  (chainIndices ho k).filterMap (fun i => us[i]?.bind p.func)

theorem rawMesh_spec {p : Path} (hp : GoodPath p) {ms : Option ℝ} {mf : Option ℤ}
    (h1 : ∀ h, ms = some h → 0 < h) (h2 : ms.isSome ∨ mf.isSome) (ho : Bool) (name : Option String) :
    ∃ us m n, p.rawMesh ms mf ho name = some m ∧
      Sampled ms mf (if ho then 3 else 1) (0 :: p.breaks ++ [p.length]) us ∧
      us.length = (if ho then 3 else 1) * n + 1 ∧ Valid m ∧
      m.lineCols = (if ho then 4 else 2) ∧ m.triangles = [] ∧ m.physTris = [] ∧
      m.lines = (List.range n).map (chainIndices ho) ∧
      m.points.length = us.length ∧ (∀ k : ℕ, m.points[k]? = us[k]?.bind p.func) ∧
      lineShapes m = (List.range n).map (chainElement p us ho) ∧
      m.physLines = (name.or p.name).elim [] (fun nm => [(nm, List.range n)]) := by
  have hnf : 0 < (if ho then 3 else 1) := by cases ho <;> simp
  obtain ⟨us, hus, S⟩ := discretizePath_spec hp h1 h2 hnf
  obtain ⟨n, hn⟩ := S.mod
  have hge : ∀ x ∈ us, 0 ≤ x := S.ge 0 rfl
  have hle : ∀ x ∈ us, x ≤ p.length := S.le_last (by rw [List.getLast?_append]; rfl)
  obtain ⟨pts, hpts⟩ := mapM_isSome (f := p.func) (l := us)
    (fun a ha => hp.defined a (hge a ha) (hle a ha))
  have hlines : (if ho then Path.curvedLines us.length else some (Path.flatLines us.length))
      = some ((List.range n).map (chainIndices ho)) := by
    cases ho
    · simp only [Bool.false_eq_true, if_false, one_mul] at hn ⊢
      rw [hn]; simp [Path.flatLines, chainIndices]
    · simp only [if_true] at hn ⊢
      rw [hn, curvedLines_eq]; simp [chainIndices]
  have hplen := mapM_length hpts
  have hidx : ∀ k, k < n → ∀ i ∈ chainIndices ho k, i < us.length := by
    intro k hk i hi
    rw [hn]
    cases ho <;> simp [chainIndices] at hi ⊢ <;> omega
  refine ⟨us, { points := pts
                lineCols := if ho then 4 else 2
                lines := (List.range n).map (chainIndices ho)
                physLines := (name.or p.name).elim [] (fun nm => [(nm, List.range n)]) },
    n, ?_, S, hn, ?_, rfl, rfl, rfl, rfl, hplen, fun k => mapM_getElem? hpts k, ?_, rfl⟩
  · unfold Path.rawMesh
    rw [hus]
    cases ho
    · simp only [Bool.false_eq_true, if_false, Option.some.injEq] at hlines hpts ⊢
      simp [hpts, hlines]
    · simp only [if_true] at hlines hpts ⊢
      simp [hpts, hlines]
  · constructor
    · cases ho <;> simp
    · intro e he
      simp only [List.mem_map, List.mem_range] at he
      obtain ⟨k, hk, rfl⟩ := he
      refine ⟨by cases ho <;> simp [chainIndices], ?_⟩
      simp only [hplen]; exact hidx k hk
    · simp
    · intro kv hkv i hi
      simp only [List.length_map, List.length_range]
      generalize (name.or p.name) = nm at hkv
      cases nm with
      | none => simp at hkv
      | some x => simp at hkv; subst hkv; simpa using hi
    · simp
    · generalize (name.or p.name) = nm
      cases nm <;> simp
    · simp
  · simp only [lineShapes, List.map_map]
    apply List.map_congr_left
    intro k _
    simp only [Function.comp, coords, chainElement]
    exact filterMap_congr' (fun i _ => mapM_getElem? hpts i)

end Traceon
