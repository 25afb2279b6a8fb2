import Verif.Props.Orient
import Mathlib.Tactic.IntervalCases
import Mathlib.Tactic.CongrExclamation

/-!
# Theorems about the orientation of triangles and the sign of the flux: C08, C09, C63
-/
namespace Traceon
open Spec V3

/-! ## C08 -/

/-- The lines of a mesh have two different end points, seen in the (x, z)-plane. -/
def Spec.LinesProper (pts : List V3) (ls : List (List Nat)) : Prop :=
  ∀ l ∈ ls, (l.length = 2 ∨ l.length = 4) ∧
    ¬ ((corner pts l 0).x = (corner pts l 1).x ∧ (corner pts l 0).z = (corner pts l 1).z)

/-- The triangles have three corners that are not on a line. -/
def Spec.TrisProper (pts : List V3) (ts : List (List Nat)) : Prop :=
  ∀ t ∈ ts, t.length = 3 ∧ cross (corner pts t 1 - corner pts t 0) (corner pts t 2 - corner pts t 0) ≠ 0

/-- The requested sign: outward means positive, inward negative. -/
def Spec.HasSign (outwards : Bool) (x : ℝ) : Prop := if outwards then 0 ≤ x else x ≤ 0

theorem KF.symm' {flip : Elem → Elem} (hff : ∀ e, flip (flip e) = e) {a b : List Elem} (h : KF flip a b) :
    KF flip b a := by
  refine ⟨h.1.symm, fun n => ?_⟩
  rcases h.2 n with h | h
  · exact Or.inl h.symm
  · right; rw [h, Option.map_map]
    cases a[n]? with
    | none => rfl
    | some e => simp [hff]

theorem linesProper_flip {pts : List V3} {l : Elem} (h : (l.length = 2 ∨ l.length = 4) ∧
    ¬ ((corner pts l 0).x = (corner pts l 1).x ∧ (corner pts l 0).z = (corner pts l 1).z)) :
    ((flipLine l).length = 2 ∨ (flipLine l).length = 4) ∧
    ¬ ((corner pts (flipLine l) 0).x = (corner pts (flipLine l) 1).x ∧
      (corner pts (flipLine l) 0).z = (corner pts (flipLine l) 1).z) := by
  obtain ⟨h1, h2⟩ := h
  match l, h1 with
  | [a, b], _ =>
    refine ⟨Or.inl rfl, fun h3 => h2 ?_⟩
    exact ⟨h3.1.symm, h3.2.symm⟩
  | [a, b, c, d], _ =>
    refine ⟨Or.inr rfl, fun h3 => h2 ?_⟩
    exact ⟨h3.1.symm, h3.2.symm⟩

theorem linesProper_KF {pts : List V3} {a b : List Elem} (h : KF flipLine a b) (hp : LinesProper pts a) :
    LinesProper pts b := by
  intro l hl
  rcases Mesh.KF_mem h hl with h1 | ⟨e, h1, rfl⟩
  · exact hp l h1
  · exact linesProper_flip (hp e h1)

theorem trisProper_KF {pts : List V3} {a b : List Elem} (h : KF flipTri a b) (hp : TrisProper pts a) :
    TrisProper pts b := by
  intro l hl
  rcases Mesh.KF_mem h hl with h1 | ⟨e, h1, rfl⟩
  · exact hp l h1
  · obtain ⟨h2, h3⟩ := hp e h1
    match e, h2 with
    | [p, q, r], _ =>
      refine ⟨rfl, fun h4 => h3 ?_⟩
      simp only [corner, flipTri, List.getD_cons_zero, List.getD_cons_succ] at h4 ⊢
      rw [cross_anti, h4]; ext <;> simp

theorem sign_aux (f : List Elem → ℝ) {q fq : List Elem} (hfl : f fq = - f q) (o : Bool) :
    HasSign o (f (if (decide (f q > 0) != o) = true then fq else q)) := by
  unfold HasSign
  by_cases hpos : f q > 0
  · cases o
    · simp [hpos, hfl]; linarith
    · simp [hpos]; linarith
  · cases o
    · simp [hpos]; linarith
    · simp [hpos, hfl]; linarith

theorem line_sign (trunc : V3 → V3) (pts : List V3) (o : Bool) {pc out : List Elem} (hne : pc ≠ [])
    (hkf : KF flipLine pc out) (h : ensureLineOrientation (realGeo trunc) pts o pc = some out)
    (hp : LinesProper pts out) : HasSign o (lineFlux pts out) := by
  have hpc := linesProper_KF (hkf.symm' flipLine_flipLine) hp
  obtain ⟨q, hq, hq1, hq2⟩ := reorientLines_some pc hne
  have hpq := linesProper_KF (pts := pts) ⟨hq1, hq2⟩ hpc
  unfold ensureLineOrientation at h
  rw [hq] at h
  simp only [Option.bind_eq_bind, Option.bind_some] at h
  cases h
  have hval : (realGeo trunc).lineOutward pts q = decide (lineFlux pts q > 0) := by
    show realLineOutward pts q = _
    unfold realLineOutward
    exact decide_eq_decide.2 ⟨And.right, fun h => ⟨fun l hl => (hpq l hl).2, h⟩⟩
  rw [hval]
  have hfl := lineFlux_flip pts q (fun l hl => (hpq l hl).1)
  exact sign_aux (lineFlux pts) hfl o

theorem tri_sign (trunc : V3 → V3) (pts : List V3) (o : Bool) {pc out : List Elem}
    (hkf : KF flipTri pc out) (h : ensureTriangleOrientation (realGeo trunc) pts o pc = some out)
    (hp : TrisProper pts out) : HasSign o (triFlux pts out) := by
  have hpc := trisProper_KF (hkf.symm' flipTri_flipTri) hp
  obtain ⟨q, hq, hq1, hq2⟩ := reorientTriangles_some ((realGeo trunc).triEqual pts) pc
  have hpq := trisProper_KF (pts := pts) ⟨hq1, hq2⟩ hpc
  unfold ensureTriangleOrientation at h
  rw [hq] at h
  simp only [Option.bind_eq_bind, Option.bind_some] at h
  cases h
  have hval : (realGeo trunc).triOutward pts q = decide (triFlux pts q > 0) := by
    show realTriOutward pts q = _
    unfold realTriOutward
    exact decide_eq_decide.2 ⟨And.right, fun h => ⟨fun l hl => (hpq l hl).2, h⟩⟩
  rw [hval]
  have hfl := triFlux_flip pts q (fun l hl => (hpq l hl).1)
  exact sign_aux (triFlux pts) hfl o

/-- **C08** (lines). After asking for outward (inward) normals, every connected piece of the electrode
has a flux that is `≥ 0` (`≤ 0`); for a closed curve this says that the signed enclosed area is `≥ 0`
(`≤ 0`), that is, the piece is traversed with the electrode on the left (right). -/
theorem C08_lines_sign (trunc : V3 → V3) (o : Bool) (name : String) (m M : Mesh V3) (hv : Valid m) (g : List Nat)
    (hg : m.physLines.get name = some g) (hnd : g.Nodup)
    (h : Mesh.ensureNormals (realGeo trunc) o name m = some M) (c : List Nat)
    (hc : IsPiece (elemsAt M.lines g) c)
    (hp : LinesProper M.points (elemsAt (elemsAt M.lines g) c)) :
    HasSign o (lineFlux M.points (elemsAt (elemsAt M.lines g) c)) ∧
    (ClosedCurve M.points (elemsAt (elemsAt M.lines g) c) →
      (∀ l ∈ elemsAt (elemsAt M.lines g) c, (corner M.points l 0).y = (corner M.points l 1).y) →
      HasSign o (signedArea M.points (elemsAt (elemsAt M.lines g) c))) := by
  obtain ⟨pc, h1, h2, _, h4⟩ := linePieces o name m M hv hg hnd h c hc
  have hs := line_sign trunc M.points o h1 h2 h4 hp
  refine ⟨hs, fun hcl hy => ?_⟩
  rw [← lineFlux_closed M.points _ hcl hy (fun l hl => (hp l hl).2)]
  exact hs

/-- **C08** (triangles). After asking for outward (inward) normals, every connected piece of the
electrode has a flux that is `≥ 0` (`≤ 0`); for a closed surface this says that the signed enclosed
volume is `≥ 0` (`≤ 0`). -/
theorem C08_triangles_sign (trunc : V3 → V3) (o : Bool) (name : String) (m M : Mesh V3) (hv : Valid m) (g : List Nat)
    (hg : m.physTris.get name = some g) (hnd : g.Nodup)
    (h : Mesh.ensureNormals (realGeo trunc) o name m = some M) (c : List Nat)
    (hc : IsPiece (elemsAt M.triangles g) c)
    (hp : TrisProper M.points (elemsAt (elemsAt M.triangles g) c)) :
    HasSign o (triFlux M.points (elemsAt (elemsAt M.triangles g) c)) ∧
    (ClosedSurface (elemsAt (elemsAt M.triangles g) c) →
      HasSign o (signedVolume M.points (elemsAt (elemsAt M.triangles g) c))) := by
  obtain ⟨pc, _, h2, _, h4⟩ := triPieces o name m M hv hg hnd h c hc
  have hs := tri_sign trunc M.points o h2 h4 hp
  refine ⟨hs, fun hcl => ?_⟩
  rw [← triFlux_closed M.points _ hcl (fun l hl => (hp l hl).2)]
  exact hs

/-- **C08** (triangles). For a closed surface the flux does not depend on where the object is. -/
theorem C08_translation (pts : List V3) (d : V3) (ts : List (List Nat)) (hcl : ClosedSurface ts)
    (hp : TrisProper pts ts) (hi : ∀ t ∈ ts, ∀ i ∈ t, i < pts.length) :
    triFlux (pts.map (· + d)) ts = triFlux pts ts := by
  have hck : ∀ t ∈ ts, ∀ k, k < 3 → t.getD k 0 < pts.length := by
    intro t ht k hk
    have := (hp t ht).1
    have hlt : k < t.length := by omega
    have : t.getD k 0 = t[k] := by simp [List.getD, hlt]
    rw [this]; exact hi t ht _ (List.getElem_mem hlt)
  have hcc : ∀ t ∈ ts, ∀ k, k < 3 → corner (pts.map (· + d)) t k = corner pts t k + d := by
    intro t ht k hk
    unfold corner
    rw [List.getElem?_map, List.getElem?_eq_getElem (hck t ht k hk)]; rfl
  have hp' : TrisProper (pts.map (· + d)) ts := by
    intro t ht
    refine ⟨(hp t ht).1, ?_⟩
    rw [hcc t ht 0 (by omega), hcc t ht 1 (by omega), hcc t ht 2 (by omega)]
    have : ∀ a b : V3, a + d - (b + d) = a - b := by intro a b; ext <;> simp
    rw [this, this]; exact (hp t ht).2
  rw [triFlux_closed _ _ hcl (fun t ht => (hp' t ht).2), triFlux_closed _ _ hcl (fun t ht => (hp t ht).2)]
  unfold signedVolume
  have e : ts = (ts.map (fun t : List Nat => [t.getD 0 0, t.getD 1 0, t.getD 2 0])) := by
    conv => lhs; rw [← List.map_id ts]
    apply List.map_congr_left
    intro t ht
    match t, (hp t ht).1 with
    | [a, b, c], _ => rfl
  have hne : ts ≠ [] ∨ ts = [] := by tauto
  rcases hne with hne | rfl
  · have hpos : 0 < pts.length := by
      obtain ⟨t, ht⟩ := List.exists_mem_of_ne_nil _ hne
      have := hck t ht 0 (by omega); omega
    exact signedVolume_translate pts d ts hcl (fun t ht k => by
      by_cases hk : k < 3
      · exact hck t ht k hk
      · have := (hp t ht).1
        simp [List.getD, List.getElem?_eq_none (by omega : t.length ≤ k), hpos])
  · rfl

/-! A tetrahedron with corners at the origin and on the axes. -/

noncomputable def exTetraPts : List V3 := [⟨0, 0, 0⟩, ⟨1, 0, 0⟩, ⟨0, 1, 0⟩, ⟨0, 0, 1⟩]
def exTetra : List (List Nat) := [[0, 2, 1], [0, 1, 3], [0, 3, 2], [1, 2, 3]]

theorem exTetra_proper : TrisProper exTetraPts exTetra := by
  intro t ht
  simp only [exTetra, List.mem_cons, List.not_mem_nil, or_false] at ht
  rcases ht with rfl | rfl | rfl | rfl <;> refine ⟨rfl, fun h => ?_⟩
  · have := congrArg V3.z h; norm_num [corner, exTetraPts, cross] at this
  · have := congrArg V3.y h; norm_num [corner, exTetraPts, cross] at this
  · have := congrArg V3.x h; norm_num [corner, exTetraPts, cross] at this
  · have := congrArg V3.x h; norm_num [corner, exTetraPts, cross] at this

theorem exTetra_closed : ClosedSurface exTetra := by unfold ClosedSurface; decide

example : ClosedSurface exTetra ∧ TrisProper exTetraPts exTetra ∧ (∀ t ∈ exTetra, ∀ i ∈ t, i < exTetraPts.length) ∧
    triFlux exTetraPts exTetra = 1 / 6 := by
  refine ⟨exTetra_closed, exTetra_proper, by simp [exTetra, exTetraPts], ?_⟩
  rw [triFlux_closed _ _ exTetra_closed (fun t ht => (exTetra_proper t ht).2)]
  norm_num [signedVolume, exTetra, exTetraPts, det3, dot, cross, corner]

/-! ## C09 -/

/-- No two different points `x` of `a` and `y` of `b` are seen in the same direction (up to the
threshold 1e-14 of the code) from a common corner `c`. -/
def Spec.NotAligned (pts : List V3) (a b : List Nat) : Prop :=
  ∀ c x y, c ∈ a → c ∈ b → x ∈ a → y ∈ b → x ≠ c → y ≠ c → x ≠ y →
    1e-14 ≤ |dot (unit (rpt pts x - rpt pts c)) (unit (rpt pts y - rpt pts c)) - 1|

/-- **C09.** For two proper triangles in general position: if they share an edge, the orientation
test says "equal" exactly when no directed edge is common to both (the shared edge is traversed in
opposite directions); if they share none it says so. -/
theorem C09_orientation_test (pts : List V3) (a b : List Nat) (ha : ProperTri pts a) (hb : ProperTri pts b)
    (hna : NotAligned pts a b) :
    (ShareEdge a b → (triOrientationEqual pts a b = some true ∧ (∀ v w, Edge a v w → ¬ Edge b v w)) ∨
      (triOrientationEqual pts a b = some false ∧ ∃ v w, Edge a v w ∧ Edge b v w)) ∧
    (¬ ShareEdge a b → triOrientationEqual pts a b = none) := by
  obtain ⟨h1, h2⟩ := triOrientationEqual_spec pts a b ha hb hna
  refine ⟨fun hs => ?_, h2⟩
  obtain ⟨r, hr1, hr2⟩ := h1 hs
  cases r with
  | true => exact Or.inl ⟨hr1, hr2.1 rfl⟩
  | false =>
    refine Or.inr ⟨hr1, ?_⟩
    by_contra hcon
    have := hr2.2 (fun v w hv hw => hcon ⟨v, w, hv, hw⟩)
    cases this

theorem rpt_map (f : V3 → V3) (pts : List V3) {i : Nat} (hi : i < pts.length) :
    rpt (pts.map f) i = f (rpt pts i) := by
  unfold rpt; rw [List.getElem?_map, List.getElem?_eq_getElem hi]; rfl

/-- **C09.** The test does not change when all points are moved. -/
theorem C09_move (pts : List V3) (d : V3) (a b : List Nat) (ha : ∀ i ∈ a, i < pts.length)
    (hb : ∀ i ∈ b, i < pts.length) :
    triOrientationEqual (pts.map (· + d)) a b = triOrientationEqual pts a b := by
  have key : ∀ u v : V3, u + d - (v + d) = u - v := by intro u v; ext <;> simp
  have key3 : ∀ u v w c : V3, (1/3 : ℝ) * (u + d + (v + d) + (w + d)) - (c + d) = (1/3 : ℝ) * (u + v + w) - c := by
    intro u v w c; ext <;> simp <;> ring
  unfold triOrientationEqual
  split
  · rename_i a0 a1 a2 b0 b1 b2
    have e : ∀ i, i ∈ [a0, a1, a2] ∨ i ∈ [b0, b1, b2] → rpt (pts.map (· + d)) i = rpt pts i + d := by
      intro i hi
      exact rpt_map _ _ (hi.elim (ha i) (hb i))
    have ea0 := e a0 (by simp); have ea1 := e a1 (by simp); have ea2 := e a2 (by simp)
    have eb0 := e b0 (by simp); have eb1 := e b1 (by simp); have eb2 := e b2 (by simp)
    cases hc : commonIndex [a0, a1, a2] [b0, b1, b2] with
    | none => rfl
    | some ij =>
      obtain ⟨i, j⟩ := ij
      obtain ⟨hij, _⟩ := commonIndex_spec [a0, a1, a2] [b0, b1, b2] rfl rfl
      obtain ⟨hi, hj, _⟩ := hij i j hc
      have hcm : [a0, a1, a2].getD i 0 ∈ [a0, a1, a2] := by
        match i, hi with
        | 0, _ | 1, _ | 2, _ => simp
      have ec := e _ (Or.inl hcm)
      have e1 : (otherVertices [a0, a1, a2] i).map (fun v => unit (rpt (pts.map (· + d)) v - (rpt pts ([a0, a1, a2].getD i 0) + d))) =
          (otherVertices [a0, a1, a2] i).map (fun v => unit (rpt pts v - rpt pts ([a0, a1, a2].getD i 0))) := by
        apply List.map_congr_left
        intro v hv
        rw [e v (Or.inl (List.mem_of_mem_eraseIdx hv)), key]
      have e2 : (otherVertices [b0, b1, b2] j).map (fun v => unit (rpt (pts.map (· + d)) v - (rpt pts ([a0, a1, a2].getD i 0) + d))) =
          (otherVertices [b0, b1, b2] j).map (fun v => unit (rpt pts v - rpt pts ([a0, a1, a2].getD i 0))) := by
        apply List.map_congr_left
        intro v hv
        rw [e v (Or.inr (List.mem_of_mem_eraseIdx hv)), key]
      simp only [ea0, ea1, ea2, eb0, eb1, eb2, ec, e1, e2, normal3d, key, key3]
      generalize commonEdge ((otherVertices [a0, a1, a2] i).map (fun v => unit (rpt pts v - rpt pts ([a0, a1, a2].getD i 0))))
        ((otherVertices [b0, b1, b2] j).map (fun v => unit (rpt pts v - rpt pts ([a0, a1, a2].getD i 0)))) = ce
      cases ce with
      | none => rfl
      | some e => simp
  · rfl

theorem unit_smul {k : ℝ} (hk : 0 < k) (a : V3) : unit (k * a) = unit a := by
  have h1 : norm (k * a) = k * norm a := by
    unfold norm
    have : dot (k * a) (k * a) = k ^ 2 * dot a a := by simp only [dot, smul_x, smul_y, smul_z]; ring
    rw [this, Real.sqrt_mul (sq_nonneg k), Real.sqrt_sq hk.le]
  unfold unit
  rw [h1]
  ext <;> simp only [smul_x, smul_y, smul_z] <;> field_simp

/-- **C09.** The test does not change when all points are scaled by a positive factor. -/
theorem C09_scale (pts : List V3) (k : ℝ) (hk : 0 < k) (a b : List Nat) (ha : ∀ i ∈ a, i < pts.length)
    (hb : ∀ i ∈ b, i < pts.length) :
    triOrientationEqual (pts.map (k * ·)) a b = triOrientationEqual pts a b := by
  have key : ∀ u v : V3, k * u - k * v = k * (u - v) := by intro u v; ext <;> simp <;> ring
  have key3 : ∀ u v w c : V3, (1/3 : ℝ) * (k * u + k * v + k * w) - k * c = k * ((1/3 : ℝ) * (u + v + w) - c) := by
    intro u v w c; ext <;> simp <;> ring
  have kc : ∀ u v : V3, cross (k * u) (k * v) = (k * k) * cross u v := by
    intro u v; ext <;> simp only [cross, smul_x, smul_y, smul_z] <;> ring
  have d1 : ∀ u v n : V3, (dot (cross (k * u) v) n > 0) = (dot (cross u v) n > 0) := by
    intro u v n
    have : dot (cross (k * u) v) n = k * dot (cross u v) n := by
      simp only [dot, cross, smul_x, smul_y, smul_z]; ring
    rw [this, gt_iff_lt, gt_iff_lt, mul_pos_iff_of_pos_left hk]
  have d2 : ∀ u v n : V3, (dot (cross v (k * u)) n > 0) = (dot (cross v u) n > 0) := by
    intro u v n
    have : dot (cross v (k * u)) n = k * dot (cross v u) n := by
      simp only [dot, cross, smul_x, smul_y, smul_z]; ring
    rw [this, gt_iff_lt, gt_iff_lt, mul_pos_iff_of_pos_left hk]
  unfold triOrientationEqual
  split
  · rename_i a0 a1 a2 b0 b1 b2
    have e : ∀ i, i ∈ [a0, a1, a2] ∨ i ∈ [b0, b1, b2] → rpt (pts.map (k * ·)) i = k * rpt pts i := by
      intro i hi
      exact rpt_map _ _ (hi.elim (ha i) (hb i))
    have ea0 := e a0 (by simp); have ea1 := e a1 (by simp); have ea2 := e a2 (by simp)
    have eb0 := e b0 (by simp); have eb1 := e b1 (by simp); have eb2 := e b2 (by simp)
    cases hc : commonIndex [a0, a1, a2] [b0, b1, b2] with
    | none => rfl
    | some ij =>
      obtain ⟨i, j⟩ := ij
      obtain ⟨hij, _⟩ := commonIndex_spec [a0, a1, a2] [b0, b1, b2] rfl rfl
      obtain ⟨hi, hj, _⟩ := hij i j hc
      have hcm : [a0, a1, a2].getD i 0 ∈ [a0, a1, a2] := by
        match i, hi with
        | 0, _ | 1, _ | 2, _ => simp
      have ec := e _ (Or.inl hcm)
      have e1 : (otherVertices [a0, a1, a2] i).map (fun v => unit (rpt (pts.map (k * ·)) v - (k * rpt pts ([a0, a1, a2].getD i 0)))) =
          (otherVertices [a0, a1, a2] i).map (fun v => unit (rpt pts v - rpt pts ([a0, a1, a2].getD i 0))) := by
        apply List.map_congr_left
        intro v hv
        rw [e v (Or.inl (List.mem_of_mem_eraseIdx hv)), key, unit_smul hk]
      have e2 : (otherVertices [b0, b1, b2] j).map (fun v => unit (rpt (pts.map (k * ·)) v - (k * rpt pts ([a0, a1, a2].getD i 0)))) =
          (otherVertices [b0, b1, b2] j).map (fun v => unit (rpt pts v - rpt pts ([a0, a1, a2].getD i 0))) := by
        apply List.map_congr_left
        intro v hv
        rw [e v (Or.inr (List.mem_of_mem_eraseIdx hv)), key, unit_smul hk]
      simp only [ea0, ea1, ea2, eb0, eb1, eb2, ec, e1, e2, normal3d, key, key3, kc, unit_smul (mul_pos hk hk), d1, d2]
      generalize commonEdge ((otherVertices [a0, a1, a2] i).map (fun v => unit (rpt pts v - rpt pts ([a0, a1, a2].getD i 0))))
        ((otherVertices [b0, b1, b2] j).map (fun v => unit (rpt pts v - rpt pts ([a0, a1, a2].getD i 0)))) = ce
      cases ce with
      | none => rfl
      | some e => simp
  · rfl

/-- A way to check that two directions differ. -/
theorem not_aligned_of {u v : V3} (hu : u ≠ 0) (hv : v ≠ 0)
    (h : 2 * (dot u v * dot u v) ≤ dot u u * dot v v) : 1e-14 ≤ |dot (unit u) (unit v) - 1| := by
  have h1 := norm_pos hu
  have h2 := norm_pos hv
  have e : dot (unit u) (unit v) = dot u v / (norm u * norm v) := by
    simp only [unit, dot, smul_x, smul_y, smul_z]; field_simp
  have hp : 0 < norm u * norm v := mul_pos h1 h2
  have h3 : dot u v ≤ 3/4 * (norm u * norm v) := by
    rw [← norm_sq, ← norm_sq] at h
    by_contra hc
    push Not at hc
    nlinarith
  have h4 : dot u v / (norm u * norm v) ≤ 3/4 := by rw [div_le_iff₀ hp]; exact h3
  rw [e, abs_of_neg (by linarith)]
  norm_num; linarith

theorem exTetra_properTri : ∀ t ∈ exTetra, ProperTri exTetraPts t := by
  intro t ht
  have h := exTetra_proper t ht
  simp only [exTetra, List.mem_cons, List.not_mem_nil, or_false] at ht
  rcases ht with rfl | rfl | rfl | rfl <;> exact ⟨_, _, _, rfl, by decide, h.2⟩

theorem exTetra_aligned : ∀ c x y, c < 4 → x < 4 → y < 4 → x ≠ c → y ≠ c → x ≠ y →
    1e-14 ≤ |dot (unit (rpt exTetraPts x - rpt exTetraPts c)) (unit (rpt exTetraPts y - rpt exTetraPts c)) - 1| := by
  have hne : ∀ c x, c < 4 → x < 4 → x ≠ c → rpt exTetraPts x - rpt exTetraPts c ≠ 0 := by
    intro c x hc hx hxc h
    have h1 := congrArg V3.x h
    have h2 := congrArg V3.y h
    have h3 := congrArg V3.z h
    interval_cases c <;> interval_cases x <;>
      first
      | exact absurd rfl hxc
      | (norm_num [rpt, exTetraPts] at h1; done)
      | (norm_num [rpt, exTetraPts] at h2; done)
      | (norm_num [rpt, exTetraPts] at h3; done)
  intro c x y hc hx hy hxc hyc hxy
  apply not_aligned_of (hne c x hc hx hxc) (hne c y hc hy hyc)
  interval_cases c <;> interval_cases x <;> first | exact absurd rfl hxc | skip
  all_goals interval_cases y <;> first | exact absurd rfl hxy | exact absurd rfl hyc | skip
  all_goals norm_num [rpt, exTetraPts, dot]

theorem exTetra_notAligned : ∀ a ∈ exTetra, ∀ b ∈ exTetra, NotAligned exTetraPts a b := by
  have hlt : ∀ a ∈ exTetra, ∀ i ∈ a, i < 4 := by decide
  intro a ha b hb c x y hca hcb hxa hyb
  exact exTetra_aligned c x y (hlt a ha c hca) (hlt a ha x hxa) (hlt b hb y hyb)

/-- The faces of the tetrahedron meet the hypotheses of C09, in both cases of its conclusion. -/
example : ProperTri exTetraPts [0, 2, 1] ∧ ProperTri exTetraPts [0, 1, 3] ∧ NotAligned exTetraPts [0, 2, 1] [0, 1, 3] ∧
    triOrientationEqual exTetraPts [0, 2, 1] [0, 1, 3] = some true := by
  have h1 := exTetra_properTri [0, 2, 1] (by decide)
  have h2 := exTetra_properTri [0, 1, 3] (by decide)
  have h3 := exTetra_notAligned [0, 2, 1] (by decide) [0, 1, 3] (by decide)
  refine ⟨h1, h2, h3, ?_⟩
  rcases (C09_orientation_test _ _ _ h1 h2 h3).1 ⟨0, 1, Or.inr (by simp [Edge]), Or.inl (by simp [Edge])⟩ with h | ⟨_, v, w, h, h'⟩
  · exact h.1
  · simp [Edge] at h h'; omega

/-! ## C63 -/

theorem flip_proper {pts : List V3} {t : Elem} (h : ProperTri pts t) : ProperTri pts (flipTri t) := by
  obtain ⟨a, b, c, rfl, hnd, hx⟩ := h
  refine ⟨a, c, b, rfl, ?_, ?_⟩
  · simp only [List.nodup_cons, List.mem_cons, List.not_mem_nil, or_false, not_or, List.nodup_nil, not_false_eq_true] at hnd ⊢
    exact ⟨⟨hnd.1.2, hnd.1.1⟩, fun h => hnd.2.1 h.symm, trivial, trivial⟩
  · rw [cross_anti]
    intro h; apply hx
    have h1 := congrArg V3.x h; have h2 := congrArg V3.y h; have h3 := congrArg V3.z h
    ext
    · simpa using h1
    · simpa using h2
    · simpa using h3

theorem proper_length {pts : List V3} {t : Elem} (h : ProperTri pts t) : t.length = 3 := by
  obtain ⟨a, b, c, rfl, _⟩ := h; rfl

theorem testOK_real (pts : List V3) (ts : List Elem) (hp : ∀ t ∈ ts, ProperTri pts t)
    (hna : ∀ a ∈ ts, ∀ b ∈ ts, NotAligned pts a b) : TestOK (triOrientationEqual pts) ts := by
  have hmem : ∀ {a a' : Elem}, (a' = a ∨ a' = flipTri a) → ∀ v, v ∈ a' ↔ v ∈ a := by
    intro a a' h v
    rcases h with rfl | rfl
    · rfl
    · exact mem_flipTri v
  have hpr : ∀ {a a' : Elem}, a ∈ ts → (a' = a ∨ a' = flipTri a) → ProperTri pts a' := by
    intro a a' ha h
    rcases h with rfl | rfl
    · exact hp _ ha
    · exact flip_proper (hp _ ha)
  have hal : ∀ {a b a' b' : Elem}, a ∈ ts → b ∈ ts → (a' = a ∨ a' = flipTri a) → (b' = b ∨ b' = flipTri b) →
      NotAligned pts a' b' := by
    intro a b a' b' ha hb ha' hb' c x y h1 h2 h3 h4
    exact hna a ha b hb c x y ((hmem ha' c).1 h1) ((hmem hb' c).1 h2) ((hmem ha' x).1 h3) ((hmem hb' y).1 h4)
  have hse : ∀ {a b a' b' : Elem}, a ∈ ts → b ∈ ts → (a' = a ∨ a' = flipTri a) → (b' = b ∨ b' = flipTri b) →
      (ShareEdge a' b' ↔ ShareEdge a b) := by
    intro a b a' b' ha hb ha' hb'
    have la := proper_length (hp a ha)
    have lb := proper_length (hp b hb)
    rcases ha' with rfl | rfl <;> rcases hb' with rfl | rfl
    · rfl
    · rw [shareEdge_symm, shareEdge_flip_left lb, shareEdge_symm]
    · exact shareEdge_flip_left la
    · rw [shareEdge_flip_left la, shareEdge_symm, shareEdge_flip_left lb, shareEdge_symm]
  refine ⟨?_, ?_, ?_⟩
  · intro i j a b a' b' _ ha hb ha' hb' hs
    have ha := List.mem_of_getElem? ha
    have hb := List.mem_of_getElem? hb
    exact (triOrientationEqual_spec pts a' b' (hpr ha ha') (hpr hb hb') (hal ha hb ha' hb')).1 ((hse ha hb ha' hb').2 hs)
  · intro i j a b a' b' _ ha hb ha' hb' hs
    have ha := List.mem_of_getElem? ha
    have hb := List.mem_of_getElem? hb
    exact (triOrientationEqual_spec pts a' b' (hpr ha ha') (hpr hb hb') (hal ha hb ha' hb')).2
      (fun h => hs ((hse ha hb ha' hb').1 h))
  · intro a ha a' ha'
    have hs : ShareEdge a' a' := by
      obtain ⟨p, q, r, rfl, _⟩ := hpr ha ha'
      exact ⟨p, q, Or.inl (by simp [Edge]), Or.inl (by simp [Edge])⟩
    obtain ⟨r, h1, h2⟩ := (triOrientationEqual_spec pts a' a' (hpr ha ha') (hpr ha ha') (hal ha ha ha' ha')).1 hs
    cases r with
    | false => exact h1
    | true =>
      exfalso
      obtain ⟨p, q, r, rfl, _⟩ := hpr ha ha'
      exact h2.1 rfl p q (by simp [Edge]) (by simp [Edge])

/-- **C63** (missing: pieces that hang together only through a corner, for which it is false, see
`C63_corner_refuted`). Re-orienting the triangles of a piece that hangs together through edges and for which
some consistent orientation `T` exists gives a consistent orientation: two triangles with a common
edge traverse it in opposite directions. Triangles are only ever turned over. -/
theorem C63_triangles_consistent_partial (pts : List V3) (ts T : List (List Nat)) (hne : ts ≠ [])
    (hp : ∀ t ∈ ts, ProperTri pts t) (hna : ∀ a ∈ ts, ∀ b ∈ ts, NotAligned pts a b)
    (hconn : ∀ j, j < ts.length → EdgeLinked ts 0 j) (hT : SomeTurned ts T) (hop : EdgesOpposite T) :
    ∃ out, reorientTriangles (triOrientationEqual pts) ts = some out ∧ SomeTurned ts out ∧ EdgesOpposite out :=
  reorientTriangles_consistent _ ts T hne (fun t ht => proper_length (hp t ht)) (testOK_real pts ts hp hna) hconn hT hop

theorem edgesOpposite_flip {ts : List Elem} (hs : ∀ t ∈ ts, t.length = 3) (h : EdgesOpposite ts) :
    EdgesOpposite (ts.map flipTri) := by
  intro i j a b v w hij ha hb h1 h2
  rw [List.getElem?_map, Option.map_eq_some_iff] at ha hb
  obtain ⟨a', ha, rfl⟩ := ha
  obtain ⟨b', hb, rfl⟩ := hb
  rw [edge_flip (hs _ (List.mem_of_getElem? ha))] at h1
  rw [edge_flip (hs _ (List.mem_of_getElem? hb))] at h2
  exact h i j a' b' w v hij ha hb h1 h2

/-- **C63**, on the level of `ensure_outward_normals` / `ensure_inward_normals`. -/
theorem C63_normals_consistent_partial (trunc : V3 → V3) (o : Bool) (name : String) (m M : Mesh V3) (hv : Valid m)
    (g : List Nat) (hg : m.physTris.get name = some g) (hnd : g.Nodup)
    (h : Mesh.ensureNormals (realGeo trunc) o name m = some M) (c : List Nat) (T : List (List Nat))
    (hc : IsPiece (elemsAt M.triangles g) c)
    (hp : ∀ t ∈ elemsAt (elemsAt M.triangles g) c, ProperTri M.points t)
    (hna : ∀ a ∈ elemsAt (elemsAt M.triangles g) c, ∀ b ∈ elemsAt (elemsAt M.triangles g) c, NotAligned M.points a b)
    (hconn : ∀ j, j < (elemsAt (elemsAt M.triangles g) c).length → EdgeLinked (elemsAt (elemsAt M.triangles g) c) 0 j)
    (hT : SomeTurned (elemsAt (elemsAt M.triangles g) c) T) (hop : EdgesOpposite T) :
    EdgesOpposite (elemsAt (elemsAt M.triangles g) c) := by
  obtain ⟨pc, h1, h2, _, h4⟩ := triPieces o name m M hv hg hnd h c hc
  generalize elemsAt (elemsAt M.triangles g) c = out at *
  have h2' := h2.symm' flipTri_flipTri
  have hkp : ∀ (k : Nat) a, pc[k]? = some a → ∃ b, out[k]? = some b ∧ b ∈ out ∧ (a = b ∨ a = flipTri b) := by
    intro k a ha
    rcases h2'.2 k with h | h
    · rw [ha] at h; exact ⟨a, h.symm, List.mem_of_getElem? h.symm, Or.inl rfl⟩
    · rw [ha] at h
      obtain ⟨b, hb, he⟩ := Option.map_eq_some_iff.1 h.symm
      exact ⟨b, hb, List.mem_of_getElem? hb, Or.inr he.symm⟩
  have hppc : ∀ t ∈ pc, ProperTri M.points t := by
    intro t ht
    obtain ⟨k, hk⟩ := List.mem_iff_getElem?.1 ht
    obtain ⟨b, _, hb, rfl | rfl⟩ := hkp k t hk
    · exact hp _ hb
    · exact flip_proper (hp _ hb)
  have hvm : ∀ {a b : Elem}, (a = b ∨ a = flipTri b) → ∀ v, v ∈ a → v ∈ b := by
    intro a b h v hv
    rcases h with rfl | rfl
    · exact hv
    · exact (mem_flipTri v).1 hv
  have hnap : ∀ a ∈ pc, ∀ b ∈ pc, NotAligned M.points a b := by
    intro a ha b hb x y z h1 h2 h3 h4
    obtain ⟨k, hk⟩ := List.mem_iff_getElem?.1 ha
    obtain ⟨l, hl⟩ := List.mem_iff_getElem?.1 hb
    obtain ⟨a', _, ha', ea⟩ := hkp k a hk
    obtain ⟨b', _, hb', eb⟩ := hkp l b hl
    exact hna a' ha' b' hb' x y z (hvm ea _ h1) (hvm eb _ h2) (hvm ea _ h3) (hvm eb _ h4)
  have hlen : out.length = pc.length := h2.1
  have hko : ∀ (k : Nat) a, out[k]? = some a → ∃ b, pc[k]? = some b ∧ (b = a ∨ b = flipTri a) := by
    intro k a ha
    have hk : k < pc.length := by rw [← hlen]; exact (List.getElem?_eq_some_iff.1 ha).1
    obtain ⟨b, hb, _, he⟩ := hkp k _ (List.getElem?_eq_getElem hk)
    rw [ha] at hb; cases hb
    exact ⟨_, List.getElem?_eq_getElem hk, he⟩
  have hcp : ∀ j, j < pc.length → EdgeLinked pc 0 j := by
    intro j hj
    have := hconn j (by omega)
    clear hj
    induction this with
    | refl h => exact EdgeLinked.refl (by omega)
    | step _ ha hb hs ih =>
      obtain ⟨a', ha', ea⟩ := hko _ _ ha
      obtain ⟨b', hb', eb⟩ := hko _ _ hb
      refine EdgeLinked.step ih ha' hb' ?_
      have la := proper_length (hp _ (List.mem_of_getElem? ha))
      have lb := proper_length (hp _ (List.mem_of_getElem? hb))
      rcases ea with rfl | rfl <;> rcases eb with rfl | rfl
      · exact hs
      · rw [shareEdge_symm, shareEdge_flip_left lb, shareEdge_symm]; exact hs
      · rw [shareEdge_flip_left la]; exact hs
      · rw [shareEdge_flip_left la, shareEdge_symm, shareEdge_flip_left lb, shareEdge_symm]; exact hs
  have hTp : SomeTurned pc T := by
    refine ⟨by rw [← hT.1, hlen], ?_⟩
    intro k a b ha hb
    obtain ⟨a', ha', hma, ea⟩ := hkp k a ha
    obtain ⟨p, q, r, rfl, _⟩ := hp a' hma
    rcases hT.2 k _ _ ha' hb with h | ⟨p', q', r', h, h'⟩
    · subst h
      rcases ea with rfl | rfl
      · exact Or.inl rfl
      · exact Or.inr ⟨p, r, q, rfl, rfl⟩
    · cases h
      rcases ea with rfl | rfl
      · exact Or.inr ⟨p, q, r, rfl, h'⟩
      · exact Or.inl h'.symm
  obtain ⟨q, hq1, hq2, hq3⟩ := C63_triangles_consistent_partial M.points pc T h1 hppc hnap hcp hTp hop
  unfold ensureTriangleOrientation at h4
  have hq1' : reorientTriangles ((realGeo trunc).triEqual M.points) pc = some q := hq1
  rw [hq1'] at h4
  simp only [Option.bind_eq_bind, Option.bind_some] at h4
  cases h4
  split
  · apply edgesOpposite_flip _ hq3
    intro t ht
    obtain ⟨k, hk⟩ := List.mem_iff_getElem?.1 ht
    have hkl : k < pc.length := by rw [hq2.1]; exact (List.getElem?_eq_some_iff.1 hk).1
    have hpk := List.getElem?_eq_getElem hkl
    have hl := proper_length (hppc _ (List.mem_of_getElem? hpk))
    rcases hq2.2 k _ _ hpk hk with h | ⟨x, y, z, h, rfl⟩
    · rw [← h]; exact hl
    · rfl
  · exact hq3

/-- The tetrahedron meets the hypotheses of C63, starting from one face turned over. -/
example : ∃ ts T : List (List Nat), ts ≠ [] ∧ (∀ t ∈ ts, ProperTri exTetraPts t) ∧
    (∀ a ∈ ts, ∀ b ∈ ts, NotAligned exTetraPts a b) ∧ (∀ j, j < ts.length → EdgeLinked ts 0 j) ∧
    SomeTurned ts T ∧ EdgesOpposite T ∧ ¬ EdgesOpposite ts := by
  refine ⟨[[0, 1, 2], [0, 1, 3], [0, 3, 2], [1, 2, 3]], exTetra, by decide, ?_, ?_, ?_, ?_, ?_, ?_⟩
  · intro t ht
    simp only [List.mem_cons, List.not_mem_nil, or_false] at ht
    rcases ht with rfl | rfl | rfl | rfl
    · exact flip_proper (exTetra_properTri [0, 2, 1] (by decide))
    · exact exTetra_properTri _ (by decide)
    · exact exTetra_properTri _ (by decide)
    · exact exTetra_properTri _ (by decide)
  · have hlt : ∀ a ∈ ([[0, 1, 2], [0, 1, 3], [0, 3, 2], [1, 2, 3]] : List (List Nat)), ∀ i ∈ a, i < 4 := by decide
    intro a ha b hb c x y hca hcb hxa hyb
    exact exTetra_aligned c x y (hlt a ha c hca) (hlt a ha x hxa) (hlt b hb y hyb)
  · intro j hj
    have h0 : EdgeLinked [[0, 1, 2], [0, 1, 3], [0, 3, 2], [1, 2, 3]] 0 0 := EdgeLinked.refl (by decide)
    match j, hj with
    | 0, _ => exact h0
    | 1, _ => exact EdgeLinked.step h0 rfl rfl ⟨0, 1, Or.inl (by simp [Edge]), Or.inl (by simp [Edge])⟩
    | 2, _ => exact EdgeLinked.step h0 rfl rfl ⟨2, 0, Or.inl (by simp [Edge]), Or.inl (by simp [Edge])⟩
    | 3, _ => exact EdgeLinked.step h0 rfl rfl ⟨1, 2, Or.inl (by simp [Edge]), Or.inl (by simp [Edge])⟩
  · refine ⟨rfl, ?_⟩
    intro k a b ha hb
    match k with
    | 0 => cases ha; cases hb; exact Or.inr ⟨_, _, _, rfl, rfl⟩
    | 1 | 2 | 3 => cases ha; cases hb; exact Or.inl rfl
    | k + 4 => simp at ha
  · intro i j a b v w hij ha hb h1 h2
    match i, j with
    | 0, 0 | 1, 1 | 2, 2 | 3, 3 => exact absurd rfl hij
    | 0, 1 | 0, 2 | 0, 3 | 1, 0 | 1, 2 | 1, 3 | 2, 0 | 2, 1 | 2, 3 | 3, 0 | 3, 1 | 3, 2 =>
      cases ha; cases hb; simp [Edge] at h1 h2; omega
    | k + 4, _ => simp [exTetra] at ha
    | _, k + 4 => simp [exTetra] at hb
  · intro h
    exact h 0 1 _ _ 0 1 (by decide) rfl rfl (by simp [Edge]) (by simp [Edge])

/-- Three triangles that hang together, but the first one only through a corner; the other two have a
common edge and disagree. -/
def exFan : List (List Nat) := [[0, 1, 2], [2, 3, 4], [2, 3, 5]]

/-- **C63, refuted for pieces that hang together only through a corner.** The code looks for connected
pieces through common *vertices*, but the walk that makes orientations agree goes through common *edges*.
Whatever the coordinates, as long as the orientation test is right, the fan is left inconsistent although
it is connected and can be oriented consistently. -/
theorem C63_corner_refuted (test : List Nat → List Nat → Option Bool) (hok : TestOK test exFan) :
    Connected exFan ∧ (∃ T, SomeTurned exFan T ∧ EdgesOpposite T) ∧
    ∃ out, reorientTriangles test exFan = some out ∧ ¬ EdgesOpposite out := by
  refine ⟨?_, ⟨[[0, 1, 2], [2, 3, 4], [2, 5, 3]], ⟨rfl, ?_⟩, ?_⟩, [[0, 2, 1], [2, 3, 4], [2, 3, 5]], ?_, ?_⟩
  · have hs : ∀ i j, i < 3 → j < 3 → SharesVertex exFan i j := by
      intro i j hi hj
      have : ∀ i, i < 3 → ∃ a, exFan[i]? = some a ∧ 2 ∈ a := by decide +revert
      obtain ⟨a, h1, h2⟩ := this i hi
      obtain ⟨b, h3, h4⟩ := this j hj
      exact ⟨a, b, 2, h1, h3, h2, h4⟩
    intro i j hi hj
    exact Linked.step (Linked.refl hi) (hs i j hi hj)
  · intro k a b ha hb
    match k with
    | 0 | 1 => cases ha; cases hb; exact Or.inl rfl
    | 2 => cases ha; cases hb; exact Or.inr ⟨_, _, _, rfl, rfl⟩
    | k + 3 => simp [exFan] at ha
  · intro i j a b v w hij ha hb h1 h2
    match i, j with
    | 0, 0 | 1, 1 | 2, 2 => exact absurd rfl hij
    | 0, 1 | 0, 2 | 1, 0 | 1, 2 | 2, 0 | 2, 1 => cases ha; cases hb; simp [Edge] at h1 h2; omega
    | k + 3, _ => simp at ha
    | _, k + 3 => simp at hb
  · have t00 : test [0, 1, 2] [0, 1, 2] = some false := hok.self [0, 1, 2] (by decide) _ (Or.inl rfl)
    have hno : ∀ b, b = [2, 3, 4] ∨ b = [2, 3, 5] → ¬ ShareEdge [0, 1, 2] b := by
      rintro b (rfl | rfl) ⟨v, w, h1, h2⟩ <;> simp [Edge] at h1 h2 <;> omega
    have t01 : test [0, 2, 1] [2, 3, 4] = none :=
      hok.apart 0 1 [0, 1, 2] [2, 3, 4] _ _ (by decide) rfl rfl (Or.inr rfl) (Or.inl rfl) (hno _ (Or.inl rfl))
    have t02 : test [0, 2, 1] [2, 3, 5] = none :=
      hok.apart 0 2 [0, 1, 2] [2, 3, 5] _ _ (by decide) rfl rfl (Or.inr rfl) (Or.inl rfl) (hno _ (Or.inr rfl))
    simp [reorientTriangles, exFan, reorientLoop, reorientVisit, vertexToIndices, t00, t01, t02, flipTri,
      List.replicate]
  · intro h
    exact h 1 2 _ _ 2 3 (by decide) rfl rfl (by simp [Edge]) (by simp [Edge])

theorem not_aligned_of_nonpos {u v : V3} (h : dot u v ≤ 0) : 1e-14 ≤ |dot (unit u) (unit v) - 1| := by
  have e : dot (unit u) (unit v) = dot u v * ((1 / norm u) * (1 / norm v)) := by
    simp only [unit, dot, smul_x, smul_y, smul_z]; ring
  have h2 : 0 ≤ (1 / norm u) * (1 / norm v) := by
    unfold norm; positivity
  have h3 : dot u v * ((1 / norm u) * (1 / norm v)) ≤ 0 := mul_nonpos_of_nonpos_of_nonneg h h2
  rw [e, abs_of_neg (by linarith)]
  have : (1e-14 : ℝ) ≤ 1 := by norm_num
  linarith

noncomputable def exFanPts : List V3 := [⟨1, 0, 0⟩, ⟨0, 1, 0⟩, ⟨0, 0, 0⟩, ⟨0, 0, 1⟩, ⟨-1, 0, 0⟩, ⟨0, -1, 0⟩]

/-- The fan meets the hypothesis of `C63_corner_refuted` with real coordinates and the real test. -/
example : TestOK (triOrientationEqual exFanPts) exFan := by
  apply testOK_real
  · intro t ht
    simp only [exFan, List.mem_cons, List.not_mem_nil, or_false] at ht
    rcases ht with rfl | rfl | rfl
    · refine ⟨_, _, _, rfl, by decide, fun h => ?_⟩
      have := congrArg V3.z h; norm_num [rpt, exFanPts, cross] at this
    · refine ⟨_, _, _, rfl, by decide, fun h => ?_⟩
      have := congrArg V3.y h; norm_num [rpt, exFanPts, cross] at this
    · refine ⟨_, _, _, rfl, by decide, fun h => ?_⟩
      have := congrArg V3.x h; norm_num [rpt, exFanPts, cross] at this
  · intro a ha b hb c x y hca hcb hxa hyb hxc hyc hxy
    have hne : ∀ u : V3, 0 < dot u u → u ≠ 0 := by
      rintro u h rfl; simp [dot] at h
    simp only [exFan, List.mem_cons, List.not_mem_nil, or_false] at ha hb
    rcases ha with rfl | rfl | rfl <;> rcases hb with rfl | rfl | rfl <;>
      simp only [List.mem_cons, List.not_mem_nil, or_false] at hca hcb hxa hyb
    all_goals
      rcases hca with rfl | rfl | rfl <;> first
      | (exfalso; revert hcb; decide)
      | skip
    all_goals
      rcases hxa with rfl | rfl | rfl <;> first
      | exact absurd rfl hxc
      | skip
    all_goals
      rcases hyb with rfl | rfl | rfl <;> first
      | exact absurd rfl hyc
      | exact absurd rfl hxy
      | (apply not_aligned_of_nonpos; norm_num [rpt, exFanPts, dot]; done)
      | (apply not_aligned_of (hne _ (by norm_num [rpt, exFanPts, dot])) (hne _ (by norm_num [rpt, exFanPts, dot]))
         norm_num [rpt, exFanPts, dot]; done)

end Traceon
