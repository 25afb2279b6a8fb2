import Verif.Model.HigherOrder
import Verif.Props.OrientTri
import Mathlib.Analysis.Calculus.Deriv.Pow
import Mathlib.Analysis.Calculus.Deriv.Add
import Mathlib.Analysis.Calculus.Deriv.Mul

/-!
# Theorems about higher order lines: C12, C13, C54
-/
namespace Traceon
open Spec V3
variable {P : Type} {G : Geo P}

/-! ## C12 -/

/-- The straight line `a` from `p` to `q` is replaced by the 4-point line `b` through the points at
one third and at two thirds. -/
def Spec.Upgraded (t : Thirds P) (a b : List P) : Prop :=
  ∃ p q, a = [p, q] ∧ b = [p, q, t.one p q, t.two p q]

theorem lineEnds_some {pts : List P} {l : Elem} (h2 : l.length = 2) (hi : ∀ i ∈ l, i < pts.length) :
    ∃ p q, Mesh.lineEnds pts l = some (p, q) ∧ coords pts l = [p, q] := by
  match l, h2 with
  | [a, b], _ =>
    have ha := hi a (by simp)
    have hb := hi b (by simp)
    exact ⟨pts[a], pts[b], by simp [Mesh.lineEnds, ha, hb], by simp [coords, ha, hb]⟩

theorem linesToHigherOrder_spec (t : Thirds P) (pts : List P) (lines : List Elem)
    (h : ∀ l ∈ lines, l.length = 2 ∧ ∀ i ∈ l, i < pts.length) :
    ∃ pts' lines', Mesh.linesToHigherOrder t pts lines = some (pts', lines') ∧
      (∀ i, i < pts.length → pts'[i]? = pts[i]?) ∧ pts'.length = pts.length + 2 * lines.length ∧
      lines'.length = lines.length ∧
      (∀ l ∈ lines', l.length = 4 ∧ ∀ i ∈ l, i < pts'.length) ∧
      Matches (Upgraded t) (lines.map (coords pts)) (lines'.map (coords pts')) := by
  have hends : ∃ ends, lines.mapM (Mesh.lineEnds pts) = some ends := by
    induction lines with
    | nil => exact ⟨[], rfl⟩
    | cons l ls ih =>
      obtain ⟨p, q, h1, _⟩ := lineEnds_some (h l (by simp)).1 (h l (by simp)).2
      obtain ⟨e, he⟩ := ih (fun l hl => h l (by simp [hl]))
      exact ⟨(p, q) :: e, by simp [h1, he]⟩
  obtain ⟨ends, hends⟩ := hends
  have hmap := mapM_eq_some_iff.1 hends
  have hlen : ends.length = lines.length := by
    have := congrArg List.length hmap
    simpa using this.symm
  have hget : ∀ (k : Nat) l, lines[k]? = some l → ∃ p q, ends[k]? = some (p, q) ∧ coords pts l = [p, q] := by
    intro k l hl
    obtain ⟨p, q, h1, h2⟩ := lineEnds_some (h l (List.mem_of_getElem? hl)).1 (h l (List.mem_of_getElem? hl)).2
    refine ⟨p, q, ?_, h2⟩
    have := congrArg (fun x => x[k]?) hmap
    simp only [List.getElem?_map, hl, Option.map_some, h1] at this
    cases he : ends[k]? with
    | none => rw [he] at this; simp at this
    | some e => rw [he] at this; simp at this; rw [this]
  unfold Mesh.linesToHigherOrder
  rw [hends]
  simp only [Option.bind_eq_bind, Option.bind_some]
  refine ⟨_, _, rfl, ?_, by simp [hlen]; omega, by simp, ?_, ?_⟩
  · intro i hi
    rw [List.append_assoc, List.getElem?_append_left hi]
  · intro l hl
    obtain ⟨⟨l0, k⟩, hk, rfl⟩ := List.mem_map.1 hl
    have hk' := List.mem_zipIdx_iff_getElem?.1 hk
    have hkl : k < lines.length := (List.getElem?_eq_some_iff.1 hk').1
    obtain ⟨h1, h2⟩ := h l0 (List.mem_of_getElem? hk')
    refine ⟨by simp [h1], ?_⟩
    intro i hi
    simp only [List.mem_append, List.mem_cons, List.not_mem_nil, or_false] at hi
    simp only [List.length_append, List.length_map, hlen]
    rcases hi with hi | hi | hi
    · have := h2 i hi; omega
    · omega
    · omega
  · refine ⟨by simp, ?_⟩
    intro k a b ha hb
    rw [List.getElem?_map, Option.map_eq_some_iff] at ha hb
    obtain ⟨l, hl, rfl⟩ := ha
    obtain ⟨l', hl', rfl⟩ := hb
    rw [List.getElem?_map, Option.map_eq_some_iff] at hl'
    obtain ⟨⟨l0, k'⟩, hz, rfl⟩ := hl'
    rw [List.getElem?_zipIdx, Option.map_eq_some_iff] at hz
    obtain ⟨l1, hl1, hz⟩ := hz
    rw [hl] at hl1; cases hl1
    simp only [Nat.zero_add, Prod.mk.injEq] at hz
    obtain ⟨rfl, rfl⟩ := hz
    have hkl : k < lines.length := (List.getElem?_eq_some_iff.1 hl).1
    obtain ⟨p, q, he, hc⟩ := hget k l hl
    refine ⟨p, q, hc, ?_⟩
    have hkeep : ∀ i, i < pts.length → (pts ++ ends.map (fun e => t.one e.1 e.2) ++ ends.map (fun e => t.two e.1 e.2))[i]? = pts[i]? := by
      intro i hi
      rw [List.append_assoc, List.getElem?_append_left hi]
    have hco : coords (pts ++ ends.map (fun e => t.one e.1 e.2) ++ ends.map (fun e => t.two e.1 e.2)) l = coords pts l := by
      unfold coords
      apply filterMap_congr'
      intro i hi
      exact hkeep i ((h l (List.mem_of_getElem? hl)).2 i hi)
    have h3 : (pts ++ ends.map (fun e => t.one e.1 e.2) ++ ends.map (fun e => t.two e.1 e.2))[pts.length + k]? = some (t.one p q) := by
      rw [List.append_assoc, List.getElem?_append_right (by omega), List.getElem?_append_left (by simp [hlen]; omega)]
      simp [he]
    have h4 : (pts ++ ends.map (fun e => t.one e.1 e.2) ++ ends.map (fun e => t.two e.1 e.2))[pts.length + lines.length + k]? = some (t.two p q) := by
      rw [List.getElem?_append_right (by simp [hlen])]
      simp [hlen, he]
    have happ : ∀ (l1 l2 : List Nat) (ps : List P), coords ps (l1 ++ l2) = coords ps l1 ++ coords ps l2 := by
      intro l1 l2 ps; unfold coords; exact List.filterMap_append
    rw [happ, hco, hc]
    have hc4 : ∀ (ps : List P) (i j : Nat) x y, ps[i]? = some x → ps[j]? = some y → coords ps [i, j] = [x, y] := by
      intro ps i j x y h1 h2; simp [coords, h1, h2]
    rw [hc4 _ _ _ _ _ h3 h4]; rfl

/-- **C12** (before the constructor runs). Upgrading keeps the points, keeps order and groups of lines
and triangles, and replaces each straight line by a 4-point line with the same end points. -/
theorem C12_upgrade_raw (t : Thirds P) (m : Mesh P) (hv : Valid m) (h2 : m.lineCols = 2) :
    ∃ R, Mesh.higherOrderRaw t m = some R ∧ Valid R ∧ R.lineCols = 4 ∧
      (∀ i, i < m.points.length → R.points[i]? = m.points[i]?) ∧
      R.physLines = m.physLines ∧ R.physTris = m.physTris ∧ R.triangles = m.triangles ∧
      Matches (Upgraded t) (lineShapes m) (lineShapes R) ∧ triShapes R = triShapes m := by
  unfold Mesh.higherOrderRaw
  by_cases he : m.lines.isEmpty = true
  · rw [if_pos he]
    have he' : m.lines = [] := by simpa using he
    refine ⟨_, rfl, ⟨Or.inr rfl, ?_, hv.tris, hv.groupLines, hv.groupTris, hv.keysLines, hv.keysTris⟩, rfl,
      fun _ _ => rfl, rfl, rfl, rfl, ?_, rfl⟩
    · intro e h; simp [he'] at h
    · refine ⟨rfl, ?_⟩
      intro k a b ha; simp [lineShapes, he'] at ha
  · rw [if_neg he, if_pos h2]
    obtain ⟨pts', lines', h1, hk, hl, hll, hval, hm⟩ := linesToHigherOrder_spec t m.points m.lines
      (fun l hl => ⟨(hv.lines l hl).1.trans h2, (hv.lines l hl).2⟩)
    rw [h1]
    refine ⟨_, rfl, ⟨Or.inr rfl, hval, ?_, ?_, hv.groupTris, hv.keysLines, hv.keysTris⟩, rfl,
      hk, rfl, rfl, rfl, hm, ?_⟩
    · intro e h
      refine ⟨(hv.tris e h).1, fun i hi => ?_⟩
      have := (hv.tris e h).2 i hi
      show i < pts'.length
      omega
    · intro kv hkv i hi
      have := hv.groupLines kv hkv i hi
      show i < lines'.length
      omega
    · unfold triShapes
      apply List.map_congr_left
      intro e h
      unfold coords
      apply filterMap_congr'
      intro i hi
      exact hk i ((hv.tris e h).2 i hi)

/-- **C12.** The upgraded mesh exists, has 4-point lines, and line by line it is the old line with the
points at one and two thirds added (up to the direction of named lines, and up to the clearing of low
bits every constructor performs). -/
theorem C12_upgrade (hG : G.Lawful) (t : Thirds P) (m : Mesh P) (hv : Valid m) (h2 : m.lineCols = 2) :
    ∃ M, Mesh.toHigherOrder G t m = some M ∧ Valid M ∧ M.lineCols = 4 ∧ M.physLines = m.physLines ∧
      Matches (fun a b => ∃ c, Upgraded t a c ∧ SameLine G c b) (lineShapes m) (lineShapes M) ∧
      Matches (SameTri G) ((triShapes m).filter (nonDegShape G)) (triShapes M) := by
  obtain ⟨R, h1, hvR, hc, hp, hpl, _, _, hm, ht⟩ := C12_upgrade_raw t m hv h2
  obtain ⟨M, hb, r⟩ := Mesh.build_shapes hG R hvR true
  refine ⟨M, by unfold Mesh.toHigherOrder; rw [h1]; exact hb, r.valid, r.cols.trans hc, r.physLines.trans hpl, ?_, ?_⟩
  · refine ⟨hm.1.trans r.lines.1, ?_⟩
    intro k a b ha hb
    have hk : k < (lineShapes R).length := by rw [← hm.1]; exact (List.getElem?_eq_some_iff.1 ha).1
    have hc := List.getElem?_eq_getElem hk
    exact ⟨_, hm.2 k _ _ ha hc, r.lines.2 k _ _ hc hb⟩
  · rw [← ht]; exact r.tris

/-- **C12.** The curved element through the four points of an upgraded line is the original segment,
traversed at constant speed: its Jacobian is half the length everywhere. -/
theorem C12_straight (p q : V3) (α : ℝ) :
    curvePos α p (realThirds.one p q) (realThirds.two p q) q =
      (p.x + (α + 1) / 2 * (q.x - p.x), p.z + (α + 1) / 2 * (q.z - p.z)) ∧
    curveJac α p (realThirds.one p q) (realThirds.two p q) q =
      Real.sqrt ((q.x - p.x)^2 + (q.z - p.z)^2) / 2 := by
  constructor
  · simp only [curvePos, curvePos1, realThirds, add_x, add_z, smul_x, smul_z, sub_x, sub_z, Prod.mk.injEq]
    constructor <;> ring
  · simp only [curveJac, realThirds, add_x, add_z, smul_x, smul_z, sub_x, sub_z]
    have : Real.sqrt ((q.x - p.x)^2 + (q.z - p.z)^2) / 2 = 1/16 * (8 * Real.sqrt ((q.x - p.x)^2 + (q.z - p.z)^2)) := by ring
    rw [this]
    congr 1
    have h8 : (8 : ℝ) = Real.sqrt (8^2) := by rw [Real.sqrt_sq]; norm_num
    conv => rhs; rw [h8]
    rw [← Real.sqrt_mul (by norm_num)]
    congr 1; ring

/-- Integer coordinates, multiples of three. -/
def intThirds : Thirds IPoint where
  one p q := ⟨p.x + (q.x - p.x) / 3, p.y + (q.y - p.y) / 3, p.z + (q.z - p.z) / 3⟩
  two p q := ⟨p.x + 2 * (q.x - p.x) / 3, p.y + 2 * (q.y - p.y) / 3, p.z + 2 * (q.z - p.z) / 3⟩
  yZero p := p.y == 0

/-- A square of side 3, traversed anti-clockwise in the (x, z)-plane. -/
def exBig : Mesh IPoint where
  points := [⟨3, 0, 0⟩, ⟨6, 0, 0⟩, ⟨3, 0, 3⟩, ⟨6, 0, 3⟩]
  lines := [[0, 1], [1, 3], [3, 2], [2, 0]]
  physLines := [("boundary", [0, 1, 2, 3])]

theorem exBig_valid : Valid exBig := by
  refine ⟨Or.inl rfl, ?_, ?_, ?_, ?_, ?_, ?_⟩ <;> decide

example : Valid exBig ∧ exBig.lineCols = 2 ∧ ((Mesh.toHigherOrder intGeo intThirds exBig).map lineShapes) =
    some [[⟨3, 0, 0⟩, ⟨6, 0, 0⟩, ⟨4, 0, 0⟩, ⟨5, 0, 0⟩], [⟨6, 0, 0⟩, ⟨6, 0, 3⟩, ⟨6, 0, 1⟩, ⟨6, 0, 2⟩],
      [⟨6, 0, 3⟩, ⟨3, 0, 3⟩, ⟨5, 0, 3⟩, ⟨4, 0, 3⟩], [⟨3, 0, 3⟩, ⟨3, 0, 0⟩, ⟨3, 0, 2⟩, ⟨3, 0, 1⟩]] :=
  ⟨exBig_valid, rfl, by decide⟩

/-! ## C13 -/

/-- **C13, refuted.** A boundary on a mesh of straight lines: `add_electrostatic_boundary` turns the
normals inward, but the mesh that is used for solving has them outward again (here: `b` is traversed
anti-clockwise, exactly like before adding the boundary). -/
theorem C13_refuted : ∃ (m b s : Mesh IPoint), Mesh.build intGeo m = some m ∧
    Mesh.addBoundary intGeo "boundary" m = some b ∧ intLineOutward b.points b.lines = false ∧
    Mesh.solverMesh intGeo intThirds b = some s ∧ intLineOutward s.points s.lines = true := by
  refine ⟨exBig, { exBig with lines := [[1, 0], [3, 1], [2, 3], [0, 2]] }, ?_⟩
  refine ⟨{ points := [⟨3, 0, 0⟩, ⟨4, 0, 0⟩, ⟨5, 0, 0⟩, ⟨6, 0, 0⟩, ⟨3, 0, 1⟩, ⟨6, 0, 1⟩, ⟨3, 0, 2⟩, ⟨6, 0, 2⟩,
              ⟨3, 0, 3⟩, ⟨4, 0, 3⟩, ⟨5, 0, 3⟩, ⟨6, 0, 3⟩],
            lineCols := 4,
            lines := [[0, 3, 1, 2], [3, 11, 5, 7], [11, 8, 10, 9], [8, 0, 6, 4]],
            physLines := [("boundary", [0, 1, 2, 3])] }, ?_, ?_, ?_, ?_, ?_⟩
  · rfl
  · rfl
  · decide
  · rfl
  · decide

/-- **C13**, what happens instead, in general: if the mesh has to be upgraded, then on the mesh used for
solving *every* named piece of lines has outward normals (flux `≥ 0`), whatever was requested. -/
theorem C13_upgrade_outward (trunc : V3 → V3) (m M : Mesh V3) (hv : Valid m)
    (h2 : m.lineCols = 2) (h2d : ∀ p ∈ m.points, p.y = 0)
    (hsep : Mesh.SeparateGroups m.physLines)
    (h : Mesh.solverMesh (realGeo trunc) realThirds m = some M) (name : String) (g : List Nat)
    (hg : m.physLines.get name = some g) (c : List Nat) (hc : IsPiece (elemsAt M.lines g) c)
    (hp : LinesProper M.points (elemsAt (elemsAt M.lines g) c)) :
    0 ≤ lineFlux M.points (elemsAt (elemsAt M.lines g) c) := by
  have hup : (m.is2d realThirds && !m.isHigherOrder) = true := by
    unfold Mesh.is2d Mesh.isHigherOrder
    rw [h2]
    simp only [Bool.and_eq_true, List.all_eq_true]
    refine ⟨fun p hp => ?_, by decide⟩
    simp [realThirds, h2d p hp]
  unfold Mesh.solverMesh at h
  rw [if_pos hup] at h
  obtain ⟨R, h1, hvR, _, _, hpl, _⟩ := C12_upgrade_raw realThirds m hv h2
  unfold Mesh.toHigherOrder at h
  rw [h1] at h
  simp only [Option.bind_eq_bind, Option.bind_some] at h
  obtain ⟨pc, a1, a2, _, a4⟩ := linePieces_build (realGeo_lawful trunc) R M hvR h (by rw [hpl]; exact hsep) (by rw [hpl]; exact hg) c hc
  exact line_sign trunc M.points true a1 a2 a4 hp

/-- **C13**, the part that holds: if no upgrade is needed (the mesh is of higher order already, or it is
three dimensional), the mesh used for solving has inward normals on every connected piece of the
boundary, lines and triangles. -/
theorem C13_no_upgrade_partial (trunc : V3 → V3) (t : Thirds V3) (m b M : Mesh V3) (hv : Valid m)
    (name : String) (hb : Mesh.addBoundary (realGeo trunc) name m = some b)
    (hno : m.lineCols = 4 ∨ ∃ p ∈ m.points, t.yZero p = false)
    (h : Mesh.solverMesh (realGeo trunc) t b = some M) (g : List Nat) (hnd : g.Nodup) (c : List Nat) :
    (m.physLines.get name = some g → IsPiece (elemsAt M.lines g) c →
      LinesProper M.points (elemsAt (elemsAt M.lines g) c) →
      lineFlux M.points (elemsAt (elemsAt M.lines g) c) ≤ 0) ∧
    (m.physTris.get name = some g → IsPiece (elemsAt M.triangles g) c →
      TrisProper M.points (elemsAt (elemsAt M.triangles g) c) →
      triFlux M.points (elemsAt (elemsAt M.triangles g) c) ≤ 0) := by
  obtain ⟨b', hb', r⟩ := Mesh.ensureNormals_spec (G := realGeo trunc) false name m hv
  have hbb : Mesh.ensureNormals (realGeo trunc) false name m = some b := hb
  rw [hbb] at hb'; cases hb'
  have hM : M = b := by
    unfold Mesh.solverMesh at h
    rw [if_neg] at h
    · exact (Option.some.inj h).symm
    · unfold Mesh.is2d Mesh.isHigherOrder
      rw [r.cols, r.points]
      rcases hno with h4 | ⟨p, hp, hy⟩
      · simp [h4]
      · intro hcon
        simp only [Bool.and_eq_true, List.all_eq_true] at hcon
        rw [hcon.1 p hp] at hy; cases hy
  subst hM
  exact ⟨fun hg hc hp => (C08_lines_sign trunc false name m M hv g hg hnd hbb c hc hp).1,
    fun hg hc hp => (C08_triangles_sign trunc false name m M hv g hg hnd hbb c hc hp).1⟩

/-! ## C54 -/

/-- **C54.** The curved element passes through its four points at -1, -1/3, 1/3 and 1. -/
theorem C54_interpolates (v1 v2 v3 v4 : V3) :
    curvePos (-1) v1 v2 v3 v4 = (v1.x, v1.z) ∧ curvePos (-1/3) v1 v2 v3 v4 = (v2.x, v2.z) ∧
    curvePos (1/3) v1 v2 v3 v4 = (v3.x, v3.z) ∧ curvePos 1 v1 v2 v3 v4 = (v4.x, v4.z) := by
  simp only [curvePos, curvePos1, Prod.mk.injEq]
  refine ⟨⟨?_, ?_⟩, ⟨?_, ?_⟩, ⟨?_, ?_⟩, ⟨?_, ?_⟩⟩ <;> ring

theorem curvePos1_deriv (α a b c d : ℝ) : HasDerivAt (fun s => curvePos1 s a b c d) (curveTan1 α a b c d) α := by
  have h2 : HasDerivAt (fun s : ℝ => s^2) (2 * α) α := by simpa using hasDerivAt_pow 2 α
  have h3 : HasDerivAt (fun s : ℝ => s^3) (3 * α^2) α := by simpa using hasDerivAt_pow 3 α
  have h1 : HasDerivAt (fun s : ℝ => s) 1 α := hasDerivAt_id α
  have := ((((((h2.mul_const (9*d - 9*c - 9*b + 9*a)).add (h3.mul_const (9*d - 27*c + 27*b - 9*a))).sub_const d).add
    (h1.mul_const (-d + 27*c - 27*b + a))).add_const (9*c)).add_const (9*b)).sub_const a |>.div_const 16
  have e : curveTan1 α a b c d = (2 * α * (9*d - 9*c - 9*b + 9*a) + 3 * α^2 * (9*d - 27*c + 27*b - 9*a) +
      1 * (-d + 27*c - 27*b + a)) / 16 := by unfold curveTan1; ring
  rw [e]
  exact this

/-- **C54.** The Jacobian is the speed: the length of the derivative of the position. -/
theorem C54_jacobian (v1 v2 v3 v4 : V3) (α : ℝ) :
    ∃ dx dz, HasDerivAt (fun s => (curvePos s v1 v2 v3 v4).1) dx α ∧
      HasDerivAt (fun s => (curvePos s v1 v2 v3 v4).2) dz α ∧
      curveJac α v1 v2 v3 v4 = Real.sqrt (dx^2 + dz^2) := by
  refine ⟨_, _, curvePos1_deriv α _ _ _ _, curvePos1_deriv α _ _ _ _, ?_⟩
  unfold curveJac curveTan1
  have h : (1/16 : ℝ) = Real.sqrt ((1/16)^2) := by rw [Real.sqrt_sq]; norm_num
  conv => lhs; lhs; rw [h]
  rw [← Real.sqrt_mul (by positivity)]
  congr 1; ring

/-- **C54.** Where the speed is not zero, the normal has unit length, is perpendicular to the tangent,
and (tangent, normal) is the tangent turned clockwise. -/
theorem C54_normal (v1 v2 v3 v4 : V3) (α dx dz : ℝ)
    (hx : HasDerivAt (fun s => (curvePos s v1 v2 v3 v4).1) dx α)
    (hz : HasDerivAt (fun s => (curvePos s v1 v2 v3 v4).2) dz α) (hne : curveJac α v1 v2 v3 v4 ≠ 0) :
    (curveNormal α v1 v2 v3 v4).1 = dz / curveJac α v1 v2 v3 v4 ∧
    (curveNormal α v1 v2 v3 v4).2 = -dx / curveJac α v1 v2 v3 v4 ∧
    (curveNormal α v1 v2 v3 v4).1 * dx + (curveNormal α v1 v2 v3 v4).2 * dz = 0 ∧
    (curveNormal α v1 v2 v3 v4).1 ^ 2 + (curveNormal α v1 v2 v3 v4).2 ^ 2 = 1 := by
  obtain ⟨dx', dz', hx', hz', hj⟩ := C54_jacobian v1 v2 v3 v4 α
  have e1 := hx.unique (curvePos1_deriv α _ _ _ _)
  have e2 := hz.unique (curvePos1_deriv α _ _ _ _)
  have e1' := hx'.unique (curvePos1_deriv α _ _ _ _)
  have e2' := hz'.unique (curvePos1_deriv α _ _ _ _)
  have hlen : Real.sqrt ((dz - 0) * (dz - 0) + -(dx - 0) * -(dx - 0)) = curveJac α v1 v2 v3 v4 := by
    rw [hj, e1', e2', ← e1, ← e2]; congr 1; ring
  have hn1 : (curveNormal α v1 v2 v3 v4).1 = dz / curveJac α v1 v2 v3 v4 := by
    unfold curveNormal normal2d
    simp only
    rw [← e1, ← e2, hlen, sub_zero]
  have hn2 : (curveNormal α v1 v2 v3 v4).2 = -dx / curveJac α v1 v2 v3 v4 := by
    unfold curveNormal normal2d
    simp only
    rw [← e1, ← e2, hlen, sub_zero]
  have hsq : curveJac α v1 v2 v3 v4 ^ 2 = dx^2 + dz^2 := by
    rw [hj, e1', e2', ← e1, ← e2, Real.sq_sqrt (by positivity)]
  refine ⟨hn1, hn2, ?_, ?_⟩
  · rw [hn1, hn2]; field_simp; ring
  · rw [hn1, hn2, div_pow, div_pow, ← add_div, hsq]
    rw [neg_sq, add_comm, div_self]
    rw [← hsq]; exact pow_ne_zero 2 hne

/-- **C54.** Reversing the element `[l0, l1, l2, l3]` to `[l1, l0, l3, l2]` (so `v1 ↔ v4`, `v2 ↔ v3`)
reverses the parametrisation, keeps the Jacobian and reverses the normal. -/
theorem C54_reverse (v1 v2 v3 v4 : V3) (α : ℝ) :
    curvePos α v4 v3 v2 v1 = curvePos (-α) v1 v2 v3 v4 ∧
    curveJac α v4 v3 v2 v1 = curveJac (-α) v1 v2 v3 v4 ∧
    curveNormal α v4 v3 v2 v1 = (-(curveNormal (-α) v1 v2 v3 v4).1, -(curveNormal (-α) v1 v2 v3 v4).2) := by
  have ht : ∀ a b c d : ℝ, curveTan1 α d c b a = - curveTan1 (-α) a b c d := by
    intro a b c d; unfold curveTan1; ring
  refine ⟨?_, ?_, ?_⟩
  · simp only [curvePos, curvePos1, Prod.mk.injEq]; constructor <;> ring
  · unfold curveJac; congr 2; ring
  · unfold curveNormal normal2d
    simp only [ht, sub_zero, Prod.mk.injEq]
    have : ∀ x y : ℝ, -y * -y + - -x * - -x = y * y + -x * -x := by intros; ring
    rw [this]
    constructor <;> ring

/-- A curved element with non-zero speed. -/
example : curveJac 0 ⟨1, 0, 0⟩ ⟨2, 0, 1⟩ ⟨3, 0, 1⟩ ⟨4, 0, 0⟩ ≠ 0 := by
  unfold curveJac
  norm_num

end Traceon
