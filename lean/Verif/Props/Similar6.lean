import Verif.Props.Similar5
import Verif.Props.Rigid5
import Verif.Props.EllipticAccuracy

/-!
# C86: solving and moving commute, and an example
-/
namespace Traceon
open Spec Excitation V3

section
variable (S : Similarity) (x : Excitation ℝ V3)

theorem Spec.Similarity.back_move (p : V3) : S.back (S.move p) = p := by
  have hk := S.scale_ne
  unfold Similarity.back Similarity.move
  have hd := S.dir_dir p.z
  ext <;> simp only
  · field_simp
  · field_simp
  · rw [add_sub_cancel_right, mul_div_cancel_left₀ _ hk]
    exact hd

/-- The value for a type. -/
noncomputable def Spec.Similarity.newValue (S : Similarity) (tv : ExcType × ExcVal ℝ V3) : ExcVal ℝ V3 := if tv.1 = .current then S.current tv.2 else Similarity.value S.back tv.2

theorem similar_get (n : String) : (S.excitation x).types.get n = (x.types.get n).map fun tv => (tv.1, S.newValue tv) :=
  get_map_values (fun tv : ExcType × ExcVal ℝ V3 => (tv.1, S.newValue tv)) x.types n

theorem similar_kind (s : Statics) (n : String) : HasKind (S.excitation x) s n ↔ HasKind x s n := by
  unfold HasKind
  rw [similar_get]
  cases x.types.get n <;> simp

theorem similar_physicals : (S.excitation x).physicals = x.physicals := rfl

theorem similar_excited (s : Statics) (i : Nat) : Excited (S.excitation x) s i ↔ Excited x s i := by
  have h : ∀ (x : Excitation ℝ V3), Excited x s i ↔ ∃ n g, x.physicals.get n = some g ∧ i ∈ g ∧ HasKind x s n := by
    intro x
    unfold Excited HasKind
    constructor
    · rintro ⟨n, g, tv, h1, h2, h3, h4⟩; exact ⟨n, g, h1, h2, tv, h3, h4⟩
    · rintro ⟨n, g, h1, h2, tv, h3, h4⟩; exact ⟨n, g, tv, h1, h2, h3, h4⟩
  rw [h, h]
  simp only [similar_kind, similar_physicals]

theorem similar_decides (s : Statics) (n : String) (i : Nat) : Decides (S.excitation x) s n i ↔ Decides x s n i := by
  unfold Decides
  simp only [similar_kind, similar_physicals]

/-- Where the lines go. -/
noncomputable def Spec.Similarity.sideLine (S : Similarity) (l : Line4) : Line4 := if S.dir = 1 then S.line l else (S.line l).turned

theorem Spec.Similarity.side_sideLine (l : Line4) : S.side l (S.sideLine l) := by
  unfold Similarity.side Similarity.sideLine
  rcases S.dir_eq with h | h <;> rw [h]
  · exact Or.inl ⟨rfl, if_pos rfl⟩
  · exact Or.inr ⟨rfl, if_neg (by norm_num)⟩

theorem Spec.Similarity.line_sideLine (l : Line4) : S.sideLine l = S.line l ∨ S.sideLine l = (S.line l).turned := (S.side_sideLine l).elim (fun h => .inl h.2) fun h => .inr h.2

theorem similar_lineAt (hv : Valid x.mesh) (i : Nat) : lineAt (S.excitation x).mesh i = (lineAt x.mesh i).map S.sideLine := by
  have key : ∀ ps : List V3, toLine4 (ps.map S.move) = (toLine4 ps).map S.line := by
    intro ps
    match ps with
    | [] => rfl
    | [_] => rfl
    | [_, _] => rfl
    | [_, _, _] => rfl
    | [_, _, _, _] => rfl
    | _ :: _ :: _ :: _ :: _ :: _ => rfl
  have keyr : ∀ ps : List V3, toLine4 (revLine ps) = (toLine4 ps).map Line4.turned := by
    intro ps
    match ps with
    | [] => rfl
    | [_] => rfl
    | [_, _] => rfl
    | [_, _, _] => rfl
    | [_, _, _, _] => rfl
    | _ :: _ :: _ :: _ :: _ :: _ => rfl
  show ((if S.dir = 1 then x.mesh.lines else x.mesh.lines.map revLine)[i]?).bind (fun e => toLine4 (coords (x.mesh.points.map S.move) e)) =
    ((x.mesh.lines[i]?).bind fun e => toLine4 (coords x.mesh.points e)).map S.sideLine
  unfold Similarity.sideLine
  by_cases hd : S.dir = 1
  · simp only [if_pos hd]
    cases x.mesh.lines[i]? with
    | none => rfl
    | some e =>
      simp only [Option.bind_some]
      rw [coords_map, key]
  · simp only [if_neg hd]
    rw [List.getElem?_map]
    cases he : x.mesh.lines[i]? with
    | none => rfl
    | some e =>
      simp only [Option.bind_some, Option.map_some]
      rw [coords_map, coords_revLine (hv.lines e (List.mem_of_getElem? he)).2, key, keyr, Option.map_map]
      rfl

theorem similar_triVerts (ps : List V3) (e : List Nat) : triVerts (ps.map S.move) e = (triVerts ps e).map S.tri := by
  unfold triVerts
  split
  · simp only [List.getElem?_map]
    rename_i a b c
    cases ps[a]? <;> cases ps[b]? <;> cases ps[c]? <;> rfl
  · rfl

theorem similar_length : (S.excitation x).mesh.lines.length = x.mesh.lines.length := by
  show (if S.dir = 1 then x.mesh.lines else x.mesh.lines.map revLine).length = _
  split <;> simp

variable {S x}

/-- No centre of a line and no coil gets so close to the axis that its distance is treated as zero, or is no longer treated as zero. -/
def Spec.Similarity.KeepsAxisOf (S : Similarity) (x : Excitation ℝ V3) : Prop :=
  (∀ i l, lineAt x.mesh i = some l → S.KeepsAxis (elemPoint l 0).x) ∧
    ∀ (i : Nat) t, (x.mesh.triangles[i]?).bind (triVerts x.mesh.points) = some t → ∀ q ∈ posRow t, S.KeepsAxis q.x

theorem notCurrent {s : Statics} {t : ExcType} (h : Excitation.typeCheck s t = true) : t ≠ .current := by
  rintro rfl
  cases s <;> cases h

theorem similar_same (hv : Valid x.mesh) (hax : S.KeepsAxisOf x) (s : Statics) : SameRadial S (fun i => i) x (S.excitation x) s := by
  have hlen := similar_length S x
  refine ⟨fun i h h' => ⟨hlen ▸ h, (similar_excited S x s i).2 h'⟩, fun i j _ _ _ _ h => h, fun j h h' => ⟨j, hlen ▸ h, (similar_excited S x s j).1 h', rfl⟩, ?_, ?_, ?_⟩
  · intro i l _ _ h
    rw [similar_lineAt S x hv, h]
    simp only [Option.map_some, Option.some.injEq]
    exact S.line_sideLine l
  · intro i n tv l _ _ _ h
    rw [similar_lineAt S x hv, h]
    exact ⟨⟨_, rfl, S.side_sideLine l⟩, hax.1 i l h⟩
  · intro i n n' tv tv' h h1 h' h1'
    rw [similar_decides] at h'
    obtain rfl := decides_unique h h'
    rw [similar_get, h1] at h1'
    cases h1'
    refine ⟨rfl, ?_⟩
    have hk : HasKind x s n := by obtain ⟨_, _, _, _, _, hk, _⟩ := h; exact hk
    have hne : tv.1 ≠ .current := by
      obtain ⟨tv2, h2, h3⟩ := hk
      rw [h1] at h2
      cases h2
      intro h4
      exact notCurrent h3 h4
    obtain ⟨t, v⟩ := tv
    show SameValueAt S.move v (if t = ExcType.current then S.current v else Similarity.value S.back v)
    rw [if_neg hne]
    cases v <;> simp [SameValueAt, Similarity.value, S.back_move]

theorem similar_coils (hax : S.KeepsAxisOf x) :
    SameCoils S x (S.excitation x) := by
  refine ⟨fun i => ?_, rfl, rfl, ?_, hax.2⟩
  · show (x.mesh.triangles[i]?).bind (triVerts (x.mesh.points.map S.move)) = _
    cases x.mesh.triangles[i]? with
    | none => rfl
    | some e => exact similar_triVerts S _ _
  · show (x.types.map fun nt => (nt.1, nt.2.1, S.newValue nt.2)).filter _ = _
    rw [List.filter_map]
    have : (fun nt : String × ExcType × ExcVal ℝ V3 => decide (nt.2.1 = .current)) ∘ (fun nt : String × ExcType × ExcVal ℝ V3 => (nt.1, nt.2.1, S.newValue nt.2)) =
        fun nt : String × ExcType × ExcVal ℝ V3 => decide (nt.2.1 = .current) := rfl
    rw [this]
    refine List.map_congr_left fun nt h => ?_
    obtain ⟨h1, h2⟩ := List.mem_filter.1 h
    unfold Similarity.newValue
    rw [if_pos (by simpa using h2)]

theorem similar_valid (hv : Valid x.mesh) (hl : x.mesh.lineCols = 4) : Valid (S.excitation x).mesh := by
  refine ⟨hv.cols, ?_, ?_, by rw [similar_length]; exact hv.groupLines, hv.groupTris, hv.keysLines, hv.keysTris⟩
  · intro e h
    have h : e ∈ (if S.dir = 1 then x.mesh.lines else x.mesh.lines.map revLine) := h
    have : e.length = x.mesh.lineCols ∧ ∀ i ∈ e, i < x.mesh.points.length := by
      split at h
      · exact hv.lines e h
      · obtain ⟨e0, h0, rfl⟩ := List.mem_map.1 h
        have h1 := hv.lines e0 h0
        rw [hl] at h1 ⊢
        match e0, h1 with
        | [a, b, c, d], h1 => 
          refine ⟨rfl, fun i hi => h1.2 i ?_⟩
          simp only [revLine, List.mem_cons, List.not_mem_nil, or_false] at hi ⊢
          tauto
    refine ⟨this.1, fun i hi => ?_⟩
    show i < (x.mesh.points.map S.move).length
    rw [List.length_map]
    exact this.2 i hi
  · intro e h
    have := hv.tris e h
    refine ⟨this.1, fun i hi => ?_⟩
    show i < (x.mesh.points.map S.move).length
    rw [List.length_map]
    exact this.2 i hi

end

/-- **C86**, the same numbering: solving and moving commute. (The lines are of higher order, as `solve_direct` makes them.) -/
theorem C86_similar {G : Geo V3} {S : Similarity} {x : Excitation ℝ V3} {env env' : SolveEnv} {f : PyObj} (hG : G.Lawful)
    (hv : Valid x.mesh) (hn : x.types.keys.Nodup) (h3 : x.symmetry = .radial) (hl : x.mesh.lineCols = 4) (hy : ∀ p ∈ x.mesh.points, p.y = 0) (hax : S.KeepsAxisOf x)
    (he : FaithfulEnv env x) (he' : FaithfulEnv env' (S.excitation x)) (hE : EnoughLines env x) (hE' : EnoughLines env' (S.excitation x)) (hf : x.solveField G env = some f) :
    ∃ f', (S.excitation x).solveField G env' = some f' ∧ ∀ p,
      f'.potentialAtPoint (S.move p) = f.potentialAtPoint p ∧
      (S.KeepsAxis (norm2d p.x p.y) → f'.electrostaticField (S.move p) = (f.electrostaticField p).map S.vec ∧
        f'.magnetostaticField (S.move p) = (f.magnetostaticField p).map S.vec ∧
        f'.fieldAtPoint (S.move p) = (f.fieldAtPoint p).map S.vec) := by
  have hany : ∀ P : ExcType → Bool, (S.excitation x).types.any (fun nv => P nv.2.1) = x.types.any fun nv => P nv.2.1 := by
    intro P
    show (x.types.map _).any _ = _
    rw [List.any_map]
    rfl
  have hv' := similar_valid (S := S) hv hl
  have hn' : (S.excitation x).types.keys.Nodup := by
    have : (S.excitation x).types.keys = x.types.keys := by
      show (x.types.map _).map _ = _
      rw [List.map_map]
      rfl
    rw [this]
    exact hn
  have hup : ∀ {x : Excitation ℝ V3}, x.mesh.lineCols = 4 → x.upgraded G = some x := by
    intro x h
    unfold upgraded Mesh.solverMesh
    rw [if_neg (by simp [Mesh.isHigherOrder, h])]
    rfl
  obtain ⟨f', h1, h2⟩ := C86_radial (σ := fun _ i => i) hG hv hv' hn hn' h3 h3 (hup hl) (hup (x := S.excitation x) hl) hy
    (by
      intro p hp
      obtain ⟨p0, h0, rfl⟩ := List.mem_map.1 hp
      simp [Similarity.move, hy p0 h0])
    hl (similar_same hv hax) (similar_coils hax)
    (by
      intro s h n tv h1 h2
      rw [similar_get] at h1
      cases hg : x.types.get n with
      | none => rw [hg] at h1; cases h1
      | some tv0 =>
        rw [hg] at h1
        cases h1
        exact h n tv0 hg h2)
    (by
      intro s h n tv h1 h2
      rw [similar_get] at h1
      cases hg : x.types.get n with
      | none => rw [hg] at h1; cases h1
      | some tv0 =>
        rw [hg] at h1
        cases h1
        obtain ⟨a, b⟩ := h n tv0 hg h2
        refine ⟨fun h => ?_, fun h => ?_⟩
        · obtain ⟨f, hf⟩ := a h; exact ⟨_, by simp only [Similarity.newValue]; rw [if_neg (notCurrent h2)]; simp only [hf, Similarity.value]; rfl⟩
        · obtain ⟨f, hf⟩ := b h; exact ⟨_, by simp only [Similarity.newValue]; rw [if_neg (notCurrent h2)]; simp only [hf, Similarity.value]; rfl⟩)
    (hany fun t => t = .voltageFixed || t = .voltageFun) (hany fun t => t = .magnetostaticPot || t = .current) he he' hE hE' hf
  exact ⟨f', h1, fun p => ⟨(h2 p).2.2.1, (h2 p).2.2.2⟩⟩

/-- A motion along the axis. -/
def Spec.Similarity.along (z : ℝ) : Similarity where
  scale := 1
  shift := z
  pos := one_pos

theorem Spec.Similarity.along_keeps (z r : ℝ) : (Similarity.along z).KeepsAxis r := by
  unfold Similarity.KeepsAxis Similarity.along
  simp

/-- **C86**, a motion along the axis: the potential and the field move along, at every point. -/
theorem C86_shift {G : Geo V3} {x : Excitation ℝ V3} {env env' : SolveEnv} {f : PyObj} (z : ℝ) (hG : G.Lawful)
    (hv : Valid x.mesh) (hn : x.types.keys.Nodup) (h3 : x.symmetry = .radial) (hl : x.mesh.lineCols = 4) (hy : ∀ p ∈ x.mesh.points, p.y = 0)
    (he : FaithfulEnv env x) (he' : FaithfulEnv env' ((Similarity.along z).excitation x)) (hE : EnoughLines env x) (hE' : EnoughLines env' ((Similarity.along z).excitation x))
    (hf : x.solveField G env = some f) :
    ∃ f', ((Similarity.along z).excitation x).solveField G env' = some f' ∧ ∀ p : V3,
      f'.potentialAtPoint ⟨p.x, p.y, p.z + z⟩ = f.potentialAtPoint p ∧ f'.electrostaticField ⟨p.x, p.y, p.z + z⟩ = f.electrostaticField p ∧
      f'.magnetostaticField ⟨p.x, p.y, p.z + z⟩ = f.magnetostaticField p ∧ f'.fieldAtPoint ⟨p.x, p.y, p.z + z⟩ = f.fieldAtPoint p := by
  obtain ⟨f', h1, h2⟩ := C86_similar (S := Similarity.along z) hG hv hn h3 hl hy ⟨fun _ _ _ => Similarity.along_keeps _ _, fun _ _ _ _ _ => Similarity.along_keeps _ _⟩ he he' hE hE' hf
  refine ⟨f', h1, fun p => ?_⟩
  obtain ⟨a, b⟩ := h2 p
  have hm : (Similarity.along z).move p = ⟨p.x, p.y, p.z + z⟩ := by unfold Similarity.move Similarity.along; simp
  rw [hm] at a b
  obtain ⟨b1, b2, b3⟩ := b (Similarity.along_keeps _ _)
  have hid : ∀ E : Option V3, E.map (Similarity.along z).vec = E := by
    intro E
    cases E with
    | none => rfl
    | some v =>
      simp only [Option.map_some]
      congr 1
      ext <;> simp [Similarity.vec, Similarity.along]
  rw [hid] at b1 b2 b3
  exact ⟨a, b1, b2, b3⟩

end Traceon
