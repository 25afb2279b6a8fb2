import Verif.Props.Pipeline2

/-!
# C91: from named parts to the field
-/
namespace Traceon
open Spec Excitation
variable {G : Geo V3}

/-- **C91**, from the solution of an excitation to the parts its mesh was made of, three dimensions. -/
theorem realizes3d {parts : List (Mesh V3)} {M : Mesh V3} (hv : Valid M) (hn : NamedOnce M.physTris)
    (hm : ∀ n, Matches (fun a b => b = a ∨ b = Spec.revTri a) ((namedTris parts n).filter (nonDegShape G)) ((triGroup M n).getD [])) {x : Excitation ℝ V3} (hxv : Valid x.mesh)
    (hsym : x.symmetry = .threeD) (hpts : x.mesh.points = M.points) (hphys : x.mesh.physTris = M.physTris)
    (hturn : ∀ k : Nat, x.mesh.triangles[k]? = M.triangles[k]? ∨ x.mesh.triangles[k]? = (M.triangles[k]?).map Spec.revTri) {s : Statics} {e : EffCharges V3}
    (hs : Solves3d x s e) : Realizes3d G parts (fun n => x.types.get n) s e := by
  obtain ⟨idx, ts, q, rfl, h1, h2, h3, h4, h5⟩ := hs
  have hph : x.physicals = M.physTris := by unfold physicals; rw [hsym, if_neg (by decide), hphys]
  obtain ⟨hlen, hts⟩ := Pipe.turned_shapes (rev := Spec.revTri) (revN := Spec.revTri) (pts := M.points) (fun e he => coords_revTri (hv.tris e he).2) hturn
  have hb : ∀ n g, M.physTris.get n = some g → ∀ i ∈ g, i < M.triangles.length := fun n g hg => hv.groupTris _ (Dict.mem_of_get hg)
  obtain ⟨pos, p1, p2⟩ := Pipe.positions (d := M.physTris) hn (N := M.triangles.length) hb h3 (kind := HasKind x s) (by
    intro i
    rw [h4, hlen, excited_iff, hph])
  refine ⟨ts, q, pos, rfl, h2.trans h1.symm, ?_, ?_⟩
  · intro n tv htv htc
    obtain ⟨q1, q2⟩ := p1 n ⟨tv, htv, htc⟩
    refine ⟨q1, ?_⟩
    have hA : Matches (fun a (i : Nat) => ∃ b, (x.mesh.triangles.map (coords M.points))[i]? = some b ∧ (b = a ∨ b = Spec.revTri a)) ((namedTris parts n).filter (nonDegShape G))
        ((M.physTris.get n).getD []) := by
      have h := hm n
      cases hg : M.physTris.get n with
      | none => simpa [triGroup, hg, Matches] using h
      | some g =>
        have e1 : (triGroup M n).getD [] = g.filterMap (fun i => (triShapes M)[i]?) := by simp [triGroup, hg]
        rw [e1] at h
        exact Pipe.turned_group Pipe.revTri_twice (by simp [triShapes, hlen]) hts (by simpa [triShapes] using hb n g hg) h
    refine ⟨hA.1.trans q2.1, fun j a k ha hk => ?_⟩
    have hj : j < ((M.physTris.get n).getD []).length := by rw [← hA.1]; exact (List.getElem?_eq_some_iff.1 ha).1
    have hi := List.getElem?_eq_getElem hj
    obtain ⟨b, hb1, hb2⟩ := hA.2 j a _ ha hi
    have hk' := q2.2 j _ k hi hk
    obtain ⟨⟨t, ht1, ht2⟩, hc⟩ := h5 k _ hk'
    refine ⟨⟨t, ht2, ?_⟩, ?_⟩
    · rw [List.getElem?_map] at hb1
      obtain ⟨el, he1, rfl⟩ := Option.map_eq_some_iff.1 hb1
      rw [he1, Option.bind_some, hpts] at ht1
      have : coords M.points el = [t.v0, t.v1, t.v2] := by
        unfold triVerts at ht1
        split at ht1
        · simp only [Option.bind_eq_bind, Option.bind_eq_some_iff, pure, Option.some.injEq] at ht1
          obtain ⟨v0, a0, v1, a1, v2, a2, rfl⟩ := ht1
          simp [coords, a0, a1, a2]
        · cases ht1
      rwa [this] at hb2
    · have himem : ((M.physTris.get n).getD [])[j] ∈ (M.physTris.get n).getD [] := List.getElem_mem hj
      cases hg : M.physTris.get n with
      | none => simp [hg] at hj
      | some g =>
        simp only [hg, Option.getD_some] at himem hc ⊢
        refine hc n tv (decides_of_unique hxv (g := g) (by rw [hph]; exact hg) himem ⟨tv, htv, htc⟩ ?_) htv
        intro n' g' hg' _ hi'
        by_contra hne
        rw [hph] at hg'
        exact hn.apart n n' g g' hg hg' (Ne.symm hne) _ himem hi'
  · intro k hk
    obtain ⟨n, ⟨tv, t1, t2⟩, hk', hu⟩ := p2 k (by omega)
    exact ⟨n, tv, t1, t2, hk', fun n' tv' a b c => hu n' ⟨tv', a, b⟩ c⟩

/-- **C91**, three dimensions. Add named parts, build an excitation on the sum by any calls, solve with any number of threads and schedule. If `solve_direct` returns and voltages were given, then
the electrostatic charges are charges on exactly those triangles of the parts whose name carries a voltage or dielectric (degenerate triangles excepted), and each of them does what the
excitation last granted to its name asks for. The same for the magnetostatic part. Names that occur in no part are refused. -/
theorem C91_threeD (hG : G.Lawful) (hS : G.Stable) (hE : ∀ p q, G.eq p q = true ↔ p = q) {parts : List (Mesh V3)} (hp : Parts G parts) {M : Mesh V3}
    (hM : parts.foldlM (Mesh.add G) {} = some M) {inXZ : V3 → Bool} {x0 : Excitation ℝ V3} (h0 : Excitation.new M .threeD inXZ = some x0) (cs : List (Excitation.Call ℝ V3))
    (h3d : ∃ p ∈ M.points, p.y ≠ 0) {env : SolveEnv} (he : FaithfulEnv env (x0.calls G cs)) {f : PyObj} (hf : (x0.calls G cs).solveField G env = some f) :
    ∃ (exc : String → Option (ExcType × ExcVal ℝ V3)) (F : Field3DBEM), f = .threeD F ∧
      (∀ n, exc n = lastAssigned (cs.flatMap (granted M .threeD)) n) ∧
      (∀ n tv, exc n = some tv → ∃ m ∈ parts, n ∈ m.physLines.keys ∨ n ∈ m.physTris.keys) ∧
      ((∃ n tv, exc n = some tv ∧ (tv.1 = .voltageFixed ∨ tv.1 = .voltageFun)) → Realizes3d G parts exc .electrostatic F.elec) ∧
      ((∃ n tv, exc n = some tv ∧ tv.1 = .magnetostaticPot) → Realizes3d G parts exc .magnetostatic F.mag) := by
  obtain ⟨M', hM', hv, _, hn, _, hm, k1, k2⟩ := parts_sum hG hS hE hp
  rw [hM] at hM'
  cases hM'
  obtain ⟨b1, b2, b3, b4, b5, b6⟩ := C32_boundary_mesh (G := G) hv h0 cs
  obtain ⟨a1, a2, a3⟩ := C32_history (G := G) hv h0 cs
  obtain ⟨c1, _⟩ := calls_facts (G := G) hv h0 cs
  obtain ⟨F, rfl, d1, _, d2, _⟩ := C80_threeD hv h0 cs rfl h3d he hf
  have hturn : ∀ k : Nat, (x0.calls G cs).mesh.triangles[k]? = M.triangles[k]? ∨ (x0.calls G cs).mesh.triangles[k]? = (M.triangles[k]?).map Spec.revTri :=
    fun k => (b6 k).imp id (·.2)
  refine ⟨fun n => (x0.calls G cs).types.get n, F, rfl, a1, fun n tv h => ?_, fun ⟨n, tv, h, ht⟩ => ?_, fun ⟨n, tv, h, ht⟩ => ?_⟩
  · rcases (a3 n tv (Dict.mem_of_get h)).1 with h | h
    · obtain ⟨m, hm, h⟩ := (k1 n).1 h; exact ⟨m, hm, .inl h⟩
    · obtain ⟨m, hm, h⟩ := (k2 n).1 h; exact ⟨m, hm, .inr h⟩
  · refine realizes3d hv hn hm b1 c1 b2 b4 hturn (d1 ?_)
    unfold isElectrostatic
    rw [List.any_eq_true]
    exact ⟨(n, tv), Dict.mem_of_get h, by simpa using ht⟩
  · refine realizes3d hv hn hm b1 c1 b2 b4 hturn (d2 ?_)
    unfold isMagnetostatic
    rw [List.any_eq_true]
    exact ⟨(n, tv), Dict.mem_of_get h, by simp [ht]⟩

end Traceon
