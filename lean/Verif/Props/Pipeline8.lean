import Verif.Props.Pipeline4
import Verif.Props.FewLines

/-!
# C91 in radial symmetry for any number of lines and threads
-/
namespace Traceon
open Spec Excitation
variable {G : Geo V3}

/-- **C91**, from the solution of an excitation to the parts its mesh was made of, radial symmetry. -/
theorem realizesRadialOn (hG : G.Lawful) (hE : ∀ p q, G.eq p q = true ↔ p = q) {parts : List (Mesh V3)} {M : Mesh V3} (hv : Valid M) (hn : NamedOnce M.physLines)
    (hm : ∀ n, Matches (fun a b => b = a ∨ b = Spec.revLine a) (namedLines parts n) ((lineGroup M n).getD [])) {x x' : Excitation ℝ V3} (hxv : Valid x.mesh)
    (hsym : x.symmetry = .radial) (hpts : x.mesh.points = M.points) (hphys : x.mesh.physLines = M.physLines)
    (hturn : ∀ k : Nat, x.mesh.lines[k]? = M.lines[k]? ∨ x.mesh.lines[k]? = (M.lines[k]?).map Spec.revLine) (hx' : x.upgraded G = some x') {s : Statics} {coils : EffCharges V3}
    {e : EffCharges (ℝ × ℝ)} {T : Int} (hs : SolvesRadialOn T x' s coils e) : RealizesRadialOn T G parts (fun n => x.types.get n) s coils e := by
  unfold upgraded at hx'
  obtain ⟨m', hm', rfl⟩ := Option.map_eq_some_iff.1 hx'
  obtain ⟨s1, s2, s3, s4⟩ := Pipe.solver_lines hG hE hxv hm'
  obtain ⟨idx, ls, q, rfl, h1, h2, h3, h4, h5⟩ := hs
  have hph : ({ x with mesh := m' } : Excitation ℝ V3).physicals = M.physLines := by unfold physicals; simp only [hsym, if_true, s2, hphys]
  obtain ⟨hlen, hts⟩ := Pipe.turned_shapes (rev := Spec.revLine) (revN := Spec.revLine) (pts := M.points) (fun e he => coords_revLine (hv.lines e he).2) hturn
  have hb : ∀ n g, M.physLines.get n = some g → ∀ i ∈ g, i < M.lines.length := fun n g hg => hv.groupLines _ (Dict.mem_of_get hg)
  obtain ⟨pos, p1, p2⟩ := Pipe.positions (d := M.physLines) hn (N := M.lines.length) hb h3 (kind := HasKind x s) (by
    intro i
    rw [h4, s3, hlen, excited_iff, hph]
    rfl)
  refine ⟨ls, q, pos, rfl, h2.trans h1.symm, ?_, ?_⟩
  · intro n tv htv htc
    obtain ⟨q1, q2⟩ := p1 n ⟨tv, htv, htc⟩
    refine ⟨q1, ?_⟩
    have hA : Matches (fun a (i : Nat) => ∃ b, (x.mesh.lines.map (coords M.points))[i]? = some b ∧ (b = a ∨ b = Spec.revLine a)) (namedLines parts n) ((M.physLines.get n).getD []) := by
      have h := hm n
      cases hg : M.physLines.get n with
      | none => simpa [lineGroup, hg, Matches] using h
      | some g =>
        have e1 : (lineGroup M n).getD [] = g.filterMap (fun i => (lineShapes M)[i]?) := by simp [lineGroup, hg]
        rw [e1] at h
        exact Pipe.turned_group Pipe.revLine_twice (by simp [lineShapes, hlen]) hts (by simpa [lineShapes] using hb n g hg) h
    have hB := Pipe.numbers_of_group (shapes' := lineShapes m') (R := LineOf G.trunc) (by simp [lineShapes, s3]) (by
      intro k b hb
      have := s4 k b hb
      rwa [show lineShapes x.mesh = x.mesh.lines.map (coords M.points) by unfold lineShapes; rw [hpts]] at this) hA
    refine ⟨hA.1.trans q2.1, fun j a k ha hk => ?_⟩
    have hj : j < ((M.physLines.get n).getD []).length := by rw [← hA.1]; exact (List.getElem?_eq_some_iff.1 ha).1
    have hi := List.getElem?_eq_getElem hj
    obtain ⟨b, c, hc1, hb2, hR⟩ := hB.2 j a _ ha hi
    have hk' := q2.2 j _ k hi hk
    obtain ⟨⟨a0, b0, c0, d0, l, l1, l2, l3, l4, l5, l6⟩, hc⟩ := h5 k _ hk'
    refine ⟨⟨l, l6, ?_⟩, ?_⟩
    · have : c = [l.l0, l.l1, l.l2, l.l3] := by
        unfold lineShapes at hc1
        rw [List.getElem?_map, l1] at hc1
        simp only [Option.map_some, Option.some.injEq] at hc1
        rw [← hc1]
        simp [coords, l2, l3, l4, l5]
      rw [← this]
      exact Pipe.lineOf_trans hb2 hR
    · have himem : ((M.physLines.get n).getD [])[j] ∈ (M.physLines.get n).getD [] := List.getElem_mem hj
      cases hg : M.physLines.get n with
      | none => simp [hg] at hj
      | some g =>
        simp only [hg, Option.getD_some] at himem hc ⊢
        refine hc n tv (decides_of_unique (x := { x with mesh := m' }) s1 (g := g) (by rw [hph]; exact hg) himem ⟨tv, htv, htc⟩ ?_) htv
        intro n' g' hg' _ hi'
        by_contra hne
        rw [hph] at hg'
        exact hn.apart n n' g g' hg hg' (Ne.symm hne) _ himem hi'
  · intro k hk
    obtain ⟨n, ⟨tv, t1, t2⟩, hk', hu⟩ := p2 k (by omega)
    exact ⟨n, tv, t1, t2, hk', fun n' tv' a b c => hu n' ⟨tv', a, b⟩ c⟩

/-- **C91**, radial symmetry: the same for the lines of the parts. `x'` is the excitation on the mesh used for solving, straight lines have become curved ones with the points at one and two
thirds (see C12). The centres of its lines have `r ≥ 0`. What the lines do is stated by `RealizesRadialOn`: the lines whose rows no thread computes
do what their excitation asks for as if they were alone (C36). -/
theorem C91_radial (hG : G.Lawful) (hS : G.Stable) (hE : ∀ p q, G.eq p q = true ↔ p = q) {parts : List (Mesh V3)} (hp : Parts G parts) {M : Mesh V3}
    (hM : parts.foldlM (Mesh.add G) {} = some M) {inXZ : V3 → Bool} (hxz : ∀ p, inXZ p = true ↔ p.y = 0) {x0 x' : Excitation ℝ V3} (h0 : Excitation.new M .radial inXZ = some x0)
    (cs : List (Excitation.Call ℝ V3)) (hx' : (x0.calls G cs).upgraded G = some x') {env : SolveEnv} (he : FaithfulEnv env x')
    (hplane : ∀ e ∈ x'.mesh.lines, ∀ l, toLine4 (coords x'.mesh.points e) = some l → 0 ≤ (elemPoint l 0).x) {f : PyObj} (hf : (x0.calls G cs).solveField G env = some f) :
    ∃ (exc : String → Option (ExcType × ExcVal ℝ V3)) (F : FieldRadialBEM), f = .radial F ∧
      (∀ n, exc n = lastAssigned (cs.flatMap (granted M .radial)) n) ∧
      (∀ n tv, exc n = some tv → ∃ m ∈ parts, n ∈ m.physLines.keys ∨ n ∈ m.physTris.keys) ∧
      ((∃ n tv, exc n = some tv ∧ (tv.1 = .voltageFixed ∨ tv.1 = .voltageFun)) → RealizesRadialOn env.threads G parts exc .electrostatic .empty3d F.elec) ∧
      ((∃ n tv, exc n = some tv ∧ (tv.1 = .magnetostaticPot ∨ tv.1 = .current)) → x'.currentCharges = some F.cur ∧ RealizesRadialOn env.threads G parts exc .magnetostatic F.cur F.mag) := by
  obtain ⟨M', hM', hv, hn, _, hm, _, k1, k2⟩ := parts_sum hG hS hE hp
  rw [hM] at hM'
  cases hM'
  obtain ⟨b1, b2, b3, b4, b5, b6⟩ := C32_boundary_mesh (G := G) hv h0 cs
  obtain ⟨a1, a2, a3⟩ := C32_history (G := G) hv h0 cs
  obtain ⟨c1, _⟩ := calls_facts (G := G) hv h0 cs
  obtain ⟨_, F, rfl, d1, _, d2, _⟩ := C80_radial hG hv hxz h0 cs rfl hx' he hplane hf
  have hturn : ∀ k : Nat, (x0.calls G cs).mesh.lines[k]? = M.lines[k]? ∨ (x0.calls G cs).mesh.lines[k]? = (M.lines[k]?).map Spec.revLine :=
    fun k => (b5 k).imp id (·.2)
  refine ⟨fun n => (x0.calls G cs).types.get n, F, rfl, a1, fun n tv h => ?_, fun ⟨n, tv, h, ht⟩ => ?_, fun ⟨n, tv, h, ht⟩ => ?_⟩
  · rcases (a3 n tv (Dict.mem_of_get h)).1 with h | h
    · obtain ⟨m, hm, h⟩ := (k1 n).1 h; exact ⟨m, hm, .inl h⟩
    · obtain ⟨m, hm, h⟩ := (k2 n).1 h; exact ⟨m, hm, .inr h⟩
  · refine realizesRadialOn hG hE hv hn hm b1 c1 b2 b3 hturn hx' (d1 ?_)
    unfold isElectrostatic
    rw [List.any_eq_true]
    exact ⟨(n, tv), Dict.mem_of_get h, by simpa using ht⟩
  · have h := d2 (by
      unfold isMagnetostatic
      rw [List.any_eq_true]
      exact ⟨(n, tv), Dict.mem_of_get h, by simpa using ht⟩)
    exact ⟨h.1, realizesRadialOn hG hE hv hn hm b1 c1 b2 b3 hturn hx' h.2⟩

end Traceon
