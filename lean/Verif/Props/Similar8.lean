import Verif.Props.Similar7

/-!
# C86: reflections, and problems with a plane of symmetry
-/
namespace Traceon
open Spec Excitation V3

/-- The reflection in the plane `z = c`. -/
def Spec.Similarity.mirror (c : ℝ) : Similarity where
  scale := 1
  shift := 2 * c
  pos := one_pos
  dir := -1
  dir_eq := Or.inr rfl

theorem Spec.Similarity.mirror_keeps (c r : ℝ) : (Similarity.mirror c).KeepsAxis r := by
  unfold Similarity.KeepsAxis Similarity.mirror
  simp

theorem Spec.Similarity.mirror_move (c : ℝ) (p : V3) : (Similarity.mirror c).move p = ⟨p.x, p.y, 2 * c - p.z⟩ := by
  unfold Similarity.move Similarity.mirror
  ext <;> simp
  ring

theorem Spec.Similarity.mirror_vec (c : ℝ) (p : V3) : (Similarity.mirror c).vec p = ⟨p.x, p.y, -p.z⟩ := by
  unfold Similarity.vec Similarity.mirror
  ext <;> simp

/-- **C86**, a reflection in a plane perpendicular to the axis (with opposite currents): the potential and the field are reflected, at every point. -/
theorem C86_mirror {G : Geo V3} {x : Excitation ℝ V3} {env env' : SolveEnv} {f : PyObj} (c : ℝ) (hG : G.Lawful)
    (hv : Valid x.mesh) (hn : x.types.keys.Nodup) (h3 : x.symmetry = .radial) (hl : x.mesh.lineCols = 4) (hy : ∀ p ∈ x.mesh.points, p.y = 0)
    (he : FaithfulEnv env x) (he' : FaithfulEnv env' ((Similarity.mirror c).excitation x)) (hE : EnoughLines env x) (hE' : EnoughLines env' ((Similarity.mirror c).excitation x))
    (hf : x.solveField G env = some f) :
    ∃ f', ((Similarity.mirror c).excitation x).solveField G env' = some f' ∧ ∀ p : V3,
      f'.potentialAtPoint ⟨p.x, p.y, 2 * c - p.z⟩ = f.potentialAtPoint p ∧
      f'.electrostaticField ⟨p.x, p.y, 2 * c - p.z⟩ = (f.electrostaticField p).map (fun v : V3 => (⟨v.x, v.y, -v.z⟩ : V3)) ∧
      f'.magnetostaticField ⟨p.x, p.y, 2 * c - p.z⟩ = (f.magnetostaticField p).map (fun v : V3 => (⟨v.x, v.y, -v.z⟩ : V3)) := by
  obtain ⟨f', h1, h2⟩ := C86_similar (S := Similarity.mirror c) hG hv hn h3 hl hy ⟨fun _ _ _ => Similarity.mirror_keeps _ _, fun _ _ _ _ _ => Similarity.mirror_keeps _ _⟩ he he' hE hE' hf
  refine ⟨f', h1, fun p => ?_⟩
  obtain ⟨a, b⟩ := h2 p
  obtain ⟨b1, b2, -⟩ := b (Similarity.mirror_keeps _ _)
  rw [Similarity.mirror_move] at a b1 b2
  have hvec : (Similarity.mirror c).vec = fun v : V3 => (⟨v.x, v.y, -v.z⟩ : V3) := funext (Similarity.mirror_vec c)
  rw [hvec] at b1 b2
  exact ⟨a, b1, b2⟩

/-- **C86**, problems with a plane of symmetry: if the problem `x` is its own mirror image in the plane `z = c` (up to the numbering, naming and direction of lines), then the potential and the field
are symmetric, and on the plane the field has no axial component. -/
theorem C86_symmetric {G : Geo V3} {x : Excitation ℝ V3} {env : SolveEnv} {f : PyObj} {c : ℝ} {σ : Statics → Nat → Nat} (hG : G.Lawful)
    (hv : Valid x.mesh) (hn : x.types.keys.Nodup) (h3 : x.symmetry = .radial) (hl : x.mesh.lineCols = 4) (hy : ∀ p ∈ x.mesh.points, p.y = 0)
    (h : ∀ s, SameRadial (Similarity.mirror c) (σ s) x x s) (hc : SameCoils (Similarity.mirror c) x x) (he : FaithfulEnv env x) (hE : EnoughLines env x)
    (hf : x.solveField G env = some f) (p : V3) :
    f.potentialAtPoint ⟨p.x, p.y, 2 * c - p.z⟩ = f.potentialAtPoint p ∧
    f.fieldAtPoint ⟨p.x, p.y, 2 * c - p.z⟩ = (f.fieldAtPoint p).map (fun v : V3 => (⟨v.x, v.y, -v.z⟩ : V3)) ∧
    (p.z = c → ∀ E, f.fieldAtPoint p = some E → E.z = 0) := by
  have hup : x.upgraded G = some x := by
    unfold upgraded Mesh.solverMesh
    rw [if_neg (by simp [Mesh.isHigherOrder, hl])]
    rfl
  obtain ⟨f', h1, h2⟩ := C86_radial (σ := σ) hG hv hv hn hn h3 h3 hup hup hy hy hl h hc (fun _ h => h) (fun _ h => h) rfl rfl he he hE hE hf
  rw [hf] at h1
  cases h1
  obtain ⟨-, -, a, b⟩ := h2 p
  obtain ⟨-, -, b⟩ := b (Similarity.mirror_keeps _ _)
  rw [Similarity.mirror_move] at a b
  have hvec : (Similarity.mirror c).vec = fun v : V3 => (⟨v.x, v.y, -v.z⟩ : V3) := funext (Similarity.mirror_vec c)
  rw [hvec] at b
  refine ⟨a, b, fun hz E hE => ?_⟩
  rw [hE] at b
  have hp : (⟨p.x, p.y, 2 * c - p.z⟩ : V3) = p := by ext <;> simp; rw [hz]; ring
  rw [hp, hE] at b
  have := congrArg V3.z (Option.some.inj b)
  simp only at this
  linarith

/-- A disc at 10 V between two surfaces (of a material with relative permittivity 1) that are each other's mirror image. -/
def symMesh : Mesh V3 :=
  { points := [⟨1, 0, 0⟩, ⟨4, 0, 0⟩, ⟨2, 0, 0⟩, ⟨3, 0, 0⟩, ⟨1, 0, 1⟩, ⟨4, 0, 1⟩, ⟨2, 0, 1⟩, ⟨3, 0, 1⟩, ⟨1, 0, -1⟩, ⟨4, 0, -1⟩, ⟨2, 0, -1⟩, ⟨3, 0, -1⟩], lineCols := 4
    lines := [[0, 1, 2, 3], [4, 5, 6, 7], [9, 8, 11, 10]], physLines := [("disc", [0]), ("glass", [1, 2])] }

def symExc : Excitation ℝ V3 :=
  { mesh := symMesh, electrodes := ["disc", "glass"], symmetry := .radial, types := [("disc", .voltageFixed, .num 10), ("glass", .dielectric, .num 1)] }

theorem sym_is2d : symMesh.is2d realThirds = true := by
  unfold Mesh.is2d
  simp [symMesh, realThirds]

theorem symExc_electric : symExc.solverInit .electrostatic =
    some ⟨.lines [discLine 0, discLine 1, (discLine (-1)).turned], [some .voltageFixed, some .dielectric, some .dielectric], [10, 1, 1], .empty3d⟩ := by
  have ha : symExc.activeElements .electrostatic =
      some ([[⟨1, 0, 0⟩, ⟨4, 0, 0⟩, ⟨2, 0, 0⟩, ⟨3, 0, 0⟩], [⟨1, 0, 1⟩, ⟨4, 0, 1⟩, ⟨2, 0, 1⟩, ⟨3, 0, 1⟩], [⟨4, 0, -1⟩, ⟨1, 0, -1⟩, ⟨3, 0, -1⟩, ⟨2, 0, -1⟩]], [("disc", [0]), ("glass", [1, 2])]) := by rfl
  unfold solverInit
  rw [ha]
  have ht : ∀ centre, symExc.typesAndValues [("disc", [0]), ("glass", [1, 2])]
      [[(⟨1, 0, 0⟩ : V3), ⟨4, 0, 0⟩, ⟨2, 0, 0⟩, ⟨3, 0, 0⟩], [⟨1, 0, 1⟩, ⟨4, 0, 1⟩, ⟨2, 0, 1⟩, ⟨3, 0, 1⟩], [⟨4, 0, -1⟩, ⟨1, 0, -1⟩, ⟨3, 0, -1⟩, ⟨2, 0, -1⟩]].length centre =
      some ([some .voltageFixed, some .dielectric, some .dielectric], [10, 1, 1]) := fun _ => rfl
  simp only [Option.bind_eq_bind, Option.bind_some, ht]
  rw [show symExc.mesh = symMesh from rfl, sym_is2d]
  rfl

theorem symExc_magnetic : symExc.solverInit .magnetostatic = some ⟨.lines [], [], [], .empty3d⟩ := by
  have ha : symExc.activeElements .magnetostatic = some ([], []) := by rfl
  unfold solverInit
  rw [ha]
  have ht : ∀ centre, symExc.typesAndValues [] ([] : List (List V3)).length centre = some ([], []) := fun _ => rfl
  simp only [Option.bind_eq_bind, Option.bind_some, ht]
  rw [show symExc.mesh = symMesh from rfl, sym_is2d]
  rfl

theorem sym_valid : Valid symMesh := by
  refine ⟨Or.inr rfl, ?_, ?_, ?_, ?_, ?_, ?_⟩ <;> simp [symMesh]

theorem sym_excited (i : Nat) : Excited symExc .electrostatic i ↔ i = 0 ∨ i = 1 ∨ i = 2 := by
  unfold Excited
  constructor
  · rintro ⟨n, g, tv, h1, h2, -, -⟩
    have h3 : (n, g) ∈ [("disc", [0]), ("glass", [1, 2])] := Dict.mem_of_get h1
    simp only [List.mem_cons, Prod.mk.injEq, List.not_mem_nil, or_false] at h3
    rcases h3 with ⟨-, rfl⟩ | ⟨-, rfl⟩
    · left; simpa using h2
    · right; simpa using h2
  · rintro (rfl | rfl | rfl)
    · exact ⟨"disc", [0], (.voltageFixed, .num 10), rfl, by simp, rfl, rfl⟩
    · exact ⟨"glass", [1, 2], (.dielectric, .num 1), rfl, by simp, rfl, rfl⟩
    · exact ⟨"glass", [1, 2], (.dielectric, .num 1), rfl, by simp, rfl, rfl⟩

theorem sym_kind_mag (n : String) : ¬HasKind symExc .magnetostatic n := by
  rintro ⟨tv, h3, h4⟩
  have := Dict.mem_of_get h3
  simp only [symExc, List.mem_cons, Prod.mk.injEq, List.not_mem_nil, or_false] at this
  rcases this with ⟨-, rfl⟩ | ⟨-, rfl⟩ <;> cases h4

theorem sym_excited_mag (i : Nat) : ¬Excited symExc .magnetostatic i := by
  rintro ⟨n, g, tv, -, -, h3, h4⟩
  exact sym_kind_mag n ⟨tv, h3, h4⟩

theorem sym_decides {n : String} {i : Nat} (h : Decides symExc .electrostatic n i) : (i = 0 ∧ n = "disc") ∨ ((i = 1 ∨ i = 2) ∧ n = "glass") := by
  obtain ⟨pre, g, post, h1, h2, -⟩ := h
  have h3 : (n, g) ∈ [("disc", [0]), ("glass", [1, 2])] := by
    show (n, g) ∈ symExc.physicals
    rw [h1]; simp
  simp only [List.mem_cons, Prod.mk.injEq, List.not_mem_nil, or_false] at h3
  rcases h3 with ⟨rfl, rfl⟩ | ⟨rfl, rfl⟩
  · left; exact ⟨by simpa using h2, rfl⟩
  · right; exact ⟨by simpa using h2, rfl⟩

/-- The lines 1 and 2 are each other's mirror image. -/
def symSwap (i : Nat) : Nat := if i = 1 then 2 else if i = 2 then 1 else i

theorem sym_lineAt {i : Nat} {l : Line4} (h : lineAt symExc.mesh i = some l) : (i = 0 ∧ l = discLine 0) ∨ (i = 1 ∧ l = discLine 1) ∨ (i = 2 ∧ l = (discLine (-1)).turned) := by
  match i, h with
  | 0, h => left; exact ⟨rfl, (Option.some.inj h).symm⟩
  | 1, h => right; left; exact ⟨rfl, (Option.some.inj h).symm⟩
  | 2, h => right; right; exact ⟨rfl, (Option.some.inj h).symm⟩
  | i + 3, h => cases h

theorem mirror_disc (z : ℝ) : (Similarity.mirror 0).line (discLine z) = discLine (-z) := by
  simp only [Similarity.line, Similarity.mirror_move, discLine]
  norm_num

theorem mirror_turned (c : ℝ) (l : Line4) : (Similarity.mirror c).line l.turned = ((Similarity.mirror c).line l).turned := rfl

theorem turned_turned (l : Line4) : l.turned.turned = l := rfl

theorem sym_same (s : Statics) : SameRadial (Similarity.mirror 0) symSwap symExc symExc s := by
  cases s with
  | magnetostatic =>
    refine ⟨fun i _ h => absurd h (sym_excited_mag i), fun i j _ h => absurd h (sym_excited_mag i), fun i _ h => absurd h (sym_excited_mag i), fun i l _ h => absurd h (sym_excited_mag i), ?_, ?_⟩
    · rintro i n tv l ⟨_, _, _, _, _, h, _⟩
      exact absurd h (sym_kind_mag n)
    · rintro i n n' tv tv' ⟨_, _, _, _, _, h, _⟩
      exact absurd h (sym_kind_mag n)
  | electrostatic =>
    refine ⟨?_, ?_, ?_, ?_, ?_, ?_⟩
    · intro i _ h
      rw [sym_excited] at h ⊢
      rcases h with rfl | rfl | rfl <;> refine ⟨?_, by simp [symSwap]⟩ <;> simp [symSwap, symExc, symMesh]
    · intro i j _ h _ h' e
      rw [sym_excited] at h h'
      rcases h with rfl | rfl | rfl <;> rcases h' with rfl | rfl | rfl <;> simp [symSwap] at e ⊢
    · intro j h0 h
      have h' := h
      rw [sym_excited] at h
      rcases h with rfl | rfl | rfl
      · exact ⟨0, h0, h', rfl⟩
      · exact ⟨2, by simp [symExc, symMesh], (sym_excited 2).2 (by simp), rfl⟩
      · exact ⟨1, by simp [symExc, symMesh], (sym_excited 1).2 (by simp), rfl⟩
    · intro i l _ _ h
      rcases sym_lineAt h with ⟨rfl, rfl⟩ | ⟨rfl, rfl⟩ | ⟨rfl, rfl⟩
      · left; rw [mirror_disc, neg_zero]; rfl
      · right; rw [mirror_disc]; rfl
      · right; rw [mirror_turned, mirror_disc, neg_neg]; rfl
    · intro i n tv l hd ht hm h
      refine ⟨?_, Similarity.mirror_keeps _ _⟩
      rcases sym_lineAt h with ⟨rfl, rfl⟩ | ⟨rfl, rfl⟩ | ⟨rfl, rfl⟩
      · rcases sym_decides hd with ⟨-, rfl⟩ | ⟨h, -⟩
        · cases ht; simp at hm
        · omega
      · exact ⟨(discLine (-1)).turned, rfl, Or.inr ⟨rfl, by rw [mirror_disc]⟩⟩
      · exact ⟨discLine 1, rfl, Or.inr ⟨rfl, by rw [mirror_turned, mirror_disc, neg_neg]; rfl⟩⟩
    · intro i n n' tv tv' hd ht hd' ht'
      have hnn : n' = n := by
        rcases sym_decides hd with ⟨rfl, rfl⟩ | ⟨rfl | rfl, rfl⟩ <;> rcases sym_decides hd' with ⟨h, rfl⟩ | ⟨h, rfl⟩ <;> first | rfl | (simp [symSwap] at h)
      subst hnn
      rw [ht] at ht'
      cases ht'
      refine ⟨rfl, ?_⟩
      have := Dict.mem_of_get ht
      simp only [symExc, List.mem_cons, Prod.mk.injEq, List.not_mem_nil, or_false] at this
      rcases this with ⟨-, rfl⟩ | ⟨-, rfl⟩ <;> rfl

theorem sym_enough {env : SolveEnv} (h : env.threads = 1) : EnoughLines env symExc := by
  intro _ s hs
  cases s with
  | electrostatic =>
    refine ⟨[0, 1, 2], by simp, ?_, by rw [h]; simp⟩
    intro i hi
    have : i = 0 ∨ i = 1 ∨ i = 2 := by simpa using hi
    refine ⟨?_, (sym_excited i).2 this⟩
    show i < 3
    omega
  | magnetostatic =>
    obtain ⟨i, -, hi⟩ := hs
    exact absurd hi (sym_excited_mag i)

theorem turned_plane {l : Line4} (h : InHalfPlane l) : InHalfPlane l.turned := by
  have h1 := elemPoint_linePos l.turned 0
  rw [pos_reverse, neg_zero, elemPoint_linePos] at h1
  refine ⟨⟨h.1.2.1, h.1.1, h.1.2.2.2, h.1.2.2.1⟩, ?_⟩
  rw [← (Prod.mk.inj h1).1]
  exact h.2

theorem sym_solves (G : Geo V3) {env : SolveEnv} (he : FaithfulEnv env symExc) (hE : EnoughLines env symExc) : ∃ f, symExc.solveField G env = some f := by
  have hup : symExc.upgraded G = some symExc := by
    unfold upgraded Mesh.solverMesh
    rw [if_neg (by simp [Mesh.isHigherOrder, symExc, symMesh])]
    rfl
  have hn : symExc.types.keys.Nodup := by simp [symExc, Dict.keys]
  have hM := (matrixReady (x := symExc) sym_valid hn he hE symExc_electric).1
  unfold solveField
  rw [hup]
  have e1 : symExc.isElectrostatic = true := rfl
  have e2 : symExc.isMagnetostatic = false := rfl
  simp only [Option.bind_eq_bind, Option.bind_some, e1, e2, if_true, Bool.false_eq_true, if_false]
  unfold solveStatics
  rw [symExc_electric]
  simp only [Option.bind_eq_bind, Option.bind_some]
  obtain ⟨A, hA, hp⟩ := matrix_lines (ls := [discLine 0, discLine 1, (discLine (-1)).turned]) rfl hM (by simp)
  have hq : ∃ q, SolverState.charges ⟨.lines [discLine 0, discLine 1, (discLine (-1)).turned], [some .voltageFixed, some .dielectric, some .dielectric], [10, 1, 1], .empty3d⟩ env .electrostatic = some q ∧ q.length = 3 := by
    unfold SolverState.charges
    rw [if_neg (by simp [SolverState.size]), hA]
    simp only [Option.bind_eq_bind, Option.bind_some]
    unfold linSolve
    rw [if_neg]
    · exact ⟨_, rfl, by simp [SolverState.size]⟩
    · show Matrix.det (Matrix.of fun i j : Fin 3 => A i j) ≠ 0
      rw [Matrix.det_fin_three]
      simp only [Matrix.of_apply, Fin.val_zero, Fin.val_one, Fin.val_two]
      have a00 : A 0 0 = ∫ α in (-1 : ℝ)..1, selfPotentialRadial α (discLine 0) := by
        rw [hp 0 0 (by simp) (by simp)]
        simp [entryRadial, diagRadial]
      have off : ∀ i j, (i = 1 ∨ i = 2) → j < 3 → i ≠ j → A i j = 0 := by
        rintro i j (rfl | rfl) hj hij <;>
        · rw [hp _ j (by simp) (by simpa using hj)]
          unfold entryRadial
          rw [if_neg hij, entryRadial_flux (Or.inl (by simp))]
          simp [fluxDensityToChargeFactor]
      have a11 : A 1 1 = -1 := by
        rw [hp 1 1 (by simp) (by simp)]
        unfold entryRadial
        rw [if_pos rfl, diagRadial_flux (Or.inl (by simp)) (by simpa using disc_plane 1)]
        simp [fluxDensityToChargeFactor]
      have a22 : A 2 2 = -1 := by
        rw [hp 2 2 (by simp) (by simp)]
        unfold entryRadial
        rw [if_pos rfl, diagRadial_flux (Or.inl (by simp)) (by simpa using turned_plane (disc_plane (-1)))]
        simp [fluxDensityToChargeFactor]
      rw [a00, a11, a22, off 1 0, off 1 2, off 2 0, off 2 1] <;> try omega
      have := disc_self 0
      simp only [mul_zero, zero_mul, sub_zero, add_zero]
      nlinarith
  obtain ⟨q, hq, hlen⟩ := hq
  unfold SolverState.solve
  rw [hq]
  simp only [Option.bind_eq_bind, Option.bind_some]
  unfold EffCharges.new
  rw [if_pos]
  · exact ⟨_, rfl⟩
  · refine ⟨by simp [hlen], ?_, by simp [hlen], ?_⟩ <;> simp [lineJacRow, linePosRow, gaussRule]

/-- **C86**: the hypotheses of `C86_symmetric` are met by a disc at 10 V between two surfaces. -/
theorem C86_symmetric_example (G : Geo V3) : ∃ env f, Valid symExc.mesh ∧ symExc.types.keys.Nodup ∧ symExc.symmetry = .radial ∧ symExc.mesh.lineCols = 4 ∧ (∀ p ∈ symExc.mesh.points, p.y = 0) ∧
    (∀ s, SameRadial (Similarity.mirror 0) symSwap symExc symExc s) ∧ SameCoils (Similarity.mirror 0) symExc symExc ∧ FaithfulEnv env symExc ∧ EnoughLines env symExc ∧
    symExc.solveField G env = some f := by
  have hn : symExc.types.keys.Nodup := by simp [symExc, Dict.keys]
  have hlines : ∀ s st, symExc.solverInit s = some st → ∃ ls, st.elems = .lines ls := by
    intro s st hst
    cases s
    · rw [symExc_electric] at hst; cases hst; exact ⟨_, rfl⟩
    · rw [symExc_magnetic] at hst; cases hst; exact ⟨_, rfl⟩
  obtain ⟨env, ht, he⟩ := exists_env hlines
  obtain ⟨f, hf⟩ := sym_solves G he (sym_enough ht)
  refine ⟨env, f, sym_valid, hn, rfl, rfl, by simp [symExc, symMesh], sym_same, ⟨fun i => rfl, rfl, rfl, by simp [symExc], fun i t h => by cases h⟩, he, sym_enough ht, hf⟩

end Traceon
