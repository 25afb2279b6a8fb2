import Verif.Props.TracerSymmetry4
import Verif.Props.Similar8

/-!
# C89 and C90: reflected radially symmetric problems
-/
namespace Traceon
open Spec Excitation

/-- The reflection in the plane `z = c`. -/
def mirrorAt (c : ℝ) : RigidMotion where
  lin := fun v => ⟨v.x, v.y, -v.z⟩
  shift := ⟨0, 0, 2 * c⟩
  sign := -1
  add := fun a b => by ext <;> simp; ring
  smul := fun k a => by ext <;> simp
  dot := fun a b => by simp [V3.dot]
  cross := fun a b => by ext <;> simp [V3.cross] <;> ring
  sign_eq := Or.inr rfl

theorem mirrorAt_move (c : ℝ) (p : V3) : (mirrorAt c).move p = ⟨p.x, p.y, 2 * c - p.z⟩ := by
  unfold RigidMotion.move mirrorAt
  ext <;> simp
  ring

variable {f : PyObj}

/-- **C90**, reflected radially symmetric problems: if a problem without magnetic excitations is reflected in the plane `z = c`, then the electron that starts in the reflected state has the reflected trajectory, row by row and at the same times. -/
theorem C90_mirror {G : Geo V3} {x : Excitation ℝ V3} {env env' : SolveEnv} (c : ℝ) (hG : G.Lawful)
    (hv : Valid x.mesh) (hn : x.types.keys.Nodup) (h3 : x.symmetry = .radial) (hl : x.mesh.lineCols = 4) (hy : ∀ p ∈ x.mesh.points, p.y = 0)
    (he : FaithfulEnv env x) (he' : FaithfulEnv env' ((Similarity.mirror c).excitation x)) (hE : EnoughLines env x) (hE' : EnoughLines env' ((Similarity.mirror c).excitation x))
    (hm : x.isMagnetostatic = false) (hf : x.solveField G env = some f) :
    ∃ f', ((Similarity.mirror c).excitation x).solveField G env' = some f' ∧ ∀ (bx by' : ℝ × ℝ) (z₁ z₂ e m atol : ℝ) (B fuel : Nat) (p v : V3),
      f'.trace none e m (bx, by', (2 * c - z₂, 2 * c - z₁)) atol B fuel ⟨p.x, p.y, 2 * c - p.z⟩ ⟨v.x, v.y, -v.z⟩ =
        (f.trace none e m (bx, by', (z₁, z₂)) atol B fuel p v).map (List.map fun row =>
          (row.1, ⟨⟨row.2.pos.x, row.2.pos.y, 2 * c - row.2.pos.z⟩, ⟨row.2.vel.x, row.2.vel.y, -row.2.vel.z⟩⟩)) := by
  obtain ⟨f', h1, h2⟩ := C86_mirror c hG hv hn h3 hl hy he he' hE hE' hf
  refine ⟨f', h1, fun bx by' z₁ z₂ e m atol B fuel p v => ?_⟩
  have hR : (mirrorAt c).KeepsAxes := fun v => by simp [mirrorAt]
  have hone : ∀ w : V3, ((1 : ℝ) ^ 2 : ℝ) * w = w := fun w => by ext <;> simp
  have := C90_fields (R := mirrorAt c) (κ := 1) (bounds := (bx, by', (z₁, z₂))) (bounds' := (bx, by', (2 * c - z₂, 2 * c - z₁))) hR one_pos (solveField_bem hf) (solveField_bem h1)
    (fun q => by
      rw [mirrorAt_move, (h2 q).2.1]
      cases f.electrostaticField q with
      | none => rfl
      | some E => simp only [Option.map_some, Option.some.injEq, hone]; rfl)
    (fun q => by
      rw [mirrorAt_move, (h2 q).2.2, solveField_nonmagnetic hm hf]
      simp only [Option.map_some, Option.some.injEq]
      ext <;> simp [mirrorAt])
    (fun q => by
      rw [mirrorAt_move]
      unfold InBox
      simp only
      constructor <;> rintro ⟨a, b, c1, c2⟩ <;> exact ⟨a, b, by linarith, by linarith⟩) e m atol B fuel p v
  rw [hone, mirrorAt_move] at this
  refine this.trans ?_
  congr 2
  funext row
  unfold movedRow
  rw [mirrorAt_move, div_one]
  congr 2
  show (1 : ℝ) * (⟨row.2.vel.x, row.2.vel.y, -row.2.vel.z⟩ : V3) = _
  ext <;> simp

/-- **C89**, radially symmetric problems with a plane of symmetry: if the problem (without magnetic excitations) is its own mirror image in the plane `z = c`, then an electron that starts in this plane, moving along it, stays in it. -/
theorem C89_mirror {G : Geo V3} {x : Excitation ℝ V3} {env : SolveEnv} {c : ℝ} {σ : Statics → Nat → Nat} (hG : G.Lawful)
    (hv : Valid x.mesh) (hn : x.types.keys.Nodup) (h3 : x.symmetry = .radial) (hl : x.mesh.lineCols = 4) (hy : ∀ p ∈ x.mesh.points, p.y = 0)
    (h : ∀ s, SameRadial (Similarity.mirror c) (σ s) x x s) (hc : SameCoils (Similarity.mirror c) x x) (he : FaithfulEnv env x) (hE : EnoughLines env x)
    (hm : x.isMagnetostatic = false) (hf : x.solveField G env = some f) (e m : ℝ) (bounds : Bounds) (atol : ℝ) (B fuel : Nat) (p v : V3) (hp : p.z = c) (hvel : v.z = 0)
    {rows : List Row} (hr : f.trace none e m bounds atol B fuel p v = some rows) : ∀ r ∈ rows, r.2.pos.z = c ∧ r.2.vel.z = 0 := by
  obtain ⟨F, hF, hr⟩ := trace_eq hr
  obtain ⟨F', hF', hforce⟩ := tracerForce_eq (solveField_bem hf)
  rw [hF', Option.some.injEq] at hF
  subst hF
  have hW : Directions fun v : V3 => v.z = 0 := ⟨rfl, fun a b ha hb => by simp [ha, hb], fun k a ha => by simp [ha]⟩
  have := C89_stays (c := p) (field := F') hW (fun q w hq _ => ?_) bounds atol B fuel p _ (by simp) (convert_direction hW e m hvel) hr
  · intro r hr
    obtain ⟨a, b⟩ := this r hr
    simp only [V3.sub_z] at a
    exact ⟨by linarith, b⟩
  · obtain ⟨E, M, a, b, d⟩ := hforce ⟨q, w⟩
    simp only at a b d
    rw [solveField_nonmagnetic hm hf, Option.some.injEq] at b
    subst b
    rw [d]
    simp only [V3.sub_z] at hq
    have hz : E.z = 0 := by
      have hup : x.upgraded G = some x := by
        unfold upgraded Mesh.solverMesh
        rw [if_neg (by simp [Mesh.isHigherOrder, hl])]
        rfl
      obtain ⟨f', h1, h2⟩ := C86_radial (σ := σ) hG hv hv hn hn h3 h3 hup hup hy hy hl h hc (fun _ h => h) (fun _ h => h) rfl rfl he he hE hE hf
      rw [hf] at h1
      cases h1
      have b := ((h2 q).2.2.2 (Similarity.mirror_keeps _ _)).1
      rw [Similarity.mirror_move, a] at b
      have hq' : (⟨q.x, q.y, 2 * c - q.z⟩ : V3) = q := by
        ext <;> simp
        linarith
      rw [hq', a, Option.map_some, Option.some.injEq, Similarity.mirror_vec] at b
      have := congrArg V3.z b
      simp only at this
      linarith
    simp [V3.cross, hz]

/-- **C90**: the hypotheses of `C90_mirror` are met by a disc at 10 V, reflected in the plane `z = 3`. -/
theorem C90_mirror_example (G : Geo V3) (hG : G.Lawful) : ∃ env env' f f', discExc.solveField G env = some f ∧ ((Similarity.mirror 3).excitation discExc).solveField G env' = some f' ∧
    ∀ (e m atol : ℝ) (B fuel : Nat) (p v : V3), f'.trace none e m ((-1, 1), (-1, 1), (-2, 4)) atol B fuel ⟨p.x, p.y, 6 - p.z⟩ ⟨v.x, v.y, -v.z⟩ =
        (f.trace none e m ((-1, 1), (-1, 1), (2, 8)) atol B fuel p v).map (List.map fun row =>
          (row.1, ⟨⟨row.2.pos.x, row.2.pos.y, 6 - row.2.pos.z⟩, ⟨row.2.vel.x, row.2.vel.y, -row.2.vel.z⟩⟩)) := by
  obtain ⟨env, env', f, h1, h2, h3, h4, h5, -, h6, h7, h8, h9, h10⟩ := C86_example G (Similarity.mirror 3) (by simp [Similarity.mirror])
  obtain ⟨f', h11, h12⟩ := C90_mirror 3 hG h1 h2 h3 h4 h5 h6 h7 h8 h9 rfl h10
  refine ⟨env, env', f, f', h10, h11, fun e m atol B fuel p v => ?_⟩
  have := h12 (-1, 1) (-1, 1) 2 8 e m atol B fuel p v
  norm_num at this
  exact this

/-- **C89**: the hypotheses of `C89_mirror` are met by a disc at 10 V between two surfaces that are each other's mirror image. -/
example (G : Geo V3) (hG : G.Lawful) : ∃ env f, symExc.solveField G env = some f ∧ ∀ (e m : ℝ) (bounds : Bounds) (atol : ℝ) (B fuel : Nat) (rows : List Row),
    f.trace none e m bounds atol B fuel ⟨5, 0, 0⟩ ⟨3, 4, 0⟩ = some rows → ∀ r ∈ rows, r.2.pos.z = 0 ∧ r.2.vel.z = 0 := by
  obtain ⟨env, f, h1, h2, h3, h4, h5, h6, h7, h8, h9, h10⟩ := C86_symmetric_example G
  exact ⟨env, f, h10, fun e m bounds atol B fuel rows hr => C89_mirror (σ := fun _ => symSwap) hG h1 h2 h3 h4 h5 h6 h7 h8 h9 rfl h10 e m bounds atol B fuel ⟨5, 0, 0⟩ ⟨3, 4, 0⟩ rfl rfl hr⟩

end Traceon
