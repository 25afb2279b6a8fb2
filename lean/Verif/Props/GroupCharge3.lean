import Verif.Props.GroupCharge2
import Verif.Props.Similar7
import Verif.Props.Linear4
/-! **C87**: concrete cases which meet the hypotheses. -/
namespace Traceon
open Spec Excitation

/-- The plate at 10 V is solved, has a charge, and that charge is the one of the field far away. -/
theorem C87_example (G : Geo V3) : ∃ x env f q, FaithfulEnv env x ∧ x.solveField G env = some f ∧ x.types.get "plate" = some (.voltageFixed, .num 10) ∧
    groupCharge x f "plate" = some q ∧ Filter.Tendsto (fun p => 4 * Real.pi * V3.norm p * (f.electrostaticPotential p).getD 0) far (nhds q) := by
  obtain ⟨x0, x, env, f, hv, h0, hx, h3, he, hf⟩ := C80_example G (fun _ => true)
  have hx0 : x0 = { mesh := plateMesh, electrodes := ["plate"], symmetry := .threeD } := by
    have : Excitation.new plateMesh .threeD (fun _ => true) = some ({ mesh := plateMesh, electrodes := ["plate"], symmetry := .threeD } : Excitation ℝ V3) := by
      unfold Excitation.new
      rw [if_neg (by simp)]
      rfl
    rw [this] at h0
    exact (Option.some.inj h0).symm
  have hxe : x = plateExc := by rw [hx, hx0]; rfl
  have hel : x.isElectrostatic := by rw [hxe]; simp [isElectrostatic, plateExc]
  have hkind : HasKind x .electrostatic "plate" := by rw [hxe]; exact ⟨_, rfl, rfl⟩
  obtain ⟨ex, σ, hnd, hmem, -, hq, hfar⟩ := C87_threeD hv h0 _ hx h3 he hf hel
  have hg : x.mesh.physTris.get "plate" = some [0] := by rw [hxe]; rfl
  have hex : ex = [0] := by
    have hm : ∀ i, i ∈ ex ↔ i = 0 := by
      intro i
      rw [hmem]
      constructor
      · rintro ⟨h, -⟩
        rw [hxe] at h
        simpa [plateExc, plateMesh] using h
      · rintro rfl
        refine ⟨by rw [hxe]; simp [plateExc, plateMesh], "plate", [0], (.voltageFixed, .num 10), ?_, List.mem_cons_self .., ?_⟩
        · rw [hxe]; rfl
        · rw [hxe]; exact ⟨rfl, rfl⟩
    match ex, hnd, hm with
    | [], _, hm => exact absurd ((hm 0).2 rfl) List.not_mem_nil
    | [a], _, hm => rw [(hm a).1 (List.mem_cons_self ..)]
    | a :: b :: l, hnd, hm =>
      have h1 := (hm a).1 (List.mem_cons_self ..)
      have h2 := (hm b).1 (List.mem_cons_of_mem _ (List.mem_cons_self ..))
      rw [h1, h2] at hnd
      simp at hnd
  have h1 := hq "plate" [0] hg hkind
  refine ⟨x, env, f, _, he, hf, by rw [hxe]; rfl, h1, ?_⟩
  have := hfar ["plate"] (by simpa using hkind) (by simp [hg, hex])
  simpa [h1] using this

/-- The disc at 10 V beside a dielectric, in radial symmetry: both groups have a charge, and together they have that of the field far away. -/
theorem C87_example_radial (G : Geo V3) (hG : G.Lawful) (inXZ : V3 → Bool) (hxz : ∀ p, inXZ p = true ↔ p.y = 0) : ∃ x env f q₁ q₂ L, FaithfulEnv env x ∧ x.solveField G env = some f ∧
    x.types.get "disc" = some (.voltageFixed, .num 10) ∧ x.types.get "glass" = some (.dielectric, .num 1) ∧ groupCharge x f "disc" = some q₁ ∧ groupCharge x f "glass" = some q₂ ∧
    Filter.Tendsto (fun p => 4 * Real.pi * V3.norm p * (f.electrostaticPotential p).getD 0) far (nhds L) ∧ |L - (q₁ + q₂)| ≤ 1e-9 * |q₁ + q₂| := by
  obtain ⟨x0, x, env, f, hv, h0, hx, hup, he, hen, hpl, hf⟩ := C80_example_radial G inXZ hxz
  have hx0 : x0 = { mesh := discMesh, electrodes := ["disc", "glass"], symmetry := .radial } := by
    have : Excitation.new discMesh .radial inXZ = some ({ mesh := discMesh, electrodes := ["disc", "glass"], symmetry := .radial } : Excitation ℝ V3) := by
      unfold Excitation.new
      rw [if_neg (by simp [discMesh, hxz])]
      rfl
    rw [this] at h0
    exact (Option.some.inj h0).symm
  have hxe : x = discExc := by rw [hx, hx0]; rfl
  have hel : x.isElectrostatic := by rw [hxe]; simp [isElectrostatic, discExc]
  have hk1 : HasKind x .electrostatic "disc" := by rw [hxe]; exact ⟨_, rfl, rfl⟩
  have hk2 : HasKind x .electrostatic "glass" := by rw [hxe]; exact ⟨_, rfl, rfl⟩
  obtain ⟨-, -, ex, σ, hnd, hmem, -, hq, hfar⟩ := C87_radial hG hv hxz h0 _ hx hup he hpl hf hel
  have hg1 : x.mesh.physLines.get "disc" = some [0] := by rw [hxe]; rfl
  have hg2 : x.mesh.physLines.get "glass" = some [1] := by rw [hxe]; rfl
  have hex : [0, 1].Perm ex := by
    rw [List.perm_ext_iff_of_nodup (by simp) hnd]
    intro i
    rw [hmem]
    constructor
    · intro hi
      have : i = 0 ∨ i = 1 := by simpa using hi
      rcases this with rfl | rfl
      · refine ⟨by rw [hxe]; simp [discExc, discMesh], "disc", [0], (.voltageFixed, .num 10), ?_, List.mem_cons_self .., ?_⟩
        · rw [hxe]; rfl
        · rw [hxe]; exact ⟨rfl, rfl⟩
      · refine ⟨by rw [hxe]; simp [discExc, discMesh], "glass", [1], (.dielectric, .num 1), ?_, List.mem_cons_self .., ?_⟩
        · rw [hxe]; rfl
        · rw [hxe]; exact ⟨rfl, rfl⟩
    · rintro ⟨h, -⟩
      rw [hxe] at h
      have : i < 2 := by simpa [discExc, discMesh] using h
      have : i = 0 ∨ i = 1 := by omega
      simpa using this
  have h1 := hq "disc" [0] hg1 hk1
  have h2 := hq "glass" [1] hg2 hk2
  obtain ⟨L, hL, hLe⟩ := hfar ["disc", "glass"] (by simpa using ⟨hk1, hk2⟩) (by simpa [hg1, hg2] using hex)
  refine ⟨x, env, f, _, _, L, he, hf, by rw [hxe]; rfl, by rw [hxe]; rfl, h1, h2, hL, ?_⟩
  simpa [h1, h2] using hLe

/-- The hypotheses of `C87_linear` are met by the plate at 10 V, at 10 V again and at `10 a + 10 b` V. -/
theorem C87_example_linear (G : Geo V3) (hG : G.Lawful) (a b : ℝ) : ∃ env env' f g, (plateAt 10).solveField G env = some f ∧ (plateAt (a * 10 + b * 10)).solveField G env' = some g ∧
    ∀ n, groupCharge (plateAt (a * 10 + b * 10)) g n = Combined a b (groupCharge (plateAt 10) f n) (groupCharge (plateAt 10) f n) := by
  obtain ⟨env, env', f, h, hv, hn, hu, he, he', hE, hf⟩ := C84_example G a b
  obtain ⟨g, hg, hq⟩ := C87_linear hG h hv hn (hu _) (hu _) (hu _) he he he' (hE _ _) (hE _ _) (hE _ _) hf hf
  exact ⟨env, env', f, g, hf, hg, hq⟩

end Traceon
