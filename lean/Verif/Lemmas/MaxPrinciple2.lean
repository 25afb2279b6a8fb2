import Verif.Lemmas.MaxPrinciple
import Verif.Props.VacuumRadial2
import Verif.Props.Paths
import Mathlib.Topology.UniformSpace.UniformApproximation
import Mathlib.Topology.UniformSpace.HeineCantor

/-!
# The maximum principle for uniform limits of solutions of Laplace's equation
-/
namespace Traceon
open Spec V3 Filter Topology Real

/-- `φ` can be approximated uniformly on `K` by solutions of Laplace's equation. -/
def Approximable (K : Set (ℝ × ℝ × ℝ)) (φ : V3 → ℝ) : Prop :=
  ∀ δ > 0, ∃ ψ : V3 → ℝ, (∀ v ∈ K, Harmonic ψ (pt v)) ∧ ∀ v ∈ K, |φ (pt v) - ψ (pt v)| ≤ δ

namespace Approximable
variable {K : Set (ℝ × ℝ × ℝ)} {φ ψ : V3 → ℝ}

theorem of_harmonic (h : ∀ v ∈ K, Harmonic φ (pt v)) : Approximable K φ := fun δ hδ => ⟨φ, h, fun v _ => by simpa using hδ.le⟩

theorem add (h : Approximable K φ) (h' : Approximable K ψ) : Approximable K (fun q => φ q + ψ q) := by
  intro δ hδ
  obtain ⟨f, hf, ef⟩ := h (δ / 2) (by linarith)
  obtain ⟨g, hg, eg⟩ := h' (δ / 2) (by linarith)
  refine ⟨fun q => f q + g q, fun v hv => (hf v hv).add (hg v hv), fun v hv => ?_⟩
  have h1 := abs_le.1 (ef v hv)
  have h2 := abs_le.1 (eg v hv)
  exact abs_le.2 ⟨by linarith [h1.1, h2.1], by linarith [h1.2, h2.2]⟩

theorem smul (h : Approximable K φ) (k : ℝ) : Approximable K (fun q => k * φ q) := by
  intro δ hδ
  obtain ⟨f, hf, ef⟩ := h (δ / (|k| + 1)) (by positivity)
  refine ⟨fun q => k * f q, fun v hv => (hf v hv).smul k, fun v hv => ?_⟩
  rw [← mul_sub, abs_mul]
  have h1 : |k| * |φ (pt v) - f (pt v)| ≤ |k| * (δ / (|k| + 1)) := mul_le_mul_of_nonneg_left (ef v hv) (abs_nonneg k)
  refine h1.trans ?_
  rw [mul_div_assoc', div_le_iff₀ (by positivity)]
  nlinarith [abs_nonneg k]

theorem congr (h : Approximable K φ) (e : ∀ q, ψ q = φ q) : Approximable K ψ := by
  rwa [show ψ = φ from funext e]

theorem sum {α : Type} (f : α → V3 → ℝ) (l : List α) (h : ∀ a ∈ l, Approximable K (f a)) : Approximable K (fun q => (l.map fun a => f a q).sum) := by
  induction l with
  | nil => simpa using of_harmonic (K := K) fun v _ => Harmonic.const 0 (pt v)
  | cons a l ih =>
    simp only [List.map_cons, List.sum_cons]
    exact (h a List.mem_cons_self).add (ih fun b hb => h b (List.mem_cons_of_mem _ hb))

theorem continuousOn (h : Approximable K φ) : ContinuousOn (fun w => φ (pt w)) K := by
  refine continuousOn_of_uniform_approx_of_continuousOn fun u hu => ?_
  obtain ⟨ε, hε, hs⟩ := Metric.mem_uniformity_dist.1 hu
  obtain ⟨ψ, h1, h2⟩ := h (ε / 2) (by linarith)
  refine ⟨fun w => ψ (pt w), fun v hv => (h1 v hv).continuousAt.continuousWithinAt, fun y hy => hs ?_⟩
  rw [Real.dist_eq]
  linarith [h2 y hy]

theorem max (h : Approximable K φ) (hK : IsCompact K) {v : ℝ × ℝ × ℝ} (hv : v ∈ K) : ∃ w ∈ frontier K, φ (pt v) ≤ φ (pt w) := by
  by_contra hcon
  push Not at hcon
  have hc := h.continuousOn
  have hfc : IsCompact (frontier K) := hK.of_isClosed_subset isClosed_frontier hK.isClosed.frontier_subset
  have key : ∀ δ > 0, ∃ w ∈ frontier K, φ (pt v) ≤ φ (pt w) + 2 * δ := by
    intro δ hδ
    obtain ⟨ψ, h1, h2⟩ := h δ hδ
    obtain ⟨w, hw, hle⟩ := max_principle hK (fun u hu => (h1 u hu).continuousAt.continuousWithinAt) (fun u hu => h1 u (interior_subset hu)) hv
    have a := abs_le.1 (h2 v hv)
    have b := abs_le.1 (h2 w (hK.isClosed.frontier_subset hw))
    exact ⟨w, hw, by linarith [a.2, b.1]⟩
  obtain ⟨w0, hw0, -⟩ := key 1 one_pos
  obtain ⟨m, hm, hmax⟩ := hfc.exists_isMaxOn ⟨w0, hw0⟩ (hc.mono hK.isClosed.frontier_subset)
  have hd := hcon m hm
  obtain ⟨w, hw, hle⟩ := key ((φ (pt v) - φ (pt m)) / 4) (by linarith)
  have : φ (pt w) ≤ φ (pt m) := hmax hw
  linarith

theorem extremes (h : Approximable K φ) (hK : IsCompact K) : ExtremesOnBoundary K φ := by
  intro v hv
  obtain ⟨b, hb, h1⟩ := h.max hK hv
  obtain ⟨a, ha, h2⟩ := (h.smul (-1)).max hK hv
  exact ⟨a, ha, b, hb, by linarith, h1⟩

end Approximable

/-- Uniform convergence of Riemann sums. -/
theorem riemann_uniform {K : Set (ℝ × ℝ × ℝ)} (hK : IsCompact K) {g : ℝ × ℝ × ℝ → ℝ → ℝ} {L : ℝ} (hL : 0 < L)
    (hg : ContinuousOn (fun x : (ℝ × ℝ × ℝ) × ℝ => g x.1 x.2) (K ×ˢ Set.Icc 0 L)) {δ : ℝ} (hδ : 0 < δ) :
    ∃ n : ℕ, 0 < n ∧ ∀ v ∈ K, |(∫ θ in (0 : ℝ)..L, g v θ) - ∑ k ∈ Finset.range n, L / n * g v (k * (L / n))| ≤ δ := by
  have huc := (hK.prod (isCompact_Icc (a := (0 : ℝ)) (b := L))).uniformContinuousOn_of_continuous hg
  obtain ⟨η, hη, hu⟩ := Metric.uniformContinuousOn_iff.1 huc (δ / L) (by positivity)
  obtain ⟨n, hn⟩ := exists_nat_gt (L / η)
  have hn0 : (0 : ℝ) < n := lt_trans (by positivity) hn
  have hnn : 0 < n := by exact_mod_cast hn0
  set s := L / n with hs
  have hs0 : 0 < s := by positivity
  have hsη : s < η := by rw [hs, div_lt_iff₀ hn0]; rw [div_lt_iff₀ hη] at hn; linarith
  have hsn : (n : ℝ) * s = L := by rw [hs]; field_simp
  refine ⟨n, hnn, fun v hv => ?_⟩
  have hcv : ContinuousOn (g v) (Set.Icc 0 L) := by
    have := hg.comp (f := fun θ : ℝ => (v, θ)) (s := Set.Icc 0 L) (by fun_prop) (fun θ hθ => ⟨hv, hθ⟩)
    exact this
  have hle : ∀ k : ℕ, k ≤ n → (k : ℝ) * s ≤ L := fun k hk => by
    rw [← hsn]; exact mul_le_mul_of_nonneg_right (by exact_mod_cast hk) hs0.le
  have hint : ∀ k < n, IntervalIntegrable (g v) MeasureTheory.volume ((k : ℝ) * s) ((k + 1 : ℕ) * s) := fun k hk => by
    refine ContinuousOn.intervalIntegrable (hcv.mono ?_)
    rw [Set.uIcc_of_le (by push_cast; nlinarith)]
    exact Set.Icc_subset_Icc (by positivity) (hle (k + 1) hk)
  have hsplit := intervalIntegral.sum_integral_adjacent_intervals (f := g v) (a := fun k : ℕ => (k : ℝ) * s) (n := n) hint
  simp only [hsn, Nat.cast_zero, zero_mul] at hsplit
  rw [← hsplit, ← Finset.sum_sub_distrib]
  refine (Finset.abs_sum_le_sum_abs _ _).trans ?_
  have hterm : ∀ k ∈ Finset.range n, |(∫ θ in ((k : ℝ) * s)..((k + 1 : ℕ) * s), g v θ) - s * g v (k * s)| ≤ δ / L * s := by
    intro k hk
    have hk := Finset.mem_range.1 hk
    have e1 : s * g v (k * s) = ∫ _ in ((k : ℝ) * s)..((k + 1 : ℕ) * s), g v (k * s) := by
      rw [intervalIntegral.integral_const]; simp only [smul_eq_mul]; push_cast; ring
    rw [e1, ← intervalIntegral.integral_sub (hint k hk) intervalIntegrable_const]
    have := intervalIntegral.norm_integral_le_of_norm_le_const (a := (k : ℝ) * s) (b := (k + 1 : ℕ) * s) (f := fun θ => g v θ - g v (k * s)) (C := δ / L) ?_
    · have e2 : |((k + 1 : ℕ) : ℝ) * s - k * s| = s := by push_cast; rw [show ((k : ℝ) + 1) * s - k * s = s by ring, abs_of_pos hs0]
      rw [e2] at this
      exact this
    · intro θ hθ
      rw [Set.uIoc_of_le (by push_cast; nlinarith)] at hθ
      have h1 : (0 : ℝ) ≤ k * s := by positivity
      have h2 := hle (k + 1) hk
      have := hu (v, θ) ⟨hv, by linarith [hθ.1], by linarith [hθ.2]⟩ (v, (k : ℝ) * s) ⟨hv, h1, hle k hk.le⟩ ?_
      · exact this.le
      · have h3 := hθ.1
        have h4 := hθ.2
        push_cast at h4
        rw [Prod.dist_eq, dist_self, Real.dist_eq, max_lt_iff]
        exact ⟨hη, by rw [abs_lt]; constructor <;> nlinarith⟩
  refine (Finset.sum_le_sum hterm).trans ?_
  rw [Finset.sum_const, Finset.card_range, nsmul_eq_mul]
  have : (n : ℝ) * (δ / L * s) = δ / L * (n * s) := by ring
  rw [this, hsn]
  exact (by field_simp : δ / L * L = δ).le

/-- The potential of a point charge. -/
theorem harmonic_point (q p : V3) (h : p ≠ q) : Harmonic (fun x => 1 / (4 * π * V3.norm (x - q))) p := by
  have := harmonic_potential ⟨1, [1], [[1]], [[q]]⟩ p (by simpa using h)
  have e : (fun x => potential3d x ⟨1, [1], [[1]], [[q]]⟩) = fun x => 1 / (4 * π * V3.norm (x - q)) := by
    funext x
    have hn : V3.norm (q - x) = V3.norm (x - q) := by
      unfold V3.norm; congr 1; simp only [dot, V3.sub_x, V3.sub_y, V3.sub_z]; ring
    simp only [potential3d, EffCharges.loop_eq, superpose, List.zip_cons_cons, List.zip_nil_right, List.map_cons, List.map_nil, List.sum_cons, List.sum_nil,
      potential3dPoint, hn]
    ring
  rwa [e] at this

/-- The potential of a charged ring. -/
theorem approximable_ring {K : Set (ℝ × ℝ × ℝ)} (hK : IsCompact K) (r z : ℝ) (h : ∀ v ∈ K, OffRing (pt v) r z) : Approximable K (ringPotential r z) := by
  intro δ hδ
  have hc : ContinuousOn (fun x : (ℝ × ℝ × ℝ) × ℝ => r * (1 / (4 * π * V3.norm (pt x.1 - ringPoint r z x.2)))) (K ×ˢ Set.Icc 0 (2 * π)) := by
    refine continuousOn_const.mul (continuousOn_const.div (continuousOn_const.mul ?_) ?_)
    · simp only [V3.norm, dot, pt, ringPoint, V3.sub_x, V3.sub_y, V3.sub_z]
      fun_prop
    · intro x hx
      have := h x.1 hx.1 x.2
      have h2 : V3.norm (pt x.1 - ringPoint r z x.2) ≠ 0 := (norm_sub_pos fun e => this e.symm).ne'
      have := Real.pi_pos.ne'
      positivity
  obtain ⟨n, hn, hr⟩ := riemann_uniform hK (g := fun v θ => r * (1 / (4 * π * V3.norm (pt v - ringPoint r z θ)))) (by positivity) hc hδ
  refine ⟨fun q => ((List.range n).map fun k : ℕ => 2 * π / n * (r * (1 / (4 * π * V3.norm (q - ringPoint r z (k * (2 * π / n))))))).sum, fun v hv => ?_, fun v hv => ?_⟩
  · have key : ∀ l : List ℕ, Harmonic (fun q => (l.map fun k : ℕ => 2 * π / n * (r * (1 / (4 * π * V3.norm (q - ringPoint r z (k * (2 * π / n))))))).sum) (pt v) := by
      intro l
      induction l with
      | nil => simpa using Harmonic.const 0 (pt v)
      | cons k l ih =>
        simp only [List.map_cons, List.sum_cons]
        exact (((harmonic_point _ _ fun e => h v hv _ e.symm).smul r).smul _).add ih
    exact key _
  · have := hr v hv
    have e : ∀ (f : ℕ → ℝ) (m : ℕ), ∑ k ∈ Finset.range m, f k = ((List.range m).map f).sum := by
      intro f m
      induction m with
      | zero => simp
      | succ m ih => rw [Finset.sum_range_succ, ih, List.range_succ]; simp
    rw [e] at this
    exact this

/-- The potential of any number of charged rings. -/
theorem approximable_rings {K : Set (ℝ × ℝ × ℝ)} (hK : IsCompact K) (e : EffCharges (ℝ × ℝ)) (h : ∀ v ∈ K, ClearOfRings e (pt v)) : Approximable K (ringsPotential e) := by
  unfold ringsPotential
  refine Approximable.sum (fun (x : ℝ × List ℝ × List (ℝ × ℝ)) q => ((x.2.1.zip x.2.2).map (fun y => x.1 * y.1 * ringPotential y.2.1 y.2.2 q)).sum) _ fun x hx => ?_
  refine Approximable.sum (fun (y : ℝ × ℝ × ℝ) q => x.1 * y.1 * ringPotential y.2.1 y.2.2 q) _ fun y hy => ?_
  refine (approximable_ring hK _ _ fun v hv => ?_).smul _
  exact (h v hv _ (List.of_mem_zip (List.of_mem_zip hx).2).2 _ (List.of_mem_zip hy).2).2

end Traceon
