import Verif.Lemmas.ArcLength2
import Verif.Props.Irregular
import Verif.Props.ElementCharge
import Verif.Lemmas.NotAKnot2
import Verif.Lemmas.FarTriangle
import Mathlib.Analysis.Calculus.Deriv.MeanValue
import Mathlib.Analysis.SpecialFunctions.Trigonometric.Deriv

/-!
# C104: the distance along an irregular path is the arc length of the curve
-/
namespace Traceon
open Spec V3 CubicSpline

/-- The spline through the sampled points. -/
noncomputable def sampled (cs : SplineMaker) (F : ℝ → V3) (N : ℕ) (t : ℝ) : V3 :=
  ⟨cs (linspace 0 1 N) ((linspace 0 1 N).map fun u => (F u).x) t, cs (linspace 0 1 N) ((linspace 0 1 N).map fun u => (F u).y) t, cs (linspace 0 1 N) ((linspace 0 1 N).map fun u => (F u).z) t⟩

/-- The speed that the code finds. -/
noncomputable def foundSpeed (cs : SplineMaker) (F : ℝ → V3) (N : ℕ) : ℝ → ℝ :=
  cs (linspace 0 1 N) ((linspace 0 1 N).map fun t => V3.norm (curveDeriv (sampled cs F N) t))

theorem linspace_mem01 {N : ℕ} (hN : 2 ≤ N) {u : ℝ} (hu : u ∈ linspace 0 1 N) : 0 ≤ u ∧ u ≤ 1 := by
  obtain ⟨k, hk, rfl⟩ := List.mem_iff_getElem.1 hu
  have := grid_mem (N := N) (k := k) (by rw [linspace_length] at hk; exact hk) hN
  rwa [List.getD_eq_getElem?_getD, List.getElem?_eq_getElem hk, Option.getD_some] at this

theorem fromIrregular_eq (cs : SplineMaker) {toPoint : ℝ → Option V3} {F : ℝ → V3} (hF : ∀ t, 0 ≤ t → t ≤ 1 → toPoint t = some (F t)) {N : ℕ} (hN : 4 ≤ N) (bs : List ℝ)
    (hasc : ((linspace 0 1 N).map (fun t => ∫ x in (0 : ℝ)..t, foundSpeed cs F N x)).Pairwise (· < ·)) :
    Path.fromIrregular cs toPoint N bs = some
      { func := fun s => toPoint (cs ((linspace 0 1 N).map (fun t => ∫ x in (0 : ℝ)..t, foundSpeed cs F N x)) (linspace 0 1 N) s)
        length := ∫ x in (0 : ℝ)..1, foundSpeed cs F N x
        breaks := bs.map (fun b => b * ∫ x in (0 : ℝ)..1, foundSpeed cs F N x) } := by
  have hlen := linspace_length 0 1 N
  have hpw := linspace_pairwise (N := N) (by omega)
  have hm : (linspace 0 1 N).mapM toPoint = some ((linspace 0 1 N).map F) := by
    have : ∀ u ∈ linspace 0 1 N, toPoint u = some (F u) := fun u hu => hF u (linspace_mem01 (by omega) hu).1 (linspace_mem01 (by omega) hu).2
    revert this
    generalize linspace 0 1 N = l
    intro this
    induction l with
    | nil => rfl
    | cons a l ih => simp [List.mapM_cons, this a (by simp), ih (fun u hu => this u (by simp [hu]))]
  have hs : cubicSpline3 cs (linspace 0 1 N) ((linspace 0 1 N).map F) = some (sampled cs F N) := by
    unfold cubicSpline3
    rw [cubicSpline_ok cs (by omega) (by simp) hpw, cubicSpline_ok cs (by omega) (by simp) hpw, cubicSpline_ok cs (by omega) (by simp) hpw]
    simp only [Option.bind_eq_bind, Option.bind_some, List.map_map]
    rfl
  unfold Path.fromIrregular
  simp only [Option.bind_eq_bind]
  rw [hm, Option.bind_some, hs, Option.bind_some, cubicSpline_ok cs (by omega) (by simp) hpw, Option.bind_some]
  change (cubicSpline cs ((linspace 0 1 N).map (fun t => ∫ x in (0 : ℝ)..t, foundSpeed cs F N x)) (linspace 0 1 N)).bind _ = _
  rw [cubicSpline_ok cs (by simp [hlen]; omega) (by simp) hasc, Option.bind_some, List.getLast?_eq_getElem?, List.length_map, hlen, List.getElem?_map, linspace_get (by omega)]
  have hne : ((N - 1 : ℕ) : ℝ) ≠ 0 := by exact_mod_cast (by omega : N - 1 ≠ 0)
  rw [div_self hne]
  rfl

/-- The norms that are splined are close to the speed. -/
theorem sampled_speed {cs : SplineMaker} (hcs : NotAKnot cs) {F : ℝ → V3} (hF : RegularCurve F) : ∃ K, 0 ≤ K ∧ ∀ N : ℕ, 4 ≤ N → ∀ t, 0 ≤ t → t ≤ 1 →
    |V3.norm (curveDeriv (sampled cs F N) t) - speed F t| ≤ K * (1 / ((N - 1 : ℕ) : ℝ)) ^ 3 := by
  obtain ⟨Cx, x0, hx⟩ := spline_deriv hcs hF.x
  obtain ⟨Cy, y0, hy⟩ := spline_deriv hcs hF.y
  obtain ⟨Cz, z0, hz⟩ := spline_deriv hcs hF.z
  refine ⟨Cx + Cy + Cz, by positivity, fun N hN t h0 h1 => ?_⟩
  have e : speed F t = V3.norm (curveDeriv F t) := by
    unfold speed V3.norm curveDeriv V3.dot
    congr 1
    ring
  rw [e]
  refine (V3.abs_norm_sub_le _ _).trans ?_
  have a := hx N hN t h0 h1
  have b := hy N hN t h0 h1
  have c := hz N hN t h0 h1
  refine V3.norm_le_of (by positivity) ?_
  set h := (1 / ((N - 1 : ℕ) : ℝ)) ^ 3 with hh
  have hp : 0 ≤ h := by positivity
  have sq : ∀ {p q : ℝ}, |p| ≤ q → p * p ≤ q ^ 2 := fun {p q} hpq => by rw [← abs_mul_abs_self p]; nlinarith [abs_nonneg p]
  have a' := sq a
  have b' := sq b
  have c' := sq c
  have m1 : 0 ≤ Cx * h * (Cy * h) := by positivity
  have m2 : 0 ≤ Cx * h * (Cz * h) := by positivity
  have m3 : 0 ≤ Cy * h * (Cz * h) := by positivity
  have : V3.dot (curveDeriv (sampled cs F N) t - curveDeriv F t) (curveDeriv (sampled cs F N) t - curveDeriv F t) ≤ (Cx * h) ^ 2 + (Cy * h) ^ 2 + (Cz * h) ^ 2 := by
    unfold V3.dot
    exact add_le_add (add_le_add a' b') c'
  nlinarith

/-- The speed that the code finds is close to the speed, and so is its derivative. -/
theorem foundSpeed_close {cs : SplineMaker} (hcs : NotAKnot cs) {F : ℝ → V3} (hF : RegularCurve F) : ∃ m M B C ε : ℝ, 0 < m ∧ 0 ≤ C ∧ 0 < ε ∧ ∀ N : ℕ, 4 ≤ N → 1 / ((N - 1 : ℕ) : ℝ) ≤ ε →
    ContDiff ℝ 1 (foundSpeed cs F N) ∧ ∀ t, 0 ≤ t → t ≤ 1 → m ≤ foundSpeed cs F N t ∧ foundSpeed cs F N t ≤ M ∧ |deriv (foundSpeed cs F N) t| ≤ B ∧ m ≤ speed F t ∧ speed F t ≤ M ∧
      |foundSpeed cs F N t - speed F t| ≤ C * (1 / ((N - 1 : ℕ) : ℝ)) ^ 2 := by
  obtain ⟨K, K0, hK⟩ := sampled_speed hcs hF
  obtain ⟨σ1, σ2, d1, d2, A, m, M, m0, hb⟩ := speed_derivs hF
  have A0 : 0 ≤ A := (abs_nonneg _).trans (hb 0 le_rfl zero_le_one).1
  have C1 : 0 < 36 * A + 38 * K + 1 := by positivity
  refine ⟨m / 2, M + m / 2, A + 1, 36 * A + 37 * K, min 1 (min 1 (m / 2) / (36 * A + 38 * K + 1)), by positivity, by positivity, by positivity, fun N hN hε => ?_⟩
  have hP : (0 : ℝ) < ((N - 1 : ℕ) : ℝ) := by exact_mod_cast (by omega : 0 < N - 1)
  set h := 1 / ((N - 1 : ℕ) : ℝ) with hh
  have h0 : 0 < h := by positivity
  have h1 : h ≤ 1 := hε.trans (min_le_left _ _)
  have h2 := hε.trans (min_le_right _ _)
  rw [le_div_iff₀ C1] at h2
  have h3 := h2.trans (min_le_left _ _)
  have h4 := h2.trans (min_le_right _ _)
  refine ⟨(grid_spline hcs hN _).2.2.of_le (by norm_num), fun t t0 t1 => ?_⟩
  obtain ⟨b1, b2, b3, b4⟩ := hb t t0 t1
  obtain ⟨e1, e2⟩ := spline_perturbed hcs d1 d2 (fun t a b => (hb t a b).2.1) hN (w := fun t => V3.norm (curveDeriv (sampled cs F N) t)) (fun t a b => hK N hN t a b) t0 t1
  rw [← hh] at e1 e2
  change |foundSpeed cs F N t - speed F t| ≤ _ at e1
  change |deriv (foundSpeed cs F N) t - σ1 t| ≤ _ at e2
  have p2 : 0 ≤ h ^ 2 := by positivity
  have q1 : K * h ^ 3 ≤ K * h ^ 2 := mul_le_mul_of_nonneg_left (by nlinarith) K0
  have e3 : |foundSpeed cs F N t - speed F t| ≤ (36 * A + 37 * K) * h ^ 2 := e1.trans (by linarith)
  have q2 : (36 * A + 37 * K) * h ^ 2 ≤ m / 2 := by
    have : (36 * A + 37 * K) * h ^ 2 ≤ (36 * A + 37 * K) * h := mul_le_mul_of_nonneg_left (by nlinarith) (by positivity)
    have : 0 ≤ K * h := by positivity
    linarith
  have q3 : 36 * A * h + 38 * (K * h ^ 3) / h ≤ 1 := by
    have : 38 * (K * h ^ 3) / h = 38 * K * h ^ 2 := by field_simp
    rw [this]
    have : K * h ^ 2 ≤ K * h := mul_le_mul_of_nonneg_left (by nlinarith) K0
    linarith
  have e4 := abs_le.1 (e3.trans q2)
  refine ⟨by linarith, by linarith, ?_, by linarith, by linarith, e3⟩
  have := abs_add_le (deriv (foundSpeed cs F N) t - σ1 t) (σ1 t)
  rw [sub_add_cancel] at this
  linarith

theorem speed_continuous {F : ℝ → V3} (hF : RegularCurve F) : Continuous (speed F) := by
  have hc : ∀ {X : ℝ → ℝ}, ContDiff ℝ 4 X → Continuous (deriv X) := fun hX => hX.continuous_deriv (by norm_num)
  unfold speed
  exact ((((hc hF.x).pow 2).add ((hc hF.y).pow 2)).add ((hc hF.z).pow 2)).sqrt

/-- **C104.** Along the path that is made from a regular curve the distance is the arc length, and the path runs through the
curve once and in order: the errors vanish as the square of the number of samples. -/
theorem C104_arc_length {cs : SplineMaker} (hcs : NotAKnot cs) {toPoint : ℝ → Option V3} {F : ℝ → V3} (hF : RegularCurve F) (hto : ∀ t, 0 ≤ t → t ≤ 1 → toPoint t = some (F t)) (bs : List ℝ) :
    ∃ (C : ℝ) (N0 : ℕ), ∀ N, N0 ≤ N → ∃ p, Path.fromIrregular cs toPoint N bs = some p ∧ |p.length - arcLength F 1| ≤ C / (N : ℝ) ^ 2 ∧ p.breaks = bs.map (fun b => b * p.length) ∧
      ∃ u : ℝ → ℝ, u 0 = 0 ∧ u p.length = 1 ∧ ContinuousOn u (Set.Icc 0 p.length) ∧ StrictMonoOn u (Set.Icc 0 p.length) ∧
        ∀ s, 0 ≤ s → s ≤ p.length → p.func s = some (F (u s)) ∧ |arcLength F (u s) - s| ≤ C / (N : ℝ) ^ 2 := by
  obtain ⟨m, M, B, C, ε, m0, C0, ε0, hfs⟩ := foundSpeed_close hcs hF
  have hdata : ∃ N : ℕ, 4 ≤ N ∧ 1 / ((N - 1 : ℕ) : ℝ) ≤ ε := by
    obtain ⟨n, hn⟩ := exists_nat_gt (1 / ε)
    refine ⟨n + 4, by omega, ?_⟩
    have hp : (0 : ℝ) < ((n + 4 - 1 : ℕ) : ℝ) := by exact_mod_cast (by omega : 0 < n + 4 - 1)
    rw [one_div_le hp ε0]
    have : (n : ℝ) ≤ ((n + 4 - 1 : ℕ) : ℝ) := by exact_mod_cast (by omega)
    linarith
  obtain ⟨n0, hn0, hn1⟩ := hdata
  have hB0 : 0 ≤ B := (abs_nonneg _).trans ((hfs n0 hn0 hn1).2 0 le_rfl zero_le_one).2.2.1
  have hM0 : 0 < M := m0.trans_le (((hfs n0 hn0 hn1).2 0 le_rfl zero_le_one).1.trans ((hfs n0 hn0 hn1).2 0 le_rfl zero_le_one).2.1)
  set D := (12 + 20 * (M / m) + 4 * (M / m) ^ 2) * (B / m ^ 3) with hD
  have D0 : 0 ≤ D := by positivity
  obtain ⟨n, hn⟩ := exists_nat_gt (1 / min ε (1 / (2 * M * (D * M + 1))))
  refine ⟨4 * (M * (D * M ^ 2) + C), n + 4, fun N hNn => ?_⟩
  have hN : 4 ≤ N := by omega
  have hP : (0 : ℝ) < ((N - 1 : ℕ) : ℝ) := by exact_mod_cast (by omega : 0 < N - 1)
  have hsmall : 1 / ((N - 1 : ℕ) : ℝ) ≤ min ε (1 / (2 * M * (D * M + 1))) := by
    rw [one_div_le hP (by positivity)]
    have : (n : ℝ) ≤ ((N - 1 : ℕ) : ℝ) := by exact_mod_cast (by omega)
    linarith
  have hNh : (1 / ((N - 1 : ℕ) : ℝ)) ^ 2 ≤ 4 / (N : ℝ) ^ 2 := by
    have hN0 : (0 : ℝ) < N := by exact_mod_cast (by omega : 0 < N)
    have h2 : (N : ℝ) ≤ 2 * ((N - 1 : ℕ) : ℝ) := by exact_mod_cast (by omega)
    rw [one_div, inv_pow, ← one_div, div_le_div_iff₀ (by positivity) (by positivity)]
    nlinarith
  have hε := hsmall.trans (min_le_left _ _)
  have hδ := hsmall.trans (min_le_right _ _)
  obtain ⟨hS, hb⟩ := hfs N hN hε
  set S := foundSpeed cs F N with hSd
  set h := 1 / ((N - 1 : ℕ) : ℝ) with hh
  have h0 : 0 < h := by positivity
  obtain ⟨I, hI, I0, I1, Id, hIv⟩ := lengths_spline hcs hS m0 (fun t a b => (hb t a b).1) (fun t a b => (hb t a b).2.1) (fun t a b => (hb t a b).2.2.1) hN
  rw [← hD, ← hh] at hIv
  set L := ∫ x in (0 : ℝ)..1, S x with hL
  have hasc := lengths_ascending hS.continuous m0 (fun t a b => (hb t a b).1) (N := N) (by omega)
  have hcσ := speed_continuous hF
  -- the integrals of the two speeds
  have hint : ∀ v, 0 ≤ v → v ≤ 1 → |arcLength F v - ∫ x in (0 : ℝ)..v, S x| ≤ C * h ^ 2 := by
    intro v v0 v1
    unfold arcLength
    rw [← intervalIntegral.integral_sub (hcσ.intervalIntegrable _ _) (hS.continuous.intervalIntegrable _ _)]
    rw [← Real.norm_eq_abs]
    refine (intervalIntegral.norm_integral_le_of_norm_le_const (C := C * h ^ 2) fun x hx => ?_).trans ?_
    · rw [Set.uIoc_of_le v0] at hx
      rw [Real.norm_eq_abs, abs_sub_comm]
      exact (hb x hx.1.le (hx.2.trans v1)).2.2.2.2.2
    · rw [sub_zero, abs_of_nonneg v0]
      have : 0 ≤ C * h ^ 2 := by positivity
      nlinarith
  have hL0 : 0 < L := by
    have := (integral_slope hS.continuous (fun t a b => (hb t a b).1) (fun t a b => (hb t a b).2.1) le_rfl zero_le_one le_rfl).1
    simp only [intervalIntegral.integral_same, sub_zero] at this
    linarith
  have hmono : StrictMonoOn I (Set.Icc 0 L) := by
    refine strictMonoOn_of_deriv_pos (convex_Icc _ _) Id.continuous.continuousOn fun y hy => ?_
    rw [interior_Icc] at hy
    obtain ⟨v, v0, v1, -, -, hv⟩ := hIv y hy.1.le hy.2.le
    have hSv := hb v v0 v1
    have hSp : 0 < S v := m0.trans_le hSv.1
    have k1 : 1 / M ≤ 1 / S v := one_div_le_one_div_of_le hSp hSv.2.1
    have k2 : D * (M * h) < 1 / M := by
      have : h * (2 * M * (D * M + 1)) ≤ 1 := (le_div_iff₀ (by positivity)).1 hδ
      rw [lt_div_iff₀ hM0]
      have : 0 < h * M := by positivity
      have : 0 ≤ D * (M * h) * M := by positivity
      nlinarith
    have := (abs_le.1 hv).1
    linarith
  have hI01 : ∀ s, 0 ≤ s → s ≤ L → 0 ≤ I s ∧ I s ≤ 1 := by
    intro s s0 s1
    constructor
    · rw [← I0]; exact hmono.monotoneOn ⟨le_rfl, hL0.le⟩ ⟨s0, s1⟩ s0
    · rw [← I1]; exact hmono.monotoneOn ⟨s0, s1⟩ ⟨hL0.le, le_rfl⟩ s1
  refine ⟨_, fromIrregular_eq cs hto hN bs hasc, ?_, rfl, I, I0, I1, Id.continuous.continuousOn, hmono, fun s s0 s1 => ⟨?_, ?_⟩⟩
  · rw [abs_sub_comm]
    refine (hint 1 zero_le_one le_rfl).trans ?_
    calc C * h ^ 2 ≤ C * (4 / (N : ℝ) ^ 2) := mul_le_mul_of_nonneg_left hNh C0
      _ ≤ _ := by
        have hN0 : (0 : ℝ) < (N : ℝ) ^ 2 := by
          have : (0 : ℝ) < N := by exact_mod_cast (by omega : 0 < N)
          positivity
        rw [mul_div_assoc', div_le_div_iff_of_pos_right hN0]
        have : 0 ≤ M * (D * M ^ 2) := by positivity
        linarith
  · have := hI01 s s0 s1
    rw [hI] at this ⊢
    exact hto _ this.1 this.2
  · obtain ⟨v, v0, v1, hv, hvI, -⟩ := hIv s s0 s1
    have hIs := hI01 s s0 s1
    have hslope : |arcLength F (I s) - arcLength F v| ≤ M * |I s - v| := by
      unfold arcLength
      rcases le_total v (I s) with hle | hle
      · have a := integral_slope hcσ (fun t a b => (hb t a b).2.2.2.1) (fun t a b => (hb t a b).2.2.2.2.1) v0 hle hIs.2
        have : 0 ≤ m * (I s - v) := mul_nonneg m0.le (sub_nonneg.2 hle)
        rw [abs_of_nonneg (by linarith), abs_of_nonneg (sub_nonneg.2 hle)]
        exact a.2
      · have a := integral_slope hcσ (fun t a b => (hb t a b).2.2.2.1) (fun t a b => (hb t a b).2.2.2.2.1) hIs.1 hle v1
        have : 0 ≤ m * (v - I s) := mul_nonneg m0.le (sub_nonneg.2 hle)
        rw [abs_sub_comm, abs_sub_comm (I s), abs_of_nonneg (by linarith), abs_of_nonneg (sub_nonneg.2 hle)]
        exact a.2
    have h1 := hint v v0 v1
    rw [hv] at h1
    have h2 : arcLength F (I s) - s = (arcLength F (I s) - arcLength F v) + (arcLength F v - s) := by ring
    rw [h2]
    refine (abs_add_le _ _).trans ?_
    have h3 : M * |I s - v| ≤ M * (D * (M * h) ^ 2) := mul_le_mul_of_nonneg_left hvI hM0.le
    calc _ ≤ (M * (D * M ^ 2) + C) * h ^ 2 := by
          have : M * (D * (M * h) ^ 2) = M * (D * M ^ 2) * h ^ 2 := by ring
          linarith
      _ ≤ (M * (D * M ^ 2) + C) * (4 / (N : ℝ) ^ 2) := mul_le_mul_of_nonneg_left hNh (by positivity)
      _ = _ := by ring

/-- The ellipse with the semi-axes two and one, run through once with an uneven speed. -/
noncomputable def ellipseCurve (t : ℝ) : V3 := ⟨2 * Real.cos (2 * Real.pi * t), Real.sin (2 * Real.pi * t), 0⟩

theorem ellipseCurve_speed (t : ℝ) : speed ellipseCurve t = 2 * Real.pi * √(4 * Real.sin (2 * Real.pi * t) ^ 2 + Real.cos (2 * Real.pi * t) ^ 2) := by
  have hl : HasDerivAt (fun t : ℝ => 2 * Real.pi * t) (2 * Real.pi) t := ((hasDerivAt_id t).const_mul (2 * Real.pi)).congr_deriv (by ring)
  have hx : deriv (fun u => (ellipseCurve u).x) t = 2 * (-Real.sin (2 * Real.pi * t) * (2 * Real.pi)) := (hl.cos.const_mul 2).deriv
  have hy : deriv (fun u => (ellipseCurve u).y) t = Real.cos (2 * Real.pi * t) * (2 * Real.pi) := hl.sin.deriv
  have hz : deriv (fun u => (ellipseCurve u).z) t = 0 := deriv_const t 0
  unfold speed
  rw [hx, hy, hz, show (2 * (-Real.sin (2 * Real.pi * t) * (2 * Real.pi))) ^ 2 + (Real.cos (2 * Real.pi * t) * (2 * Real.pi)) ^ 2 + (0 : ℝ) ^ 2 =
    (2 * Real.pi) ^ 2 * (4 * Real.sin (2 * Real.pi * t) ^ 2 + Real.cos (2 * Real.pi * t) ^ 2) by ring, Real.sqrt_mul (by positivity), Real.sqrt_sq (by positivity)]

theorem ellipseCurve_regular : RegularCurve ellipseCurve := by
  have hl : ContDiff ℝ 4 (fun t : ℝ => 2 * Real.pi * t) := contDiff_const.mul contDiff_id
  refine ⟨contDiff_const.mul (Real.contDiff_cos.comp hl), Real.contDiff_sin.comp hl, contDiff_const, fun t _ _ => ?_⟩
  rw [ellipseCurve_speed]
  have : 0 < 4 * Real.sin (2 * Real.pi * t) ^ 2 + Real.cos (2 * Real.pi * t) ^ 2 := by nlinarith [Real.sin_sq_add_cos_sq (2 * Real.pi * t), sq_nonneg (Real.sin (2 * Real.pi * t))]
  have := Real.sqrt_pos.2 this
  have := Real.pi_pos
  positivity

/-- There is a spline routine as documented, and a path around an ellipse made with it: its length converges to the circumference. -/
theorem C104_example : ∃ cs : SplineMaker, NotAKnot cs ∧ ∃ (C : ℝ) (N0 : ℕ), ∀ N, N0 ≤ N → ∃ p, Path.fromIrregular cs (fun t => some (ellipseCurve t)) N [1 / 4] = some p ∧
    |p.length - ∫ t in (0 : ℝ)..1, 2 * Real.pi * √(4 * Real.sin (2 * Real.pi * t) ^ 2 + Real.cos (2 * Real.pi * t) ^ 2)| ≤ C / (N : ℝ) ^ 2 ∧ p.func 0 = some ⟨2, 0, 0⟩ ∧ p.func p.length = some ⟨2, 0, 0⟩ ∧
    p.breaks = [1 / 4 * p.length] := by
  obtain ⟨cs, hcs⟩ := exists_notAKnot
  refine ⟨cs, hcs, ?_⟩
  obtain ⟨C, N0, h⟩ := C104_arc_length hcs ellipseCurve_regular (toPoint := fun t => some (ellipseCurve t)) (fun t _ _ => rfl) [1 / 4]
  -- for many samples the length is positive
  have hL : 0 < arcLength ellipseCurve 1 := by
    unfold arcLength
    exact intervalIntegral.intervalIntegral_pos_of_pos_on ((speed_continuous ellipseCurve_regular).intervalIntegrable _ _) (fun t ht => ellipseCurve_regular.moves t ht.1.le ht.2.le) zero_lt_one
  obtain ⟨n, hn⟩ := exists_nat_gt (|C| / arcLength ellipseCurve 1)
  refine ⟨C, max N0 (n + 1), fun N hN => ?_⟩
  obtain ⟨p, hp, h1, h2, u, u0, u1, -, -, h3⟩ := h N (le_of_max_le_left hN)
  have hp0 : 0 ≤ p.length := by
    have hN1 : (1 : ℝ) ≤ N := by exact_mod_cast (by omega : 1 ≤ N)
    have hNn : (n : ℝ) ≤ N := by exact_mod_cast (by omega : n ≤ N)
    rw [div_lt_iff₀ hL] at hn
    have : C / (N : ℝ) ^ 2 ≤ arcLength ellipseCurve 1 := by
      rw [div_le_iff₀ (by positivity)]
      have := le_abs_self C
      have : (n : ℝ) ≤ (N : ℝ) ^ 2 := by nlinarith
      nlinarith
    have := (abs_le.1 h1).1
    linarith
  refine ⟨p, hp, ?_, ?_, ?_, by rw [h2]; simp⟩
  · have e : arcLength ellipseCurve 1 = ∫ t in (0 : ℝ)..1, 2 * Real.pi * √(4 * Real.sin (2 * Real.pi * t) ^ 2 + Real.cos (2 * Real.pi * t) ^ 2) := by
      unfold arcLength
      simp only [ellipseCurve_speed]
    rw [← e]
    exact h1
  · rw [(h3 0 le_rfl hp0).1, u0]
    simp [ellipseCurve]
  · rw [(h3 _ hp0 le_rfl).1, u1]
    simp [ellipseCurve]

end Traceon
