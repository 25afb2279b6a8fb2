import Verif.Spec.Irregular
import Verif.Props.Paths
import Mathlib.LinearAlgebra.Lagrange
import Mathlib.Topology.Order.IntermediateValue
import Mathlib.Analysis.Calculus.ContDiff.Polynomial
import Mathlib.Analysis.Calculus.Deriv.Polynomial
import Mathlib.Analysis.SpecialFunctions.Integrals.Basic

/-!
# Theorems about paths given by an arbitrary parametrisation: C74
-/
namespace Traceon
open Spec V3

theorem linspace_get {N k : ℕ} (hk : k < N) :
    (linspace 0 1 N)[k]? = some ((k : ℝ) / ((N - 1 : ℕ) : ℝ)) := by
  unfold linspace
  rw [List.getElem?_map, List.getElem?_range hk]
  simp [div_eq_mul_inv]

theorem linspace_length (a b : ℝ) (N : ℕ) : (linspace a b N).length = N := by simp [linspace]

theorem linspace_pairwise {N : ℕ} (hN : 2 ≤ N) : (linspace 0 1 N).Pairwise (· < ·) := by
  unfold linspace
  rw [List.pairwise_map]
  refine List.pairwise_lt_range.imp ?_
  intro a b hab
  have : (0:ℝ) < ((N - 1 : ℕ) : ℝ) := by exact_mod_cast (by omega : 0 < N - 1)
  have h2 : (a : ℝ) < b := by exact_mod_cast hab
  have : 0 < (1 - 0) / ((N - 1 : ℕ) : ℝ) := by positivity
  nlinarith

theorem cubicSpline_some {cs : SplineMaker} {xs ys : List ℝ} {f : ℝ → ℝ}
    (h : cubicSpline cs xs ys = some f) :
    2 ≤ xs.length ∧ ys.length = xs.length ∧ xs.Pairwise (· < ·) ∧ f = cs xs ys := by
  unfold cubicSpline at h
  split at h
  · rename_i h'
    exact ⟨h'.1, h'.2.1, h'.2.2, (Option.some.inj h).symm⟩
  · cases h

theorem cubicSpline_ok (cs : SplineMaker) {xs ys : List ℝ} (h1 : 2 ≤ xs.length)
    (h2 : ys.length = xs.length) (h3 : xs.Pairwise (· < ·)) : cubicSpline cs xs ys = some (cs xs ys) := by
  unfold cubicSpline
  rw [if_pos ⟨h1, h2, h3⟩]

/-- What is known of a path that `from_irregular_function` returns. -/
theorem fromIrregular_some {cs : SplineMaker} {f : ℝ → Option V3} {N : ℕ} {bs : List ℝ} {p : Path}
    (h : Path.fromIrregular cs f N bs = some p) :
    ∃ pls : List ℝ, 2 ≤ N ∧ pls.length = N ∧ pls.Pairwise (· < ·) ∧ pls[0]? = some 0 ∧
      pls[N - 1]? = some p.length ∧ p.func = (fun s => f (cs pls (linspace 0 1 N) s)) ∧
      p.breaks = bs.map (fun b => b * p.length) := by
  unfold Path.fromIrregular at h
  simp only [Option.bind_eq_bind, Option.bind_eq_some_iff] at h
  obtain ⟨pts, _, samples, h2, speed, h3, inter, h4, len, h5, h6⟩ := h
  obtain ⟨c1, c2, c3, rfl⟩ := cubicSpline_some h4
  have hN : 2 ≤ N := by rw [List.length_map, linspace_length] at c1; exact c1
  cases h6
  refine ⟨_, hN, by rw [List.length_map, linspace_length], c3, ?_, ?_, rfl, rfl⟩
  · rw [List.getElem?_map, linspace_get (by omega)]; simp
  · rw [List.getLast?_eq_getElem?, List.length_map, linspace_length] at h5
    exact h5

/-- **C74, ends.** The path starts at the point of parameter zero, ends at the point of parameter
one, and has a positive length. -/
theorem C74_ends {cs : SplineMaker} (hc : SplineContract cs) {f : ℝ → Option V3} {N : ℕ}
    {bs : List ℝ} {p : Path} (h : Path.fromIrregular cs f N bs = some p) :
    p.start = f 0 ∧ p.endpoint = f 1 ∧ 0 < p.length := by
  obtain ⟨pls, hN, hl, hinc, h0, h1, hf, _⟩ := fromIrregular_some h
  have hk := hc.knots pls (linspace 0 1 N) (by omega) (by rw [linspace_length, hl]) hinc
  refine ⟨?_, ?_, ?_⟩
  · unfold Path.start
    rw [hf]; beta_reduce
    rw [hk 0 0 0 h0 (by rw [linspace_get (by omega)]; simp)]
  · unfold Path.endpoint
    rw [hf]; beta_reduce
    rw [hk (N - 1) p.length 1 h1 (by
      rw [linspace_get (by omega)]
      have : ((N - 1 : ℕ) : ℝ) ≠ 0 := by
        exact_mod_cast (by omega : N - 1 ≠ 0)
      rw [div_self this])]
  · rw [List.getElem?_eq_some_iff] at h0 h1
    obtain ⟨a0, b0⟩ := h0
    obtain ⟨a1, b1⟩ := h1
    have := List.pairwise_iff_getElem.1 hinc 0 (N - 1) a0 a1 (by omega)
    rw [b0, b1] at this
    exact this

/-- The parameter as a function of the distance along the path: continuous, from zero to one. -/
theorem fromIrregular_param {cs : SplineMaker} (hc : SplineContract cs) {f : ℝ → Option V3} {N : ℕ}
    {bs : List ℝ} {p : Path} (h : Path.fromIrregular cs f N bs = some p) :
    ∃ g : ℝ → ℝ, ContDiff ℝ 1 g ∧ g 0 = 0 ∧ g p.length = 1 ∧ (∀ s, p.func s = f (g s)) ∧
      (∀ k < N, ∃ s ∈ Set.Icc 0 p.length, g s = (k : ℝ) / ((N - 1 : ℕ) : ℝ)) := by
  obtain ⟨pls, hN, hl, hinc, h0, h1, hf, _⟩ := fromIrregular_some h
  have hk := hc.knots pls (linspace 0 1 N) (by omega) (by rw [linspace_length, hl]) hinc
  have hne : ((N - 1 : ℕ) : ℝ) ≠ 0 := by exact_mod_cast (by omega : N - 1 ≠ 0)
  refine ⟨cs pls (linspace 0 1 N), hc.smooth _ _ (by omega) (by rw [linspace_length, hl]) hinc,
    hk 0 0 0 h0 (by rw [linspace_get (by omega)]; simp),
    hk (N - 1) p.length 1 h1 (by rw [linspace_get (by omega), div_self hne]), fun s => by rw [hf], ?_⟩
  intro k hkN
  have hkl : k < pls.length := by omega
  refine ⟨pls[k], ?_, hk k _ _ (List.getElem?_eq_getElem hkl) (linspace_get hkN)⟩
  rw [List.getElem?_eq_some_iff] at h0 h1
  obtain ⟨a0, b0⟩ := h0
  obtain ⟨a1, b1⟩ := h1
  have hp := List.pairwise_iff_getElem.1 hinc
  constructor
  · rcases Nat.eq_zero_or_pos k with rfl | hk0
    · exact b0.ge
    · rw [← b0]; exact (hp 0 k a0 hkl hk0).le
  · rcases Nat.lt_or_ge k (N - 1) with h' | h'
    · rw [← b1]; exact (hp k (N - 1) hkl a1 h').le
    · have : k = N - 1 := by omega
      subst this; exact b1.le

/-- **C74, on the curve.** Every point of the path is a point of the given curve: a statement that
holds for all points of the curve holds everywhere on the path. -/
theorem C74_on_curve {cs : SplineMaker} (hc : SplineContract cs) {f : ℝ → Option V3} {N : ℕ}
    {bs : List ℝ} {p : Path} (h : Path.fromIrregular cs f N bs = some p) {P : Option V3 → Prop}
    (hP : ∀ u, P (f u)) (s : ℝ) : P (p.func s) := by
  obtain ⟨g, _, _, _, hg, _⟩ := fromIrregular_param hc h
  rw [hg]; exact hP _

/-- **C74, the whole curve in order.** Any finite increasing list of parameters between zero and one
is met in that order along the path: in particular the path contains the whole curve. -/
theorem C74_in_order {cs : SplineMaker} (hc : SplineContract cs) {f : ℝ → Option V3} {N : ℕ}
    {bs : List ℝ} {p : Path} (h : Path.fromIrregular cs f N bs = some p) {us : List ℝ}
    (hus : us.Pairwise (· < ·)) (hin : ∀ u ∈ us, 0 ≤ u ∧ u ≤ 1) :
    ∃ ss : List ℝ, ss.Pairwise (· < ·) ∧ (∀ s ∈ ss, 0 ≤ s ∧ s ≤ p.length) ∧
      ss.map p.func = us.map f := by
  obtain ⟨g, hgc, hg0, hg1, hg, _⟩ := fromIrregular_param hc h
  have hL := (C74_ends hc h).2.2
  have key : ∀ (us : List ℝ), us.Pairwise (· < ·) → (∀ u ∈ us, u ≤ 1) → ∀ s0, 0 ≤ s0 → s0 ≤ p.length →
      (∀ u ∈ us, g s0 < u) →
      ∃ ss : List ℝ, ss.Pairwise (· < ·) ∧ (∀ s ∈ ss, s0 < s ∧ s ≤ p.length) ∧ ss.map g = us := by
    intro us
    induction us with
    | nil => intro _ _ s0 _ _ _; exact ⟨[], by simp, by simp, rfl⟩
    | cons u us ih =>
      intro hp h1 s0 h0 hs0 hlt
      rw [List.pairwise_cons] at hp
      obtain ⟨s, hs, hsu⟩ : u ∈ g '' Set.Icc s0 p.length :=
        intermediate_value_Icc hs0 hgc.continuous.continuousOn
          ⟨(hlt u (by simp)).le, by rw [hg1]; exact h1 u (by simp)⟩
      have hs1 : s0 < s := by
        refine lt_of_le_of_ne hs.1 ?_
        rintro rfl
        exact absurd hsu (hlt u (by simp)).ne
      obtain ⟨ss, h4, h5, h6⟩ := ih hp.2 (fun v hv => h1 v (by simp [hv])) s (by linarith) hs.2
        (fun v hv => by rw [hsu]; exact hp.1 v hv)
      refine ⟨s :: ss, ?_, ?_, by simp [hsu, h6]⟩
      · rw [List.pairwise_cons]
        exact ⟨fun t ht => (h5 t ht).1, h4⟩
      · intro t ht
        rcases List.mem_cons.1 ht with rfl | ht
        · exact ⟨hs1, hs.2⟩
        · exact ⟨hs1.trans (h5 t ht).1, (h5 t ht).2⟩
  have fin : ∀ ss : List ℝ, ∀ us : List ℝ, ss.map g = us → ss.map p.func = us.map f := by
    rintro ss _ rfl
    rw [List.map_map]
    exact List.map_congr_left (fun s _ => hg s)
  by_cases hz : us.head? = some 0
  · cases us with
    | nil => cases hz
    | cons u us =>
      simp only [List.head?_cons, Option.some.injEq] at hz
      subst hz
      rw [List.pairwise_cons] at hus
      obtain ⟨ss, h4, h5, h6⟩ := key us hus.2 (fun v hv => (hin v (by simp [hv])).2) 0 le_rfl hL.le
        (fun v hv => by rw [hg0]; exact hus.1 v hv)
      refine ⟨0 :: ss, ?_, ?_, fin _ _ (by simp [hg0, h6])⟩
      · rw [List.pairwise_cons]; exact ⟨fun t ht => (h5 t ht).1, h4⟩
      · intro t ht
        rcases List.mem_cons.1 ht with rfl | ht
        · exact ⟨le_rfl, hL.le⟩
        · exact ⟨(h5 t ht).1.le, (h5 t ht).2⟩
  · have hpos : ∀ u ∈ us, g 0 < u := by
      rw [hg0]
      cases us with
      | nil => simp
      | cons u us =>
        rw [List.pairwise_cons] at hus
        have hu : 0 < u := lt_of_le_of_ne (hin u (by simp)).1 (fun h' => hz (by simp [← h']))
        intro v hv
        rcases List.mem_cons.1 hv with rfl | hv
        · exact hu
        · exact hu.trans (hus.1 v hv)
    obtain ⟨ss, h4, h5, h6⟩ := key us hus (fun v hv => (hin v hv).2) 0 le_rfl hL.le hpos
    exact ⟨ss, h4, fun t ht => ⟨(h5 t ht).1.le, (h5 t ht).2⟩, fin _ _ h6⟩

theorem cubicSpline3_some {cs : SplineMaker} {xs : List ℝ} {ps : List V3} {f : ℝ → V3}
    (h : cubicSpline3 cs xs ps = some f) : 2 ≤ xs.length ∧ ps.length = xs.length ∧ xs.Pairwise (· < ·) ∧
      f = fun t => ⟨cs xs (ps.map V3.x) t, cs xs (ps.map V3.y) t, cs xs (ps.map V3.z) t⟩ := by
  unfold cubicSpline3 at h
  simp only [Option.bind_eq_bind, Option.bind_eq_some_iff] at h
  obtain ⟨fx, hx, fy, hy, fz, hz, h⟩ := h
  obtain ⟨c1, c2, c3, rfl⟩ := cubicSpline_some hx
  obtain ⟨_, _, _, rfl⟩ := cubicSpline_some hy
  obtain ⟨_, _, _, rfl⟩ := cubicSpline_some hz
  exact ⟨c1, by simpa using c2, c3, (Option.some.inj h).symm⟩

theorem cubicSpline3_knots {cs : SplineMaker} (hc : SplineContract cs) {xs : List ℝ} {ps : List V3}
    {f : ℝ → V3} (h : cubicSpline3 cs xs ps = some f) {i : ℕ} {x : ℝ} {q : V3} (hx : xs[i]? = some x)
    (hq : ps[i]? = some q) : f x = q := by
  obtain ⟨c1, c2, c3, rfl⟩ := cubicSpline3_some h
  have hk := fun ys h' => hc.knots xs ys c1 h' c3 i x
  ext
  · exact hk _ (by simpa using c2) q.x hx (by rw [List.getElem?_map, hq]; rfl)
  · exact hk _ (by simpa using c2) q.y hx (by rw [List.getElem?_map, hq]; rfl)
  · exact hk _ (by simpa using c2) q.z hx (by rw [List.getElem?_map, hq]; rfl)

/-- **C74, spline through points.** A path fitted through points meets all of them, in the order
in which they were given; it starts at the first and ends at the last one. -/
theorem C74_spline_through_points {cs : SplineMaker} (hc : SplineContract cs) {pts : List V3} {N : ℕ}
    {p : Path} (h : Path.splineThroughPoints cs pts N = some p) :
    p.start = pts.head? ∧ p.endpoint = pts.getLast? ∧
    ∃ ss : List ℝ, ss.Pairwise (· < ·) ∧ (∀ s ∈ ss, 0 ≤ s ∧ s ≤ p.length) ∧
      ss.map p.func = pts.map some := by
  unfold Path.splineThroughPoints at h
  simp only [Option.bind_eq_bind, Option.bind_eq_some_iff] at h
  obtain ⟨f, hf, h⟩ := h
  obtain ⟨c1, c2, c3, _⟩ := cubicSpline3_some hf
  rw [linspace_length] at c1
  obtain ⟨e1, e2, _⟩ := C74_ends hc h
  have hne : ((pts.length - 1 : ℕ) : ℝ) ≠ 0 := by exact_mod_cast (by omega : pts.length - 1 ≠ 0)
  refine ⟨?_, ?_, ?_⟩
  · rw [e1, List.head?_eq_getElem?, List.getElem?_eq_getElem (by omega)]
    congr 1
    exact cubicSpline3_knots hc hf (i := 0) (by rw [linspace_get (by omega)]; simp)
      (List.getElem?_eq_getElem (by omega))
  · rw [e2, List.getLast?_eq_getElem?, List.getElem?_eq_getElem (by omega)]
    congr 1
    exact cubicSpline3_knots hc hf (i := pts.length - 1)
      (by rw [linspace_get (by omega), div_self hne]) (List.getElem?_eq_getElem (by omega))
  · obtain ⟨ss, h4, h5, h6⟩ := C74_in_order hc h c3 (by
      intro u hu
      unfold linspace at hu
      rw [List.mem_map] at hu
      obtain ⟨k, hk, rfl⟩ := hu
      rw [List.mem_range] at hk
      have : (0:ℝ) < ((pts.length - 1 : ℕ) : ℝ) := by exact_mod_cast (by omega : 0 < pts.length - 1)
      have h2 : (k : ℝ) ≤ ((pts.length - 1 : ℕ) : ℝ) := by exact_mod_cast (by omega : k ≤ pts.length - 1)
      constructor
      · positivity
      · rw [sub_zero, zero_add, mul_one_div, div_le_one this]; exact h2)
    refine ⟨ss, h4, h5, h6.trans ?_⟩
    refine List.ext_getElem? ?_
    intro i
    rw [List.getElem?_map, List.getElem?_map]
    by_cases hi : i < pts.length
    · rw [linspace_get hi, List.getElem?_eq_getElem hi]
      simp only [Option.map_some]
      rw [cubicSpline3_knots hc hf (linspace_get hi) (List.getElem?_eq_getElem hi)]
    · rw [List.getElem?_eq_none (by rw [linspace_length]; omega), List.getElem?_eq_none (by omega)]; rfl

/-! ## Paths that the spline represents exactly -/

/-- If the sampled curve has the derivative with norm `v` (a polynomial that the spline
represents), the path is described explicitly. -/
theorem fromIrregular_exact {cs : SplineMaker} (hc : SplineContract cs) {F : ℝ → V3} {N : ℕ}
    (hN : 2 ≤ N) {px py pz v : Polynomial ℝ} (hF : ∀ u, F u = ⟨px.eval u, py.eval u, pz.eval u⟩)
    (dx : px.natDegree ≤ 3 ∧ px.natDegree < N) (dy : py.natDegree ≤ 3 ∧ py.natDegree < N)
    (dz : pz.natDegree ≤ 3 ∧ pz.natDegree < N) (dv : v.natDegree ≤ 3 ∧ v.natDegree < N)
    (hv : ∀ u ∈ Set.Icc (0:ℝ) 1, V3.norm ⟨px.derivative.eval u, py.derivative.eval u, pz.derivative.eval u⟩ = v.eval u)
    {A : ℝ → ℝ} (hA : ∀ t, ∫ x in (0:ℝ)..t, v.eval x = A t) (hAm : StrictMonoOn A (Set.Icc 0 1))
    (bs : List ℝ) :
    Path.fromIrregular cs (fun u => some (F u)) N bs = some
      { func := fun s => some (F (cs ((linspace 0 1 N).map A) (linspace 0 1 N) s))
        length := A 1
        breaks := bs.map (fun b => b * A 1) } := by
  have hlen := linspace_length 0 1 N
  have hpw := linspace_pairwise hN
  have hmem : ∀ u ∈ linspace 0 1 N, u ∈ Set.Icc (0:ℝ) 1 := by
    intro u hu
    unfold linspace at hu
    rw [List.mem_map] at hu
    obtain ⟨k, hk, rfl⟩ := hu
    rw [List.mem_range] at hk
    have : (0:ℝ) < ((N - 1 : ℕ) : ℝ) := by exact_mod_cast (by omega : 0 < N - 1)
    have h2 : (k : ℝ) ≤ ((N - 1 : ℕ) : ℝ) := by exact_mod_cast (by omega : k ≤ N - 1)
    constructor
    · positivity
    · rw [sub_zero, zero_add, mul_one_div, div_le_one this]; exact h2
  have hm : (linspace 0 1 N).mapM (fun u => some (F u)) = some ((linspace 0 1 N).map F) := by
    generalize linspace 0 1 N = l
    induction l with
    | nil => rfl
    | cons a l ih => simp [List.mapM_cons, ih]
  have hs : cubicSpline3 cs (linspace 0 1 N) ((linspace 0 1 N).map F) = some F := by
    unfold cubicSpline3
    rw [cubicSpline_ok cs (by omega) (by simp) hpw, cubicSpline_ok cs (by omega) (by simp) hpw,
      cubicSpline_ok cs (by omega) (by simp) hpw]
    simp only [Option.bind_eq_bind, Option.bind_some, List.map_map]
    have e : ∀ (q : Polynomial ℝ) (c : V3 → ℝ), (∀ u, c (F u) = q.eval u) → q.natDegree ≤ 3 → q.natDegree < N →
        cs (linspace 0 1 N) ((linspace 0 1 N).map (c ∘ F)) = q.eval := by
      intro q c hq h1 h2
      have e0 : (linspace 0 1 N).map (c ∘ F) = (linspace 0 1 N).map q.eval :=
        List.map_congr_left (fun u _ => hq u)
      rw [e0]
      exact hc.poly _ q (by omega) hpw h1 (by omega)
    rw [e px V3.x (fun u => by rw [hF]) dx.1 dx.2, e py V3.y (fun u => by rw [hF]) dy.1 dy.2,
      e pz V3.z (fun u => by rw [hF]) dz.1 dz.2]
    congr 1
    funext t
    rw [hF]
  have hd : (linspace 0 1 N).map (fun t => V3.norm (curveDeriv F t)) = (linspace 0 1 N).map v.eval := by
    refine List.map_congr_left ?_
    intro u hu
    rw [← hv u (hmem u hu)]
    unfold curveDeriv
    congr 1
    ext
    · simp only [hF]; exact px.deriv
    · simp only [hF]; exact py.deriv
    · simp only [hF]; exact pz.deriv
  have hsp : cs (linspace 0 1 N) ((linspace 0 1 N).map v.eval) = v.eval :=
    hc.poly _ v (by omega) hpw dv.1 (by omega)
  have hpl : ((linspace 0 1 N).map A).Pairwise (· < ·) := by
    rw [List.pairwise_map]
    exact hpw.imp_of_mem (fun ha hb hab => hAm (hmem _ ha) (hmem _ hb) hab)
  unfold Path.fromIrregular
  simp only [Option.bind_eq_bind]
  rw [hm, Option.bind_some, hs, Option.bind_some, hd, cubicSpline_ok cs (by omega) (by simp) hpw,
    Option.bind_some, hsp]
  simp only [hA]
  rw [cubicSpline_ok cs (by simp [hlen]; omega) (by simp) hpl, Option.bind_some,
    List.getLast?_eq_getElem?, List.length_map, hlen, List.getElem?_map, linspace_get (by omega)]
  have hne : ((N - 1 : ℕ) : ℝ) ≠ 0 := by exact_mod_cast (by omega : N - 1 ≠ 0)
  rw [div_self hne]
  rfl

open Polynomial in
/-- **C74, uniform segments.** A straight segment with a uniform parametrisation gives the same path
as `Path.line`: same length and the same point at every distance. -/
theorem C74_uniform_segment {cs : SplineMaker} (hc : SplineContract cs) {a b : V3} (hab : a ≠ b)
    {N : ℕ} (hN : 2 ≤ N) : ∃ p, Path.fromIrregular cs (fun u => some ((1 - u) * a + u * b)) N = some p ∧
      p.length = (Path.line a b).length ∧ (∀ s, p.func s = (Path.line a b).func s) ∧ p.breaks = [] := by
  have hl := norm_sub_pos hab
  have hdeg : ∀ r t : ℝ, (C r * X + C t : ℝ[X]).natDegree ≤ 3 ∧ (C r * X + C t : ℝ[X]).natDegree < N := by
    intro r t
    have : (C r * X + C t : ℝ[X]).natDegree ≤ 1 := natDegree_linear_le
    omega
  have key := fromIrregular_exact hc (F := fun u => (1 - u) * a + u * b) hN
    (px := C (b.x - a.x) * X + C a.x) (py := C (b.y - a.y) * X + C a.y) (pz := C (b.z - a.z) * X + C a.z)
    (v := C (V3.norm (a - b)))
    (by intro u; ext <;> simp <;> ring) (hdeg _ _) (hdeg _ _) (hdeg _ _) (by simp; omega)
    (by
      intro u _
      simp only [derivative_add, derivative_mul, derivative_C, derivative_X, zero_mul, mul_one, zero_add,
        add_zero, eval_C]
      unfold V3.norm dot
      congr 1
      simp
      ring)
    (A := fun t => t * V3.norm (a - b)) (by intro t; simp)
    (by intro x _ y _ hxy; exact mul_lt_mul_of_pos_right hxy hl) []
  refine ⟨_, key, by simp [Path.line], ?_, rfl⟩
  intro s
  rw [line_func hab]
  have : cs ((linspace 0 1 N).map (fun t => t * V3.norm (a - b))) (linspace 0 1 N) s = s / V3.norm (a - b) := by
    have hp := hc.poly ((linspace 0 1 N).map (fun t => t * V3.norm (a - b))) (C (1 / V3.norm (a - b)) * X)
      (by rw [List.length_map, linspace_length]; exact hN)
      (by
        rw [List.pairwise_map]
        exact (linspace_pairwise hN).imp (fun hab => mul_lt_mul_of_pos_right hab hl))
      (by
        have : (C (1 / V3.norm (a - b)) * X : ℝ[X]).natDegree ≤ 1 := (natDegree_C_mul_le _ _).trans natDegree_X_le
        omega)
      (by
        have : (C (1 / V3.norm (a - b)) * X : ℝ[X]).natDegree ≤ 1 := (natDegree_C_mul_le _ _).trans natDegree_X_le
        rw [List.length_map, linspace_length]; omega)
    rw [List.map_map] at hp
    have e : (linspace 0 1 N).map ((fun x => (C (1 / V3.norm (a - b)) * X : ℝ[X]).eval x) ∘ fun t => t * V3.norm (a - b))
        = linspace 0 1 N := by
      conv_rhs => rw [← List.map_id (linspace 0 1 N)]
      refine List.map_congr_left ?_
      intro u _
      simp
      field_simp
    rw [e] at hp
    rw [hp]
    simp
    ring
  simp only [this]

/-- **C74, refused.** A parametrisation that does not move is refused: there is no path. -/
theorem C74_constant_refused {cs : SplineMaker} (hc : SplineContract cs) (a : V3) {N : ℕ} (bs : List ℝ) :
    Path.fromIrregular cs (fun _ => some a) N bs = none := by
  rcases Nat.lt_or_ge N 2 with hN | hN
  · cases h : Path.fromIrregular cs (fun _ => some a) N bs with
    | none => rfl
    | some p =>
      obtain ⟨_, h2, _⟩ := fromIrregular_some h
      omega
  · have hpw := linspace_pairwise hN
    have hlen := linspace_length 0 1 N
    have hm : (linspace 0 1 N).mapM (fun _ => some a) = some ((linspace 0 1 N).map (fun _ => a)) := by
      generalize linspace 0 1 N = l
      induction l with
      | nil => rfl
      | cons _ l ih => simp [List.mapM_cons, ih]
    have e : ∀ r : ℝ, cs (linspace 0 1 N) ((linspace 0 1 N).map (fun _ => r)) = fun _ => r := by
      intro r
      have := hc.poly (linspace 0 1 N) (Polynomial.C r) (by omega) hpw (by simp) (by simp; omega)
      simpa using this
    have hs : cubicSpline3 cs (linspace 0 1 N) ((linspace 0 1 N).map (fun _ => a)) = some (fun _ => a) := by
      unfold cubicSpline3
      rw [cubicSpline_ok cs (by omega) (by simp) hpw, cubicSpline_ok cs (by omega) (by simp) hpw,
        cubicSpline_ok cs (by omega) (by simp) hpw]
      simp only [Option.bind_eq_bind, Option.bind_some, List.map_map]
      have e' : ∀ c : V3 → ℝ, (c ∘ fun _ : ℝ => a) = fun _ => c a := fun c => rfl
      rw [e', e', e', e, e, e]
      rfl
    unfold Path.fromIrregular
    simp only [Option.bind_eq_bind]
    rw [hm, Option.bind_some, hs, Option.bind_some]
    have hz : (linspace 0 1 N).map (fun t => V3.norm (curveDeriv (fun _ => a) t)) =
        (linspace 0 1 N).map (fun _ => (0:ℝ)) := by
      refine List.map_congr_left ?_
      intro t _
      simp [curveDeriv, V3.norm, dot]
    rw [hz, cubicSpline_ok cs (by omega) (by simp) hpw, Option.bind_some, e]
    have : cubicSpline cs ((linspace 0 1 N).map (fun t => ∫ _ in (0:ℝ)..t, (0:ℝ))) (linspace 0 1 N) = none := by
      unfold cubicSpline
      rw [if_neg]
      rintro ⟨_, _, hp⟩
      have := List.pairwise_iff_getElem.1 hp 0 1 (by simp [hlen]; omega) (by simp [hlen]; omega) (by omega)
      simp at this
    rw [this]
    rfl

/-- **C74, ellipse.** The path lies on the ellipse, starts and ends at its extreme point on the x
axis, and contains every point of the ellipse. -/
theorem C74_ellipse {cs : SplineMaker} (hc : SplineContract cs) {a b : ℝ} (ha : a ≠ 0) (hb : b ≠ 0)
    {p : Path} (h : Path.ellipse cs a b = some p) :
    (∀ s, ∃ q, p.func s = some q ∧ (q.x / a) ^ 2 + (q.y / b) ^ 2 = 1 ∧ q.z = 0) ∧
    p.start = some ⟨a, 0, 0⟩ ∧ p.endpoint = some ⟨a, 0, 0⟩ ∧ p.isClosed = some true ∧
    (∀ q : V3, (q.x / a) ^ 2 + (q.y / b) ^ 2 = 1 → q.z = 0 → ∃ s, 0 ≤ s ∧ s ≤ p.length ∧ p.func s = some q) := by
  unfold Path.ellipse at h
  obtain ⟨e1, e2, hL⟩ := C74_ends hc h
  have e1' : p.start = some ⟨a, 0, 0⟩ := by rw [e1]; simp
  have e2' : p.endpoint = some ⟨a, 0, 0⟩ := by rw [e2]; simp
  refine ⟨?_, e1', e2', ?_, ?_⟩
  · refine C74_on_curve hc h (P := fun o => ∃ q, o = some q ∧ (q.x / a) ^ 2 + (q.y / b) ^ 2 = 1 ∧ q.z = 0) ?_
    intro u
    refine ⟨_, rfl, ?_, rfl⟩
    simp only
    rw [mul_div_cancel_left₀ _ ha, mul_div_cancel_left₀ _ hb]
    exact Real.cos_sq_add_sin_sq _
  · unfold Path.isClosed
    rw [e1', e2']
    simp [pointsClose_self]
  · intro q hq hz
    obtain ⟨t, ht, hx, hy⟩ : ∃ t ∈ Set.Ico (0:ℝ) (2 * Real.pi), q.x / a = Real.cos t ∧ q.y / b = Real.sin t := by
      have hcirc : ‖(⟨q.x / a, q.y / b⟩ : ℂ)‖ = 1 := by
        rw [Complex.norm_def, Complex.normSq_mk, ← sq, ← sq, hq, Real.sqrt_one]
      set z : ℂ := ⟨q.x / a, q.y / b⟩ with hzdef
      have hne : z ≠ 0 := by
        intro h0; rw [h0] at hcirc; simp at hcirc
      have hcos : Real.cos z.arg = q.x / a := by rw [Complex.cos_arg hne, hcirc, div_one]
      have hsin : Real.sin z.arg = q.y / b := by rw [Complex.sin_arg, hcirc, div_one]
      rcases lt_or_ge z.arg 0 with hlt | hge
      · refine ⟨z.arg + 2 * Real.pi, ⟨?_, by linarith⟩, ?_, ?_⟩
        · have := Complex.neg_pi_lt_arg z; linarith [Real.pi_pos]
        · rw [Real.cos_add_two_pi, hcos]
        · rw [Real.sin_add_two_pi, hsin]
      · refine ⟨z.arg, ⟨hge, ?_⟩, hcos.symm, hsin.symm⟩
        have := Complex.arg_le_pi z; linarith [Real.pi_pos]
    have hpi := Real.pi_pos
    obtain ⟨ss, _, h5, h6⟩ := C74_in_order hc h (us := [t / (2 * Real.pi)]) (by simp) (by
      intro u hu
      rw [List.mem_singleton] at hu
      subst hu
      constructor
      · exact div_nonneg ht.1 (by positivity)
      · rw [div_le_one (by positivity)]; exact ht.2.le)
    match ss, h5, h6 with
    | [], _, h6 => simp at h6
    | _ :: _ :: _, _, h6 => simp at h6
    | [s], h5, h6 =>
      refine ⟨s, (h5 s (by simp)).1, (h5 s (by simp)).2, ?_⟩
      simp only [List.map_cons, List.map_nil, List.cons.injEq, and_true] at h6
      rw [h6]
      have e : 2 * Real.pi * (t / (2 * Real.pi)) = t := by field_simp
      rw [e, ← hx, ← hy]
      congr 1
      ext
      · simp only; field_simp
      · simp only; field_simp
      · exact hz.symm

end Traceon
