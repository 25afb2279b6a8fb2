import Verif.Props.Axial3D
import Verif.Props.Tracer2

/-!
# C77: the field of the expansion around the axis, and the interpolation
-/
namespace Traceon
open Real Spec V3

theorem Spec.IsGradient.finset_sum {ι : Type} (s : Finset ι) (f : ι → V3 → ℝ) (g : ι → V3) (p : V3) (h : ∀ a ∈ s, IsGradient (f a) (g a) p) :
    IsGradient (fun q => ∑ a ∈ s, f a q) ⟨∑ a ∈ s, (g a).x, ∑ a ∈ s, (g a).y, ∑ a ∈ s, (g a).z⟩ p := by
  classical
  induction s using Finset.induction_on with
  | empty => exact IsGradient.const 0 p
  | insert a s ha ih =>
    simp only [Finset.sum_insert ha]
    exact (h a (Finset.mem_insert_self a s)).add (ih fun b hb => h b (Finset.mem_insert_of_mem hb))

theorem norm2d_sq2 (x y : ℝ) : norm2d x y ^ 2 = x * x + y * y := Real.sq_sqrt (by nlinarith [sq_nonneg x, sq_nonneg y])

/-- One term as a polynomial in `x` and `y`. -/
theorem series_term (a b x y : ℝ) (ν m : ℕ) : (a * cos (m * atan2 y x) + b * sin (m * atan2 y x)) * norm2d x y ^ (m + 2 * ν) =
    (a * (cre x y m).1 + b * (cre x y m).2) * (x * x + y * y) ^ ν := by
  rw [← (cre_eq x y m).1, ← (cre_eq x y m).2, ← norm2d_sq2, pow_add, pow_mul]
  ring

/-- The gradient of one term. -/
noncomputable def termGrad (a b a' b' x y : ℝ) (ν m : ℕ) : V3 :=
  ⟨(a * (m * (cre x y (m - 1)).1) + b * (m * (cre x y (m - 1)).2)) * (x * x + y * y) ^ ν + (a * (cre x y m).1 + b * (cre x y m).2) * (ν * (x * x + y * y) ^ (ν - 1) * (2 * x)),
   (a * -(m * (cre x y (m - 1)).2) + b * (m * (cre x y (m - 1)).1)) * (x * x + y * y) ^ ν + (a * (cre x y m).1 + b * (cre x y m).2) * (ν * (x * x + y * y) ^ (ν - 1) * (2 * y)),
   (a' * (cre x y m).1 + b' * (cre x y m).2) * (x * x + y * y) ^ ν⟩

theorem term_gradient {A B : ℝ → ℝ} {a' b' : ℝ} (p : V3) (hA : HasDerivAt A a' p.z) (hB : HasDerivAt B b' p.z) (ν m : ℕ) :
    IsGradient (fun q => (A q.z * (cre q.x q.y m).1 + B q.z * (cre q.x q.y m).2) * (q.x * q.x + q.y * q.y) ^ ν) (termGrad (A p.z) (B p.z) a' b' p.x p.y ν m) p := by
  have hx := IsGradient.x p
  have hy := IsGradient.y p
  have hs := (hx.mul hx).add (hy.mul hy)
  have hpow := IsGradient.comp (hasDerivAt_pow ν _) hs
  have hzA := IsGradient.comp (f := fun q => q.z) hA (IsGradient.z p)
  have hzB := IsGradient.comp (f := fun q => q.z) hB (IsGradient.z p)
  have hc := cre_gradient m p
  refine (((hzA.mul hc.1).add (hzB.mul hc.2)).mul hpow).eq ?_
  unfold termGrad
  ext <;> simp <;> ring

section
variable {A B : Nat → Nat → ℝ → ℝ} {Ad Bd : Nat → Nat → ℝ} (p : V3) (hA : ∀ ν m, HasDerivAt (A ν m) (Ad ν m) p.z) (hB : ∀ ν m, HasDerivAt (B ν m) (Bd ν m) p.z)
include hA hB

theorem series_gradient : IsGradient (fun q => series3D (fun ν m => A ν m q.z) (fun ν m => B ν m q.z) q.x q.y)
    ⟨∑ ν ∈ Finset.range 4, ∑ m ∈ Finset.range 8, (termGrad (A ν m p.z) (B ν m p.z) (Ad ν m) (Bd ν m) p.x p.y ν m).x,
     ∑ ν ∈ Finset.range 4, ∑ m ∈ Finset.range 8, (termGrad (A ν m p.z) (B ν m p.z) (Ad ν m) (Bd ν m) p.x p.y ν m).y,
     ∑ ν ∈ Finset.range 4, ∑ m ∈ Finset.range 8, (termGrad (A ν m p.z) (B ν m p.z) (Ad ν m) (Bd ν m) p.x p.y ν m).z⟩ p := by
  have := IsGradient.finset_sum (Finset.range 4)
    (fun ν q => ∑ m ∈ Finset.range 8, (A ν m q.z * (cre q.x q.y m).1 + B ν m q.z * (cre q.x q.y m).2) * (q.x * q.x + q.y * q.y) ^ ν) _ p
    (fun ν _ => IsGradient.finset_sum (Finset.range 8)
      (fun m q => (A ν m q.z * (cre q.x q.y m).1 + B ν m q.z * (cre q.x q.y m).2) * (q.x * q.x + q.y * q.y) ^ ν) _ p (fun m _ => term_gradient p (hA ν m) (hB ν m) ν m))
  refine this.congr fun q => ?_
  unfold series3D
  simp only [sumNuM_eq]
  exact Finset.sum_congr rfl fun ν _ => Finset.sum_congr rfl fun m _ => (series_term _ _ _ _ ν m).symm

/-- Off the axis the field is minus the gradient. -/
theorem seriesField_off (hr : 1e-10 ≤ norm2d p.x p.y) : IsGradient (fun q => series3D (fun ν m => A ν m q.z) (fun ν m => B ν m q.z) q.x q.y)
    (-seriesField3D (fun ν m => A ν m p.z) (fun ν m => B ν m p.z) Ad Bd p.x p.y) p := by
  refine (series_gradient p hA hB).eq ?_
  have hr0 : 0 < norm2d p.x p.y := lt_of_lt_of_le (by norm_num) hr
  have hne := hr0.ne'
  have hsq := norm2d_sq2 p.x p.y
  have hS : p.x * p.x + p.y * p.y ≠ 0 := by rw [← hsq]; positivity
  unfold seriesField3D
  simp only [if_neg (not_lt.2 hr), sumNuM_eq]
  have hprev : ∀ m : ℕ, m * ((p.x * p.x + p.y * p.y) * (cre p.x p.y (m - 1)).1) = m * (p.x * (cre p.x p.y m).1 + p.y * (cre p.x p.y m).2) ∧
      m * ((p.x * p.x + p.y * p.y) * (cre p.x p.y (m - 1)).2) = m * (p.x * (cre p.x p.y m).2 - p.y * (cre p.x p.y m).1) := by
    intro m
    cases m with
    | zero => simp
    | succ m => simp only [Nat.add_sub_cancel, cre]; constructor <;> ring
  have hpow : ∀ ν : ℕ, (ν : ℝ) * ((p.x * p.x + p.y * p.y) * (p.x * p.x + p.y * p.y) ^ (ν - 1)) = ν * (p.x * p.x + p.y * p.y) ^ ν := by
    intro ν
    cases ν with
    | zero => simp
    | succ ν => rw [Nat.add_sub_cancel, ← pow_succ']
  have hzp : ∀ ν m : ℕ, norm2d p.x p.y ^ (((2 * ν + m : ℕ) : ℤ) - 1) = norm2d p.x p.y ^ (m + 2 * ν) / norm2d p.x p.y := by
    intro ν m
    rw [zpow_sub_one₀ hne, zpow_natCast, div_eq_mul_inv, add_comm]
  have trig : ∀ (a b : ℝ) (ν m : ℕ), a * cos (m * atan2 p.y p.x) * norm2d p.x p.y ^ (m + 2 * ν) + b * sin (m * atan2 p.y p.x) * norm2d p.x p.y ^ (m + 2 * ν) =
      (a * (cre p.x p.y m).1 + b * (cre p.x p.y m).2) * (p.x * p.x + p.y * p.y) ^ ν := by
    intro a b ν m
    rw [← series_term]; ring
  ext
  · simp only [neg_x, ← Finset.sum_neg_distrib]
    refine Finset.sum_congr rfl fun ν _ => Finset.sum_congr rfl fun m _ => ?_
    have t1 := trig (A ν m p.z) (B ν m p.z) ν m
    have t2 := trig (B ν m p.z) (-A ν m p.z) ν m
    have e : - -((A ν m p.z * cos (m * atan2 p.y p.x) + B ν m p.z * sin (m * atan2 p.y p.x)) * ((2 * ν + m : ℕ) * norm2d p.x p.y ^ (((2 * ν + m : ℕ) : ℤ) - 1)) * p.x / norm2d p.x p.y +
          m * (-A ν m p.z * sin (m * atan2 p.y p.x) + B ν m p.z * cos (m * atan2 p.y p.x)) * norm2d p.x p.y ^ (2 * ν + m) * -p.y / norm2d p.x p.y ^ 2) =
        ((A ν m p.z * cos (m * atan2 p.y p.x) * norm2d p.x p.y ^ (m + 2 * ν) + B ν m p.z * sin (m * atan2 p.y p.x) * norm2d p.x p.y ^ (m + 2 * ν)) * (2 * ν + m) * p.x -
          m * (B ν m p.z * cos (m * atan2 p.y p.x) * norm2d p.x p.y ^ (m + 2 * ν) + -A ν m p.z * sin (m * atan2 p.y p.x) * norm2d p.x p.y ^ (m + 2 * ν)) * p.y) / norm2d p.x p.y ^ 2 := by
      rw [hzp, add_comm (2 * ν) m]; push_cast; field_simp; ring
    rw [e, t1, t2, hsq]
    unfold termGrad
    simp only
    rw [eq_div_iff hS]
    have h1 := (hprev m).1
    have h2 := (hprev m).2
    have h3 := hpow ν
    generalize (p.x * p.x + p.y * p.y) ^ (ν - 1) = Pm at *
    generalize (p.x * p.x + p.y * p.y) ^ ν = P at *
    linear_combination (A ν m p.z * P) * h1 + (B ν m p.z * P) * h2 + (A ν m p.z * (cre p.x p.y m).1 + B ν m p.z * (cre p.x p.y m).2) * (2 * p.x) * h3
  · simp only [neg_y, ← Finset.sum_neg_distrib]
    refine Finset.sum_congr rfl fun ν _ => Finset.sum_congr rfl fun m _ => ?_
    have t1 := trig (A ν m p.z) (B ν m p.z) ν m
    have t2 := trig (B ν m p.z) (-A ν m p.z) ν m
    have e : - -((A ν m p.z * cos (m * atan2 p.y p.x) + B ν m p.z * sin (m * atan2 p.y p.x)) * ((2 * ν + m : ℕ) * norm2d p.x p.y ^ (((2 * ν + m : ℕ) : ℤ) - 1)) * p.y / norm2d p.x p.y +
          m * (-A ν m p.z * sin (m * atan2 p.y p.x) + B ν m p.z * cos (m * atan2 p.y p.x)) * norm2d p.x p.y ^ (2 * ν + m) * p.x / norm2d p.x p.y ^ 2) =
        ((A ν m p.z * cos (m * atan2 p.y p.x) * norm2d p.x p.y ^ (m + 2 * ν) + B ν m p.z * sin (m * atan2 p.y p.x) * norm2d p.x p.y ^ (m + 2 * ν)) * (2 * ν + m) * p.y +
          m * (B ν m p.z * cos (m * atan2 p.y p.x) * norm2d p.x p.y ^ (m + 2 * ν) + -A ν m p.z * sin (m * atan2 p.y p.x) * norm2d p.x p.y ^ (m + 2 * ν)) * p.x) / norm2d p.x p.y ^ 2 := by
      rw [hzp, add_comm (2 * ν) m]; push_cast; field_simp; ring
    rw [e, t1, t2, hsq]
    unfold termGrad
    simp only
    rw [eq_div_iff hS]
    have h1 := (hprev m).1
    have h2 := (hprev m).2
    have h3 := hpow ν
    generalize (p.x * p.x + p.y * p.y) ^ (ν - 1) = Pm at *
    generalize (p.x * p.x + p.y * p.y) ^ ν = P at *
    linear_combination (B ν m p.z * P) * h1 - (A ν m p.z * P) * h2 + (A ν m p.z * (cre p.x p.y m).1 + B ν m p.z * (cre p.x p.y m).2) * (2 * p.y) * h3
  · simp only [neg_z, ← Finset.sum_neg_distrib]
    refine Finset.sum_congr rfl fun ν _ => Finset.sum_congr rfl fun m _ => ?_
    unfold termGrad
    simp only
    rw [← series_term, add_comm (2 * ν) m, neg_neg]

/-- On the axis the field is minus the gradient. -/
theorem seriesField_axis (hx : p.x = 0) (hy : p.y = 0) : IsGradient (fun q => series3D (fun ν m => A ν m q.z) (fun ν m => B ν m q.z) q.x q.y)
    (-seriesField3D (fun ν m => A ν m p.z) (fun ν m => B ν m p.z) Ad Bd p.x p.y) p := by
  refine (series_gradient p hA hB).eq ?_
  have hr : norm2d p.x p.y < 1e-10 := by rw [hx, hy]; simp [norm2d]; norm_num
  unfold seriesField3D
  simp only [if_pos hr]
  unfold termGrad
  rw [hx, hy]
  ext <;> simp [Finset.sum_range_succ, cre]

end

/-! ## The interpolation -/

theorem hasDerivAt_cubic3 (c : Nat → ℝ) (z1 z : ℝ) : HasDerivAt (fun t => cubic3 c (t - z1)) (cubic3Diff c (z - z1)) z := by
  unfold cubic3 cubic3Diff
  have h : HasDerivAt (fun t => t - z1) 1 z := (hasDerivAt_id z).sub_const z1
  have := ((((h.pow 3).mul_const (c 0)).add ((h.pow 2).mul_const (c 1))).add (h.mul_const (c 2))).add_const (c 3)
  refine this.congr_deriv ?_
  simp

theorem continuous_of_isGradient_congr {f f' : V3 → ℝ} {g p : V3} (h : IsGradient f g p) {a b : ℝ} (ha : a < p.z) (hb : p.z < b) (he : ∀ q : V3, a < q.z → q.z < b → f' q = f q) :
    IsGradient f' g p := by
  unfold IsGradient at h ⊢
  refine h.congr_of_eventuallyEq ?_
  have h1 : ∀ᶠ v : ℝ × ℝ × ℝ in nhds (p.x, p.y, p.z), a < v.2.2 := (continuous_snd.comp continuous_snd).continuousAt.eventually (lt_mem_nhds ha)
  have h2 : ∀ᶠ v : ℝ × ℝ × ℝ in nhds (p.x, p.y, p.z), v.2.2 < b := (continuous_snd.comp continuous_snd).continuousAt.eventually (gt_mem_nhds hb)
  filter_upwards [h1, h2] with v hv1 hv2
  exact he ⟨v.1, v.2.1, v.2.2⟩ hv1 hv2

/-- The values in an interval. -/
theorem derivs3d_cell {zs : List ℝ} (hg : UniformGrid zs) (coeffs : List Row3D) {k : ℕ} {a b : ℝ} {C : Row3D} (ha : zs[k]? = some a) (hb : zs[k + 1]? = some b)
    (hC : coeffs[k]? = some C) (q : V3) (h0 : a ≤ q.z) (h1 : q.z < b) :
    potential3dDerivs q zs coeffs = some (series3D (fun ν m => cubic3 (C 0 ν m) (q.z - a)) (fun ν m => cubic3 (C 1 ν m) (q.z - a)) q.x q.y) ∧
    field3dDerivs q zs coeffs = some (seriesField3D (fun ν m => cubic3 (C 0 ν m) (q.z - a)) (fun ν m => cubic3 (C 1 ν m) (q.z - a))
      (fun ν m => cubic3Diff (C 0 ν m) (q.z - a)) (fun ν m => cubic3Diff (C 1 ν m) (q.z - a)) q.x q.y) := by
  obtain ⟨h2, z0, dz, hdz, h⟩ := hg
  have hk : k + 1 < zs.length := (List.getElem?_eq_some_iff.1 hb).1
  have ea : a = z0 + k * dz := by have := h k (by omega); rw [ha] at this; simpa using this
  have eb : b = z0 + (k + 1) * dz := by have := h (k + 1) hk; rw [hb] at this; simpa using this
  have hle : ((k + 1 : ℕ) : ℝ) * dz ≤ (zs.length - 1 : ℕ) * dz := by
    refine mul_le_mul_of_nonneg_right ?_ hdz.le
    exact_mod_cast (by omega : k + 1 ≤ zs.length - 1)
  push_cast at hle
  have hidx := axialIndex_grid (z := q.z) h2 hdz h (k := k) (by omega) (by linarith) (by linarith) (by push_cast; linarith)
  have hgd : zs.getD k 0 = a := by rw [List.getD_eq_getElem?_getD, ha]; rfl
  unfold potential3dDerivs field3dDerivs
  rw [hidx]
  simp only [hC, hgd, Option.map_some]
  exact ⟨trivial, trivial⟩

/-- **C77** (field). Inside every interval, at the axis and at more than 1e-10 from it, the field is minus the gradient of the potential which the program reports. -/
theorem C77_field {zs : List ℝ} (hg : UniformGrid zs) (coeffs : List Row3D) {k : ℕ} {a b : ℝ} {C : Row3D} (ha : zs[k]? = some a) (hb : zs[k + 1]? = some b)
    (hC : coeffs[k]? = some C) (p : V3) (h0 : a < p.z) (h1 : p.z < b) (hr : (p.x = 0 ∧ p.y = 0) ∨ 1e-10 ≤ √(p.x * p.x + p.y * p.y)) :
    ∃ E, field3dDerivs p zs coeffs = some E ∧ IsGradient (fun q => (potential3dDerivs q zs coeffs).getD 0) (-E) p := by
  refine ⟨_, (derivs3d_cell hg coeffs ha hb hC p h0.le h1).2, ?_⟩
  refine continuous_of_isGradient_congr (f := fun q => series3D (fun ν m => cubic3 (C 0 ν m) (q.z - a)) (fun ν m => cubic3 (C 1 ν m) (q.z - a)) q.x q.y) ?_ h0 h1
    fun q hq0 hq1 => by rw [(derivs3d_cell hg coeffs ha hb hC q hq0.le hq1).1]; rfl
  have hA : ∀ ν m, HasDerivAt (fun t => cubic3 (C 0 ν m) (t - a)) (cubic3Diff (C 0 ν m) (p.z - a)) p.z := fun ν m => hasDerivAt_cubic3 _ a p.z
  have hB : ∀ ν m, HasDerivAt (fun t => cubic3 (C 1 ν m) (t - a)) (cubic3Diff (C 1 ν m) (p.z - a)) p.z := fun ν m => hasDerivAt_cubic3 _ a p.z
  rcases hr with ⟨hx, hy⟩ | hr
  · exact seriesField_axis (A := fun ν m t => cubic3 (C 0 ν m) (t - a)) (B := fun ν m t => cubic3 (C 1 ν m) (t - a)) p hA hB hx hy
  · exact seriesField_off (A := fun ν m t => cubic3 (C 0 ν m) (t - a)) (B := fun ν m t => cubic3 (C 1 ν m) (t - a)) p hA hB hr

/-- **C77** (close to the axis). At less than 1e-10 from the axis the field is the one of the axis. -/
theorem C77_near_axis (zs : List ℝ) (coeffs : List Row3D) (p : V3) (hr : √(p.x * p.x + p.y * p.y) < 1e-10) :
    field3dDerivs p zs coeffs = field3dDerivs ⟨0, 0, p.z⟩ zs coeffs := by
  have h0 : norm2d 0 0 < 1e-10 := by simp [norm2d]; norm_num
  have h1 : norm2d p.x p.y < 1e-10 := hr
  unfold field3dDerivs
  simp only [seriesField3D, if_pos h0, if_pos h1]

/-- **C77** (at the samples). If the interpolation takes the values of the coefficients at the sample `z0`, the potential reported at this sample is the exact one up to the error of the series. -/
theorem C77_sample {zs : List ℝ} (hg : UniformGrid zs) (coeffs : List Row3D) {k : ℕ} {z0 b : ℝ} {C : Row3D} (ha : zs[k]? = some z0) (hb : zs[k + 1]? = some b)
    (hC : coeffs[k]? = some C) (e : EffCharges V3) (hval : ∀ j ν m, C j ν m 3 = axialCoefficients3d e z0 j ν m) {r : ℝ} (hr : 0 ≤ r) (φ : ℝ)
    (h : ∀ row ∈ e.positions, ∀ q ∈ row, ¬(q.x = 0 ∧ q.y = 0) ∧ r < V3.norm (q - ⟨0, 0, z0⟩)) :
    ∃ V, potential3dDerivs (cyl r φ z0) zs coeffs = some V ∧ |V - potential3d (cyl r φ z0) e| ≤ absSuperpose (fun q => axialError (V3.norm (q - ⟨0, 0, z0⟩)) r) e := by
  have hab : z0 < b := by
    obtain ⟨h2, z1, dz, hdz, hz⟩ := hg
    have hk : k + 1 < zs.length := (List.getElem?_eq_some_iff.1 hb).1
    have ea : z0 = z1 + k * dz := by have := hz k (by omega); rw [ha] at this; simpa using this
    have eb : b = z1 + (k + 1) * dz := by have := hz (k + 1) hk; rw [hb] at this; simpa using this
    rw [ea, eb]; linarith
  refine ⟨_, (derivs3d_cell hg coeffs ha hb hC (cyl r φ z0) (le_refl z0) hab).1, ?_⟩
  have e0 : ∀ c : Nat → ℝ, cubic3 c ((cyl r φ z0).z - z0) = c 3 := fun c => by simp [cubic3, cyl]
  simp only [e0, hval]
  exact C77_potential e z0 hr φ h

/-- **C77** fails at the end of the range, as C53: evaluating at the last sample reads a row of coefficients that does not exist. -/
theorem C77_last_sample_refuted {zs : List ℝ} (hg : UniformGrid zs) (coeffs : List Row3D) (hlen : coeffs.length = zs.length - 1) (p : V3)
    (hl : zs[zs.length - 1]? = some p.z) : potential3dDerivs p zs coeffs = none ∧ field3dDerivs p zs coeffs = none := by
  obtain ⟨h2, z0, dz, hdz, h⟩ := hg
  have el : p.z = z0 + (zs.length - 1 : ℕ) * dz := by have := h (zs.length - 1) (by omega); rw [hl] at this; simpa using this
  have hidx := axialIndex_grid (z := p.z) h2 hdz h (k := zs.length - 1) (by omega) el.ge (by rw [el]; push_cast; linarith) el.le
  have hn : coeffs[zs.length - 1]? = none := List.getElem?_eq_none (by omega)
  unfold potential3dDerivs field3dDerivs
  rw [hidx]
  simp only [hn, Option.map_none]
  exact ⟨trivial, trivial⟩

/-- **C77** (force). The force on a particle traced with the coefficients is E + μ₀ v × H, with the fields of the two tables of coefficients. -/
theorem C77_force (zs : List ℝ) (elec mag : List Row3D) (p : Phase) (F : V3) : field3dDerivsTraceable zs elec mag p = some F ↔
    ∃ E H, field3dDerivs p.pos zs elec = some E ∧ field3dDerivs p.pos zs mag = some H ∧ F = E + constMu0 * cross p.vel H := by
  unfold field3dDerivsTraceable
  cases he : field3dDerivs p.pos zs elec with
  | none => simp
  | some E =>
    cases hm : field3dDerivs p.pos zs mag with
    | none => simp
    | some H =>
      have : combineElecMagneticField p.vel E H 0 = E + constMu0 * cross p.vel H := by
        unfold combineElecMagneticField cross
        ext <;> simp <;> ring
      simp only [this, Option.bind_eq_bind, Option.bind_some, Option.some.injEq]
      constructor
      · rintro rfl; exact ⟨E, H, rfl, rfl, rfl⟩
      · rintro ⟨_, _, rfl, rfl, rfl⟩; rfl

/-! ## Cases that meet the hypotheses -/

/-- A charge at distance 1 of the axis: at a tenth of this distance the error is less than 2e-7 of the potential. -/
example : ∃ e : EffCharges V3, e.Wf ∧ e.len = 1 ∧
    (∀ row ∈ e.positions, ∀ q ∈ row, ¬(q.x = 0 ∧ q.y = 0) ∧ (0.1 : ℝ) < V3.norm (q - ⟨0, 0, 0⟩)) ∧ absSuperpose (fun q => axialError (V3.norm (q - ⟨0, 0, 0⟩)) 0.1) e ≤ 2e-7 / (4 * π) := by
  have h1 : V3.norm ((⟨1, 0, 0⟩ : V3) - ⟨0, 0, 0⟩) = 1 := by simp [V3.norm, dot]
  refine ⟨⟨1, [1], [[1]], [[⟨1, 0, 0⟩]]⟩, by simp [EffCharges.Wf], rfl, ?_, ?_⟩
  · intro row hrow q hq
    obtain rfl : row = [⟨1, 0, 0⟩] := by simpa using hrow
    obtain rfl : q = ⟨1, 0, 0⟩ := by simpa using hq
    rw [h1]; norm_num
  · have hpi := Real.pi_pos
    simp only [absSuperpose, List.zip_cons_cons, List.zip_nil_right, List.map_cons, List.map_nil, List.sum_cons, List.sum_nil, h1, axialError]
    norm_num
    rw [show π⁻¹ * (1 / 4) * (108200081 / 810000000000000) = (108200081 / 810000000000000) / (4 * π) by field_simp]
    exact div_le_div_of_nonneg_right (by norm_num) (by positivity)

/-- Samples and coefficients for which C77_field and C77_sample apply. -/
example : UniformGrid [0, 1, 2] ∧ ([0, 1, 2] : List ℝ)[0]? = some 0 ∧ ([0, 1, 2] : List ℝ)[1]? = some 1 ∧ ([fun _ _ _ _ => 1, fun _ _ _ _ => 2] : List Row3D)[0]? = some (fun _ _ _ _ => 1) := by
  refine ⟨⟨by simp, 0, 1, one_pos, ?_⟩, rfl, rfl, rfl⟩
  intro k hk
  have : k < 3 := by simpa using hk
  interval_cases k <;> norm_num

end Traceon
