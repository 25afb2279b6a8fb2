import Verif.Spec.CurvedArea
import Verif.Props.ElementCharge
import Verif.Props.Quadrature

/-!
# C73: the area of curved elements
-/
namespace Traceon
open Spec

/-! ## Sums of powers -/

/-- `g` is a sum of powers up to the `d`-th, the absolute values of the coefficients adding up to at most `B`. -/
def PowerSum (g : ℝ → ℝ) (d : ℕ) (B : ℝ) : Prop :=
  ∃ (ι : Type) (_ : Fintype ι) (a : ι → ℝ) (e : ι → ℕ), (∀ i, e i ≤ d) ∧ ∑ i, |a i| ≤ B ∧ ∀ x, g x = ∑ i, a i * x ^ e i

theorem PowerSum.mono {g : ℝ → ℝ} {d d' : ℕ} {B B' : ℝ} (h : PowerSum g d B) (hd : d ≤ d') (hB : B ≤ B') : PowerSum g d' B' := by
  obtain ⟨ι, _, a, e, h1, h2, h3⟩ := h
  exact ⟨ι, inferInstance, a, e, fun i => (h1 i).trans hd, h2.trans hB, h3⟩

theorem PowerSum.monomial (a : ℝ) (n : ℕ) : PowerSum (fun x => a * x ^ n) n |a| :=
  ⟨Unit, inferInstance, fun _ => a, fun _ => n, by simp, by simp, by simp⟩

theorem PowerSum.add {f g : ℝ → ℝ} {d : ℕ} {B C : ℝ} (hf : PowerSum f d B) (hg : PowerSum g d C) : PowerSum (fun x => f x + g x) d (B + C) := by
  obtain ⟨ι, _, a, e, h1, h2, h3⟩ := hf
  obtain ⟨κ, _, b, m, k1, k2, k3⟩ := hg
  refine ⟨ι ⊕ κ, inferInstance, Sum.elim a b, Sum.elim e m, ?_, ?_, ?_⟩
  · rintro (i | i) <;> simp [h1, k1]
  · simp only [Fintype.sum_sum_type, Sum.elim_inl, Sum.elim_inr]; linarith
  · intro x; simp only [Fintype.sum_sum_type, Sum.elim_inl, Sum.elim_inr, h3, k3]

theorem PowerSum.mul {f g : ℝ → ℝ} {d m : ℕ} {B C : ℝ} (hf : PowerSum f d B) (hg : PowerSum g m C) :
    PowerSum (fun x => f x * g x) (d + m) (B * C) := by
  obtain ⟨ι, _, a, e, h1, h2, h3⟩ := hf
  obtain ⟨κ, _, b, n, k1, k2, k3⟩ := hg
  refine ⟨ι × κ, inferInstance, fun p => a p.1 * b p.2, fun p => e p.1 + n p.2, fun p => Nat.add_le_add (h1 _) (k1 _), ?_, ?_⟩
  · simp only [abs_mul, Fintype.sum_prod_type, ← Finset.mul_sum, ← Finset.sum_mul]
    exact mul_le_mul h2 k2 (Finset.sum_nonneg fun _ _ => abs_nonneg _) ((Finset.sum_nonneg fun _ _ => abs_nonneg _).trans h2)
  · intro x
    simp only [Fintype.sum_prod_type, h3, k3, Finset.sum_mul_sum]
    refine Finset.sum_congr rfl fun i _ => Finset.sum_congr rfl fun j _ => ?_
    rw [pow_add]; ring

theorem PowerSum.smul {f : ℝ → ℝ} {d : ℕ} {B : ℝ} (c : ℝ) (hf : PowerSum f d B) : PowerSum (fun x => c * f x) d (|c| * B) := by
  have := (PowerSum.monomial c 0).mul hf
  simpa using this

theorem PowerSum.pow {f : ℝ → ℝ} {d : ℕ} {B : ℝ} (hf : PowerSum f d B) : ∀ n : ℕ, PowerSum (fun x => f x ^ n) (d * n) (B ^ n)
  | 0 => by simpa using PowerSum.monomial 1 0
  | n + 1 => by
    have := (PowerSum.pow hf n).mul hf
    simpa [pow_succ, Nat.mul_succ] using this

theorem PowerSum.abs_le {f : ℝ → ℝ} {d : ℕ} {B : ℝ} (hf : PowerSum f d B) {x : ℝ} (hx : |x| ≤ 1) : |f x| ≤ B := by
  obtain ⟨ι, _, a, e, h1, h2, h3⟩ := hf
  rw [h3]
  refine (Finset.abs_sum_le_sum_abs _ _).trans ((Finset.sum_le_sum fun i _ => ?_).trans h2)
  rw [abs_mul, abs_pow]
  exact mul_le_of_le_one_right (abs_nonneg _) (pow_le_one₀ (abs_nonneg _) hx)

theorem PowerSum.continuous {f : ℝ → ℝ} {d : ℕ} {B : ℝ} (hf : PowerSum f d B) : Continuous f := by
  obtain ⟨ι, _, a, e, h1, h2, h3⟩ := hf
  rw [funext h3]
  fun_prop

theorem PowerSum.gaussErr {f : ℝ → ℝ} {d : ℕ} {B : ℝ} (hf : PowerSum f d B) (hd : d ≤ 31) : |gaussErr f| ≤ 1e-16 * B := by
  obtain ⟨ι, _, a, e, h1, h2, h3⟩ := hf
  rw [funext h3, gaussErr_sum _ _ fun i _ => by fun_prop]
  have h : ∀ i ∈ Finset.univ, |Traceon.gaussErr fun x => a i * x ^ e i| ≤ |a i| * (1 / 10 ^ 16) := fun i _ => by
    rw [gaussErr_smul, abs_mul]
    exact mul_le_mul_of_nonneg_left (gauss_moment _ ((h1 i).trans hd)) (abs_nonneg _)
  refine (Finset.abs_sum_le_sum_abs _ _).trans ((Finset.sum_le_sum h).trans ?_)
  rw [← Finset.sum_mul]
  norm_num at h2 ⊢
  linarith

/-! ## The square root -/

/-- The expansion of `√(1 + t)` up to the seventh power. -/
noncomputable def sqrtSeries (t : ℝ) : ℝ :=
  1 * t ^ 0 + 1 / 2 * t ^ 1 + -(1 / 8) * t ^ 2 + 1 / 16 * t ^ 3 + -(5 / 128) * t ^ 4 + 7 / 256 * t ^ 5 + -(21 / 1024) * t ^ 6 + 33 / 2048 * t ^ 7

theorem sqrtSeries_err {t θ : ℝ} (ht : |t| ≤ θ) (hθ : θ ≤ 1 / 2) : |Real.sqrt (1 + t) - sqrtSeries t| ≤ 0.024 * θ ^ 8 := by
  have h2 := abs_le.1 (ht.trans hθ)
  have hs := Real.sq_sqrt (show 0 ≤ 1 + t by linarith)
  have hs' : 0.7 ≤ Real.sqrt (1 + t) := Real.le_sqrt_of_sq_le (by linarith)
  have hb : ∀ n : ℕ, |t ^ n| ≤ (1 / 2) ^ n := fun n => by rw [abs_pow]; exact pow_le_pow_left₀ (abs_nonneg _) (ht.trans hθ) n
  have b1 := abs_le.1 (hb 1)
  have b2 := abs_le.1 (hb 2)
  have b3 := abs_le.1 (hb 3)
  have b4 := abs_le.1 (hb 4)
  have b5 := abs_le.1 (hb 5)
  have b6 := abs_le.1 (hb 6)
  have b7 := abs_le.1 (hb 7)
  norm_num at b1 b2 b3 b4 b5 b6 b7
  have hT : 0.7 ≤ sqrtSeries t := by unfold sqrtSeries; norm_num; linarith
  have key : (Real.sqrt (1 + t) - sqrtSeries t) * (Real.sqrt (1 + t) + sqrtSeries t) = t ^ 8 * (-429 / 16384 + 143 / 16384 * t - 143 / 32768 * t ^ 2 +
      39 / 16384 * t ^ 3 - 1365 / 1048576 * t ^ 4 + 693 / 1048576 * t ^ 5 - 1089 / 4194304 * t ^ 6) := by
    have : (Real.sqrt (1 + t) - sqrtSeries t) * (Real.sqrt (1 + t) + sqrtSeries t) = Real.sqrt (1 + t) ^ 2 - sqrtSeries t ^ 2 := by ring
    rw [this, hs]
    unfold sqrtSeries
    ring
  have hQ : |-429 / 16384 + 143 / 16384 * t - 143 / 32768 * t ^ 2 +
      39 / 16384 * t ^ 3 - 1365 / 1048576 * t ^ 4 + 693 / 1048576 * t ^ 5 - 1089 / 4194304 * t ^ 6| ≤ 0.0336 := by
    rw [abs_le]; constructor <;> norm_num <;> linarith
  have h8 : |t ^ 8| ≤ θ ^ 8 := by rw [abs_pow]; exact pow_le_pow_left₀ (abs_nonneg _) ht 8
  have hk := congrArg abs key
  rw [abs_mul, abs_mul] at hk
  have hsum : 1.4 ≤ |Real.sqrt (1 + t) + sqrtSeries t| := by rw [abs_of_nonneg (by linarith)]; linarith
  have hle : |t ^ 8| * |-429 / 16384 + 143 / 16384 * t - 143 / 32768 * t ^ 2 +
      39 / 16384 * t ^ 3 - 1365 / 1048576 * t ^ 4 + 693 / 1048576 * t ^ 5 - 1089 / 4194304 * t ^ 6| ≤ θ ^ 8 * 0.0336 :=
    mul_le_mul h8 hQ (abs_nonneg _) ((abs_nonneg _).trans h8)
  have := mul_le_mul_of_nonneg_left hsum (abs_nonneg (Real.sqrt (1 + t) - sqrtSeries t))
  linarith

theorem PowerSum.sqrtSeries {t : ℝ → ℝ} {θ : ℝ} (ht : PowerSum t 4 θ) (h0 : 0 ≤ θ) (hθ : θ ≤ 1 / 2) :
    PowerSum (fun x => Traceon.sqrtSeries (t x)) 28 1.3 := by
  have hp : ∀ (c : ℝ) (n : ℕ), n ≤ 7 → PowerSum (fun x => c * t x ^ n) 28 (|c| * (1 / 2) ^ n) := fun c n hn =>
    ((ht.pow n).smul c).mono (by omega) (mul_le_mul_of_nonneg_left (pow_le_pow_left₀ h0 hθ n) (abs_nonneg _))
  have := ((((((((hp 1 0 (by omega)).add (hp (1 / 2) 1 (by omega))).add (hp (-(1 / 8)) 2 (by omega))).add (hp (1 / 16) 3 (by omega))).add
    (hp (-(5 / 128)) 4 (by omega))).add (hp (7 / 256) 5 (by omega))).add (hp (-(21 / 1024)) 6 (by omega))).add (hp (33 / 2048) 7 (by omega)))
  refine PowerSum.mono (g := fun x => Traceon.sqrtSeries (t x)) this le_rfl ?_
  norm_num [abs_of_pos, abs_of_neg]

/-! ## Areas -/

theorem areaOfElementRadial_eq {ls : List Line4} {q : List ℝ} {i : Nat} {l : Line4} (hi : ls[i]? = some l) :
    areaOfElementRadial (lineCharges ls q) i = some (2 * Real.pi * sumAlong l fun p => p.1) := by
  unfold areaOfElementRadial lineCharges sumAlong
  simp [hi, List.zip_eq_zipWith, List.map_zipWith]

theorem elemX_powerSum {l : Line4} {R : ℝ} (h0 : |l.l0.x| ≤ R) (h1 : |l.l1.x| ≤ R) (h2 : |l.l2.x| ≤ R) (h3 : |l.l3.x| ≤ R) :
    PowerSum (fun α => (elemPoint l α).x) 3 (11.5 * R) := by
  have hR : 0 ≤ R := (abs_nonneg _).trans h0
  have hp : ∀ (c v : ℝ) (n : ℕ), n ≤ 3 → |v| ≤ R → PowerSum (fun x => (c * v) * x ^ n) 3 (|c| * R) := fun c v n hn hv =>
    (PowerSum.monomial (c * v) n).mono hn (by rw [abs_mul]; exact mul_le_mul_of_nonneg_left hv (abs_nonneg _))
  have hq : ∀ (a b c d v : ℝ), |v| ≤ R → PowerSum (fun x => (a * v) * x ^ 0 + (b * v) * x ^ 1 + (c * v) * x ^ 2 + (d * v) * x ^ 3) 3 ((|a| + |b| + |c| + |d|) * R) :=
    fun a b c d v hv => ((((hp a v 0 (by omega) hv).add (hp b v 1 (by omega) hv)).add (hp c v 2 (by omega) hv)).add (hp d v 3 (by omega) hv)).mono le_rfl (by linarith)
  have := ((((hq (-1 / 16) (1 / 16) (9 / 16) (-9 / 16) _ h0).add (hq (9 / 16) (-27 / 16) (-9 / 16) (27 / 16) _ h2)).add
    (hq (9 / 16) (27 / 16) (-9 / 16) (-27 / 16) _ h3)).add (hq (-1 / 16) (-1 / 16) (9 / 16) (9 / 16) _ h1))
  have e' : (fun α => (elemPoint l α).x) = fun x => -1 / 16 * l.l0.x * x ^ 0 + 1 / 16 * l.l0.x * x ^ 1 + 9 / 16 * l.l0.x * x ^ 2 + -9 / 16 * l.l0.x * x ^ 3 +
      (9 / 16 * l.l2.x * x ^ 0 + -27 / 16 * l.l2.x * x ^ 1 + -9 / 16 * l.l2.x * x ^ 2 + 27 / 16 * l.l2.x * x ^ 3) +
      (9 / 16 * l.l3.x * x ^ 0 + 27 / 16 * l.l3.x * x ^ 1 + -9 / 16 * l.l3.x * x ^ 2 + -27 / 16 * l.l3.x * x ^ 3) +
      (-1 / 16 * l.l1.x * x ^ 0 + -1 / 16 * l.l1.x * x ^ 1 + 9 / 16 * l.l1.x * x ^ 2 + 9 / 16 * l.l1.x * x ^ 3) := by
    funext α
    unfold elemPoint
    simp only [V3.add_x, V3.smul_x]
    ring
  rw [e']
  exact this.mono le_rfl (by norm_num [abs_of_pos, abs_of_neg]; linarith)

/-- **C73.** In radial symmetry `area_of_element` is the area of the surface which the element, straight or curved, sweeps out around the axis, up to an error that falls with the eighth power of
the unevenness `θ` of the parameter along the element: `c` is the speed along the element (half its length), `R` bounds the distance of its nodes from the axis. -/
theorem C73_area_radial (ls : List Line4) (q : List ℝ) (i : Nat) (l : Line4) (hi : ls[i]? = some l) (hl : InHalfPlane l) (c θ R : ℝ) (hθ : θ ≤ 1 / 2)
    (hs : SpeedWithin l c θ) (h0 : |l.l0.x| ≤ R) (h1 : |l.l1.x| ≤ R) (h2 : |l.l2.x| ≤ R) (h3 : |l.l3.x| ≤ R) :
    ∃ a, areaOfElementRadial (lineCharges ls q) i = some a ∧ |a - 2 * Real.pi * alongElem l (fun s => s.x)| ≤ c * R * (1e-14 + 7 * θ ^ 8) := by
  refine ⟨_, areaOfElementRadial_eq hi, ?_⟩
  rw [← mul_sub, abs_mul, abs_of_pos (by positivity : (0 : ℝ) < 2 * Real.pi), sumAlong_eq hl]
  obtain ⟨hc, t, ht, hsp⟩ := hs
  have hR : 0 ≤ R := (abs_nonneg _).trans h0
  have hT : PowerSum (fun α => ∑ k, t k * α ^ (k : ℕ)) 4 θ := ⟨Fin 5, inferInstance, t, fun k => k, fun k => Nat.le_of_lt_succ k.isLt, ht, fun _ => rfl⟩
  have hθ0 : 0 ≤ θ := (Finset.sum_nonneg fun _ _ => abs_nonneg _).trans ht
  have hX := elemX_powerSum h0 h1 h2 h3
  have hjac : ∀ α, V3.norm (elemTangent l α) = c * Real.sqrt (1 + ∑ k, t k * α ^ (k : ℕ)) := by
    intro α
    unfold V3.norm
    rw [hsp, Real.sqrt_mul (by positivity), Real.sqrt_sq hc.le]
  have hP := ((hX.mul (hT.sqrtSeries hθ0 hθ)).smul c)
  set X : ℝ → ℝ := fun α => (elemPoint l α).x with hXd
  set T : ℝ → ℝ := fun α => ∑ k, t k * α ^ (k : ℕ) with hTd
  have b1 := hP.gaussErr (by norm_num)
  have hcont : Continuous fun α => V3.norm (elemTangent l α) * X α := by
    simp only [hjac]
    exact ((Real.continuous_sqrt.comp (continuous_const.add hT.continuous)).const_mul c).mul hX.continuous
  have b2 : |gaussErr fun α => V3.norm (elemTangent l α) * X α - c * (X α * sqrtSeries (T α))| ≤ 4 * (c * (11.5 * R) * (0.024 * θ ^ 8)) := by
    refine gaussErr_le fun α h1 h2 => ?_
    have hα : |α| ≤ 1 := abs_le.2 ⟨h1, h2⟩
    rw [hjac]
    have e : c * Real.sqrt (1 + T α) * X α - c * (X α * sqrtSeries (T α)) = c * X α * (Real.sqrt (1 + T α) - sqrtSeries (T α)) := by ring
    rw [e, abs_mul, abs_mul, abs_of_pos hc]
    exact mul_le_mul (mul_le_mul_of_nonneg_left (hX.abs_le hα) hc.le) (sqrtSeries_err (hT.abs_le hα) hθ) (abs_nonneg _) (by positivity)
  have e : gaussErr (fun α => V3.norm (elemTangent l α) * X α) = gaussErr (fun α => c * (X α * sqrtSeries (T α))) +
      gaussErr (fun α => V3.norm (elemTangent l α) * X α - c * (X α * sqrtSeries (T α))) := by
    rw [← gaussErr_add (f := fun α => c * (X α * sqrtSeries (T α))) (g := fun α => V3.norm (elemTangent l α) * X α - c * (X α * sqrtSeries (T α)))
      hP.continuous.continuousOn (hcont.sub hP.continuous).continuousOn]
    congr 1
    funext x; ring
  have goal : |gaussErr (fun α => V3.norm (elemTangent l α) * X α)| ≤ c * R * (1.5e-15 + 1.104 * θ ^ 8) := by
    rw [e]
    refine (abs_add_le _ _).trans ((add_le_add b1 b2).trans ?_)
    rw [abs_of_pos hc]
    have : 0 ≤ c * R := by positivity
    norm_num
    nlinarith [this]
  have hpi := Real.pi_lt_d2
  have h8 : 0 ≤ θ ^ 8 := by positivity
  have hcR : 0 ≤ c * R := by positivity
  calc 2 * Real.pi * |gaussErr (fun α => V3.norm (elemTangent l α) * X α)| ≤ 2 * 3.15 * (c * R * (1.5e-15 + 1.104 * θ ^ 8)) :=
        mul_le_mul (by linarith) goal (abs_nonneg _) (by norm_num)
    _ = c * R * (9.45e-15 + 6.9552 * θ ^ 8) := by ring
    _ ≤ _ := mul_le_mul_of_nonneg_left (by norm_num; linarith) hcR

/-! ## Elements close to their chord -/

theorem elemTangent_near {l : Line4} (hl : InHalfPlane l) (α : ℝ) :
    elemTangent l α = (1 / 2 : ℝ) * (l.l1 - l.l0) +
      (27 / 16 : ℝ) * ((l.l3 - ((1 / 3 : ℝ) * l.l0 + (2 / 3 : ℝ) * l.l1)) - (l.l2 - ((2 / 3 : ℝ) * l.l0 + (1 / 3 : ℝ) * l.l1))) +
      (α * (-9 / 8)) * ((l.l3 - ((1 / 3 : ℝ) * l.l0 + (2 / 3 : ℝ) * l.l1)) + (l.l2 - ((2 / 3 : ℝ) * l.l0 + (1 / 3 : ℝ) * l.l1))) +
      (α ^ 2 * (-81 / 16)) * ((l.l3 - ((1 / 3 : ℝ) * l.l0 + (2 / 3 : ℝ) * l.l1)) - (l.l2 - ((2 / 3 : ℝ) * l.l0 + (1 / 3 : ℝ) * l.l1))) := by
  have hy := elemTangent_y hl α
  obtain ⟨⟨h0, h1, h2, h3⟩, _⟩ := hl
  ext
  · rw [elemTangent_x]; simp only [V3.add_x, V3.smul_x, V3.sub_x]; unfold curveTan1; ring
  · rw [hy]; simp [h0, h1, h2, h3]
  · rw [elemTangent_z]; simp only [V3.add_z, V3.smul_z, V3.sub_z]; unfold curveTan1; ring

theorem speedWithin_near {l : Line4} (hl : InHalfPlane l) (hne : l.l0 ≠ l.l1) {ε : ℝ} (h : NearChord l (ε * V3.norm (l.l1 - l.l0))) :
    SpeedWithin l (V3.norm (l.l1 - l.l0) / 2) (63 * ε + 992.25 * ε ^ 2) := by
  set L := V3.norm (l.l1 - l.l0) with hL
  have hLp : 0 < L := by
    rw [hL]
    refine V3.norm_pos ?_
    intro h0
    exact hne (by
      have hx := congrArg V3.x h0; have hy := congrArg V3.y h0; have hz := congrArg V3.z h0
      simp only [V3.sub_x, V3.sub_y, V3.sub_z, V3.zero_x, V3.zero_y, V3.zero_z] at hx hy hz
      ext <;> linarith)
  set D : V3 := (1 / 2 : ℝ) * (l.l1 - l.l0) with hD
  set e2 : V3 := l.l2 - ((2 / 3 : ℝ) * l.l0 + (1 / 3 : ℝ) * l.l1) with he2
  set e3 : V3 := l.l3 - ((1 / 3 : ℝ) * l.l0 + (2 / 3 : ℝ) * l.l1) with he3
  have n2 : V3.norm e2 ≤ ε * L := h.first
  have n3 : V3.norm e3 ≤ ε * L := h.second
  have hε : 0 ≤ ε := by
    by_contra hc
    have := mul_neg_of_neg_of_pos (not_le.1 hc) hLp
    have h0 : 0 ≤ V3.norm e2 := Real.sqrt_nonneg _
    linarith
  have LL : V3.dot (l.l1 - l.l0) (l.l1 - l.l0) = L ^ 2 := by rw [hL]; unfold V3.norm; rw [Real.sq_sqrt (V3.dot_self_nonneg _)]
  have hdot : ∀ a b : V3, ∀ x y : ℝ, V3.norm a ≤ x → V3.norm b ≤ y → |V3.dot a b| ≤ x * y := fun a b x y ha hb =>
    (V3.abs_dot_le a b).trans (mul_le_mul ha hb (Real.sqrt_nonneg _) ((Real.sqrt_nonneg _).trans ha))
  set C := l.l1 - l.l0 with hC
  have d2 := abs_le.1 (hdot C e2 L (ε * L) le_rfl n2)
  have d3 := abs_le.1 (hdot C e3 L (ε * L) le_rfl n3)
  have d22 := abs_le.1 (hdot e2 e2 _ _ n2 n2)
  have d23 := abs_le.1 (hdot e2 e3 _ _ n2 n3)
  have d33 := abs_le.1 (hdot e3 e3 _ _ n3 n3)
  refine ⟨by positivity, ![(4 / L ^ 2) * (27 / 16 * (V3.dot C e3 - V3.dot C e2) + (27 / 16) ^ 2 * (V3.dot e3 e3 + V3.dot e2 e2 - 2 * V3.dot e2 e3)),
    (4 / L ^ 2) * (-9 / 8 * (V3.dot C e3 + V3.dot C e2) - 243 / 64 * (V3.dot e3 e3 - V3.dot e2 e2)),
    (4 / L ^ 2) * (-81 / 16 * (V3.dot C e3 - V3.dot C e2) + 81 / 64 * (V3.dot e3 e3 + V3.dot e2 e2 + 2 * V3.dot e2 e3) -
      2187 / 128 * (V3.dot e3 e3 + V3.dot e2 e2 - 2 * V3.dot e2 e3)),
    (4 / L ^ 2) * (729 / 64 * (V3.dot e3 e3 - V3.dot e2 e2)),
    (4 / L ^ 2) * ((81 / 16) ^ 2 * (V3.dot e3 e3 + V3.dot e2 e2 - 2 * V3.dot e2 e3))], ?_, ?_⟩
  · have key : ∀ x b : ℝ, |x| ≤ b * L ^ 2 → |4 / L ^ 2 * x| ≤ 4 * b := fun x b hx => by
      rw [abs_mul, abs_of_pos (by positivity)]
      calc 4 / L ^ 2 * |x| ≤ 4 / L ^ 2 * (b * L ^ 2) := mul_le_mul_of_nonneg_left hx (by positivity)
        _ = 4 * b := by field_simp
    rw [Fin.sum_univ_five]
    have k0 := key (27 / 16 * (V3.dot C e3 - V3.dot C e2) + (27 / 16) ^ 2 * (V3.dot e3 e3 + V3.dot e2 e2 - 2 * V3.dot e2 e3)) (27 / 8 * ε + 729 / 64 * ε ^ 2)
      (abs_le.2 ⟨by nlinarith, by nlinarith⟩)
    have k1 := key (-9 / 8 * (V3.dot C e3 + V3.dot C e2) - 243 / 64 * (V3.dot e3 e3 - V3.dot e2 e2)) (9 / 4 * ε + 243 / 32 * ε ^ 2)
      (abs_le.2 ⟨by nlinarith, by nlinarith⟩)
    have k2 := key (-81 / 16 * (V3.dot C e3 - V3.dot C e2) + 81 / 64 * (V3.dot e3 e3 + V3.dot e2 e2 + 2 * V3.dot e2 e3) -
      2187 / 128 * (V3.dot e3 e3 + V3.dot e2 e2 - 2 * V3.dot e2 e3)) (81 / 8 * ε + (81 / 16 + 2187 / 32) * ε ^ 2) (abs_le.2 ⟨by nlinarith, by nlinarith⟩)
    have k3 := key (729 / 64 * (V3.dot e3 e3 - V3.dot e2 e2)) (729 / 32 * ε ^ 2) (abs_le.2 ⟨by nlinarith, by nlinarith⟩)
    have k4 := key ((81 / 16) ^ 2 * (V3.dot e3 e3 + V3.dot e2 e2 - 2 * V3.dot e2 e3)) (6561 / 64 * ε ^ 2) (abs_le.2 ⟨by nlinarith, by nlinarith⟩)
    have s2 : 0 ≤ ε ^ 2 := by positivity
    simp only [Matrix.cons_val]
    refine (add_le_add (add_le_add (add_le_add (add_le_add k0 k1) k2) k3) k4).trans ?_
    norm_num
    linarith
  · intro α
    have eT : elemTangent l α = (1 / 2 : ℝ) * C + (27 / 16 : ℝ) * (e3 - e2) + (α * (-9 / 8)) * (e3 + e2) + (α ^ 2 * (-81 / 16)) * (e3 - e2) := elemTangent_near hl α
    rw [eT, Fin.sum_univ_five]
    simp only [Matrix.cons_val]
    have hE : ∀ a b c d : V3, V3.dot (a + b + c + d) (a + b + c + d) = V3.dot a a + V3.dot b b + V3.dot c c + V3.dot d d + 2 * V3.dot a b + 2 * V3.dot a c +
        2 * V3.dot a d + 2 * V3.dot b c + 2 * V3.dot b d + 2 * V3.dot c d := fun a b c d => by
      unfold V3.dot; simp only [V3.add_x, V3.add_y, V3.add_z]; ring
    have hS : ∀ (x y : ℝ) (a b : V3), V3.dot (x * a) (y * b) = x * y * V3.dot a b := fun x y a b => by
      unfold V3.dot; simp only [V3.smul_x, V3.smul_y, V3.smul_z]; ring
    have h1 : V3.dot (e3 - e2) (e3 - e2) = V3.dot e3 e3 + V3.dot e2 e2 - 2 * V3.dot e2 e3 := by
      unfold V3.dot; simp only [V3.sub_x, V3.sub_y, V3.sub_z]; ring
    have h2 : V3.dot (e3 + e2) (e3 + e2) = V3.dot e3 e3 + V3.dot e2 e2 + 2 * V3.dot e2 e3 := by
      unfold V3.dot; simp only [V3.add_x, V3.add_y, V3.add_z]; ring
    have h3 : V3.dot (e3 - e2) (e3 + e2) = V3.dot e3 e3 - V3.dot e2 e2 := by
      unfold V3.dot; simp only [V3.sub_x, V3.sub_y, V3.sub_z, V3.add_x, V3.add_y, V3.add_z]; ring
    have h3' : V3.dot (e3 + e2) (e3 - e2) = V3.dot e3 e3 - V3.dot e2 e2 := by
      unfold V3.dot; simp only [V3.sub_x, V3.sub_y, V3.sub_z, V3.add_x, V3.add_y, V3.add_z]; ring
    have h4 : V3.dot C (e3 - e2) = V3.dot C e3 - V3.dot C e2 := by
      unfold V3.dot; simp only [V3.sub_x, V3.sub_y, V3.sub_z]; ring
    have h5 : V3.dot C (e3 + e2) = V3.dot C e3 + V3.dot C e2 := by
      unfold V3.dot; simp only [V3.add_x, V3.add_y, V3.add_z]; ring
    rw [hE]
    simp only [hS, h1, h2, h3, h3', h4, h5, LL]
    field_simp
    norm_num
    ring

/-- **C73.** The same for an element whose inner nodes lie within `ε` chord lengths of the points dividing the chord in three, `ε` being at most 0.007. -/
theorem C73_area_near_chord (ls : List Line4) (q : List ℝ) (i : Nat) (l : Line4) (hi : ls[i]? = some l) (hl : InHalfPlane l) (hne : l.l0 ≠ l.l1)
    (ε R : ℝ) (hε : ε ≤ 0.007) (h : NearChord l (ε * V3.norm (l.l1 - l.l0)))
    (h0 : |l.l0.x| ≤ R) (h1 : |l.l1.x| ≤ R) (h2 : |l.l2.x| ≤ R) (h3 : |l.l3.x| ≤ R) :
    ∃ a, areaOfElementRadial (lineCharges ls q) i = some a ∧
      |a - 2 * Real.pi * alongElem l (fun s => s.x)| ≤ V3.norm (l.l1 - l.l0) * R * (1e-14 + 4 * (70 * ε) ^ 8) := by
  have hs := speedWithin_near hl hne h
  have hLp := hs.pos
  have h0' : 0 ≤ ε := by
    by_contra hc
    have h1 := mul_neg_of_neg_of_pos (not_le.1 hc) (show 0 < V3.norm (l.l1 - l.l0) by linarith)
    have h2 : 0 ≤ V3.norm (l.l2 - ((2 / 3 : ℝ) * l.l0 + (1 / 3 : ℝ) * l.l1)) := Real.sqrt_nonneg _
    linarith [h.first]
  have hθ : 63 * ε + 992.25 * ε ^ 2 ≤ 70 * ε := by norm_num at hε ⊢; nlinarith
  obtain ⟨a, ha, hb⟩ := C73_area_radial ls q i l hi hl _ _ R (by norm_num at hε hθ ⊢; linarith) hs h0 h1 h2 h3
  refine ⟨a, ha, hb.trans ?_⟩
  have hR : 0 ≤ R := (abs_nonneg _).trans h0
  have h8 : (63 * ε + 992.25 * ε ^ 2) ^ 8 ≤ (70 * ε) ^ 8 := pow_le_pow_left₀ (by positivity) hθ 8
  have hLR : 0 ≤ V3.norm (l.l1 - l.l0) / 2 * R := by positivity
  calc _ ≤ V3.norm (l.l1 - l.l0) / 2 * R * (1e-14 + 7 * (70 * ε) ^ 8) := mul_le_mul_of_nonneg_left (by linarith) hLR
    _ ≤ V3.norm (l.l1 - l.l0) / 2 * R * (2 * (1e-14 + 4 * (70 * ε) ^ 8)) := mul_le_mul_of_nonneg_left (by
        have : 0 ≤ (70 * ε) ^ 8 := by positivity
        norm_num at this ⊢; linarith) hLR
    _ = _ := by ring

/-- A case: an element that bulges by 1/200 of its length. -/
example : ∃ l : Line4, InHalfPlane l ∧ l.l0 ≠ l.l1 ∧ l.l2.x ≠ l.l0.x ∧ NearChord l (0.005 * V3.norm (l.l1 - l.l0)) := by
  have hn : V3.norm ((⟨1, 0, 3⟩ : V3) - ⟨1, 0, 0⟩) = 3 := by
    unfold V3.norm V3.dot; simp only [V3.sub_x, V3.sub_y, V3.sub_z]
    rw [show ((1 : ℝ) - 1) * (1 - 1) + (0 - 0) * (0 - 0) + (3 - 0) * (3 - 0) = 3 ^ 2 by norm_num]
    exact Real.sqrt_sq (by norm_num)
  refine ⟨⟨⟨1, 0, 0⟩, ⟨1, 0, 3⟩, ⟨1.015, 0, 1⟩, ⟨1.015, 0, 2⟩⟩, ⟨by simp, ?_⟩, ?_, by norm_num, ?_⟩
  · unfold elemPoint; norm_num
  · intro h; have := congrArg V3.z h; norm_num at this
  · constructor
    all_goals
      simp only [hn]
      refine V3.norm_le_of (by norm_num) ?_
      unfold V3.dot
      norm_num

end Traceon
