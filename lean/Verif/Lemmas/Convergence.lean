import Verif.Lemmas.LocalError

/-!
# Convergence of explicit Runge–Kutta methods
-/
namespace Traceon.BSeries
open Spec Asymptotics Filter Set

variable {E : Type*} [NormedAddCommGroup E] [NormedSpace ℝ E] {f : E → E} {Y : ℝ → E} {T R M : ℝ} {p : ℕ}

/-- The sum of all coefficients of a method. -/
def coeffSum {s : ℕ} (a : Fin s → Fin s → ℝ) : ℝ := ∑ i, ∑ j, |a i j|

theorem coeffSum_nonneg {s : ℕ} (a : Fin s → Fin s → ℝ) : 0 ≤ coeffSum a := Finset.sum_nonneg (fun _ _ => Finset.sum_nonneg (fun _ _ => abs_nonneg _))

theorem row_le_coeffSum {s : ℕ} (a : Fin s → Fin s → ℝ) (i : Fin s) : ∑ j, |a i j| ≤ coeffSum a :=
  Finset.single_le_sum (f := fun i => ∑ j, |a i j|) (fun _ _ => Finset.sum_nonneg (fun _ _ => abs_nonneg _)) (Finset.mem_univ i)

/-- The stages of an explicit method stay in the neighbourhood. -/
theorem Tube.stages (h : Tube f Y T R M p) {s : ℕ} {a : Fin s → Fin s → ℝ} (hex : ∀ i j, i ≤ j → a i j = 0) {t τ : ℝ} (ht : t ∈ Icc 0 T) (hτ : 0 ≤ τ)
    (hs : τ * (coeffSum a * M) ≤ R / 2) {y : E} (hy : ‖y - Y t‖ ≤ R / 2) {k : Fin s → E} (hk : ∀ i, k i = f (y + τ • ∑ j, a i j • k j)) (i : Fin s) :
    ‖τ • ∑ j, a i j • k j‖ ≤ R / 2 ∧ ‖∑ j, a i j • k j‖ ≤ coeffSum a * M ∧ ‖k i‖ ≤ M := by
  induction i using WellFoundedLT.induction with
  | ind i ih =>
    have h1 : ‖∑ j, a i j • k j‖ ≤ coeffSum a * M := by
      refine (norm_sum_le _ _).trans ?_
      refine le_trans ?_ (mul_le_mul_of_nonneg_right (row_le_coeffSum a i) h.nonneg)
      rw [Finset.sum_mul]
      refine Finset.sum_le_sum (fun j _ => ?_)
      rw [norm_smul, Real.norm_eq_abs]
      rcases lt_or_ge j i with hj | hj
      · exact mul_le_mul_of_nonneg_left (ih j hj).2.2 (abs_nonneg _)
      · rw [hex i j hj]; simp
    have h2 : ‖τ • ∑ j, a i j • k j‖ ≤ R / 2 := by
      rw [norm_smul, Real.norm_of_nonneg hτ]
      exact (mul_le_mul_of_nonneg_left h1 hτ).trans hs
    refine ⟨h2, h1, ?_⟩
    rw [hk i]
    refine h.norm_f ht ?_
    have : y + τ • ∑ j, a i j • k j - Y t = (y - Y t) + τ • ∑ j, a i j • k j := by abel
    rw [this]
    exact (norm_add_le _ _).trans (by linarith)

/-- The exact solution moves with bounded speed. -/
theorem Tube.speed (h : Tube f Y T R M p) {t τ : ℝ} (ht : 0 ≤ t) (hτ : 0 ≤ τ) (hT : t + τ ≤ T) : ‖Y (t + τ) - Y t‖ ≤ M * τ := by
  have := (convex_Icc (0 : ℝ) T).norm_image_sub_le_of_norm_hasDerivWithin_le h.solves (C := M)
    (fun u hu => h.norm_f hu (h.mem_self u)) (x := t) (y := t + τ) ⟨ht, by linarith⟩ ⟨by linarith, hT⟩
  rwa [add_sub_cancel_left, Real.norm_of_nonneg hτ] at this

/-- **The error of one step.** -/
theorem Tube.local_error [CompleteSpace E] {N : ℕ} (h : Tube f Y T R M (N + 1)) {s : ℕ} {a : Fin s → Fin s → ℝ} {b : Fin s → ℝ} (hex : ∀ i j, i ≤ j → a i j = 0)
    (ho : OrderConditions a b (N + 1)) {h1 : ℝ} (hh1 : h1 ≤ 1) (hA : h1 * (coeffSum a * M) ≤ R / 2) (hM : h1 * M ≤ R) :
    ∃ C, 0 ≤ C ∧ ∀ t τ, 0 ≤ t → 0 ≤ τ → τ ≤ h1 → t + τ ≤ T → ∀ k : Fin s → E, (∀ i, k i = f (Y t + τ • ∑ j, a i j • k j)) →
      ‖Y t + τ • ∑ i, b i • k i - Y (t + τ)‖ ≤ C * τ ^ (N + 2) := by
  -- the exact solution
  have hex1 := exact_expand (N := N) f Y hh1 h.solves ?_ ?_ ?_ (N + 1) le_rfl
  rotate_left
  · intro m hm
    rw [isBigO_principal]
    refine ⟨M, fun x hx => ?_⟩
    rw [norm_one, mul_one]
    exact h.bound x.1 ⟨hx.1, by linarith [hx.2.1, hx.2.2.2]⟩ _ (h.mem_self _) m (by omega)
  · rw [isBigO_principal]
    refine ⟨M, fun x hx => ?_⟩
    rw [Real.norm_of_nonneg hx.2.1]
    exact h.speed hx.1 hx.2.1 hx.2.2.2
  · intro n hn
    rw [isBigO_principal]
    refine ⟨M * M ^ (n + 1), fun x hx => ?_⟩
    have hsp := h.speed hx.1 hx.2.1 hx.2.2.2
    have hR : ‖Y (x.1 + x.2) - Y x.1‖ ≤ R := hsp.trans ((mul_comm M x.2 ▸ mul_le_mul_of_nonneg_right hx.2.2.1 h.nonneg).trans hM)
    have := h.taylor (t := x.1) ⟨hx.1, by linarith [hx.2.1, hx.2.2.2]⟩ hR (n := n) (by omega)
    rw [add_sub_cancel] at this
    refine this.trans ?_
    rw [norm_pow, Real.norm_of_nonneg hx.2.1, mul_assoc, ← mul_pow]
    exact mul_le_mul_of_nonneg_left (pow_le_pow_left₀ (norm_nonneg _) hsp _) h.nonneg
  -- the stages
  set S : Set (ℝ × ℝ × (Fin s → E)) := {x | 0 ≤ x.1 ∧ 0 ≤ x.2.1 ∧ x.2.1 ≤ h1 ∧ x.1 + x.2.1 ≤ T ∧ ∀ i, x.2.2 i = f (Y x.1 + x.2.1 • ∑ j, a i j • x.2.2 j)} with hS
  have hst : ∀ x ∈ S, ∀ i, ‖x.2.1 • ∑ j, a i j • x.2.2 j‖ ≤ R / 2 ∧ ‖∑ j, a i j • x.2.2 j‖ ≤ coeffSum a * M ∧ ‖x.2.2 i‖ ≤ M := by
    intro x hx i
    exact h.stages hex ⟨hx.1, by linarith [hx.2.1, hx.2.2.2.1]⟩ hx.2.1
      ((mul_le_mul_of_nonneg_right hx.2.2.1 (mul_nonneg (coeffSum_nonneg a) h.nonneg)).trans hA) (by rw [sub_self, norm_zero]; linarith [h.pos]) hx.2.2.2.2 i
  have hex2 := stages_expand (l := 𝓟 S) (h := fun x => x.2.1) (N := N) ?_ a f (fun x => Y x.1) (fun i x => x.2.2 i) ?_ ?_ ?_ ?_ N le_rfl
  rotate_left
  · rw [eventually_principal]; exact fun x hx => ⟨hx.2.1, hx.2.2.1.trans hh1⟩
  · intro i; rw [eventually_principal]; exact fun x hx => hx.2.2.2.2 i
  · intro i
    rw [isBigO_principal]
    exact ⟨M, fun x hx => by rw [norm_one, mul_one]; exact (hst x hx i).2.2⟩
  · intro m hm
    rw [isBigO_principal]
    refine ⟨M, fun x hx => ?_⟩
    rw [norm_one, mul_one]
    exact h.bound x.1 ⟨hx.1, by linarith [hx.2.1, hx.2.2.2.1]⟩ _ (h.mem_self _) m (by omega)
  · intro i n hn
    rw [isBigO_principal]
    refine ⟨M * (coeffSum a * M) ^ (n + 1), fun x hx => ?_⟩
    have := h.taylor (t := x.1) ⟨hx.1, by linarith [hx.2.1, hx.2.2.2.1]⟩ ((hst x hx i).1.trans (by linarith [h.pos])) (n := n) (by omega)
    refine this.trans ?_
    rw [norm_pow, Real.norm_of_nonneg hx.2.1, mul_assoc, ← mul_pow]
    refine mul_le_mul_of_nonneg_left (pow_le_pow_left₀ (norm_nonneg _) ?_ _) h.nonneg
    rw [norm_smul, Real.norm_of_nonneg hx.2.1, mul_comm]
    exact mul_le_mul_of_nonneg_right (hst x hx i).2.1 hx.2.1
  -- their combination
  have hz : (fun x : ℝ × ℝ × (Fin s → E) => x.2.1 • ∑ i, b i • (x.2.2 i - ∑ ts ∈ fl N, (x.2.1 ^ Tree.sizes ts * (wt (.node ts) * Tree.stages a ts i)) •
      el (fun m => iteratedFDeriv ℝ m f (Y x.1)) (.node ts))) =O[𝓟 S] (fun x => x.2.1 * x.2.1 ^ (N + 1)) := by
    have h1 : (fun x : ℝ × ℝ × (Fin s → E) => ∑ i, b i • (x.2.2 i - ∑ ts ∈ fl N, (x.2.1 ^ Tree.sizes ts * (wt (.node ts) * Tree.stages a ts i)) •
      el (fun m => iteratedFDeriv ℝ m f (Y x.1)) (.node ts))) =O[𝓟 S] (fun x => x.2.1 ^ (N + 1)) := IsBigO.fun_sum (fun i _ => IsBigO.const_smul_left (hex2 i) (b i))
    exact (isBigO_refl (fun x : ℝ × ℝ × (Fin s → E) => x.2.1) (𝓟 S)).smul h1
  rw [isBigO_principal] at hex1 hz
  obtain ⟨C1, hC1⟩ := hex1
  obtain ⟨C2, hC2⟩ := hz
  refine ⟨|C1| + |C2|, by positivity, ?_⟩
  intro t τ ht hτ hτ1 hT k hk
  have e1 := hC1 (t, τ) ⟨ht, hτ, hτ1, hT⟩
  have e2 := hC2 (t, τ, k) ⟨ht, hτ, hτ1, hT, hk⟩
  dsimp only at e1 e2
  rw [Real.norm_of_nonneg (by positivity)] at e1 e2
  rw [← pow_succ'] at e2
  have key : Y t + τ • ∑ i, b i • k i - Y (t + τ) =
      (τ • ∑ i, b i • (k i - ∑ ts ∈ fl N, (τ ^ Tree.sizes ts * (wt (.node ts) * Tree.stages a ts i)) • el (fun m => iteratedFDeriv ℝ m f (Y t)) (.node ts))) -
      (Y (t + τ) - Y t - ∑ u ∈ tr (N + 1), (τ ^ u.size * (wt u * ((u.density : ℕ) : ℝ)⁻¹)) • el (fun m => iteratedFDeriv ℝ m f (Y t)) u) := by
    have : τ • ∑ i, b i • ∑ ts ∈ fl N, (τ ^ Tree.sizes ts * (wt (.node ts) * Tree.stages a ts i)) • el (fun m => iteratedFDeriv ℝ m f (Y t)) (.node ts) =
        ∑ u ∈ tr (N + 1), (τ ^ u.size * (wt u * ((u.density : ℕ) : ℝ)⁻¹)) • el (fun m => iteratedFDeriv ℝ m f (Y t)) u := by
      rw [sum_tr_succ]
      simp only [Finset.smul_sum, smul_smul]
      rw [Finset.sum_comm]
      refine Finset.sum_congr rfl (fun ts hts => ?_)
      rw [← Finset.sum_smul]
      congr 1
      have hc := ho (.node ts) (by have := mem_fl.1 hts; simp [Tree.size]; omega)
      rw [one_div] at hc
      rw [← hc, Finset.mul_sum, Finset.mul_sum]
      refine Finset.sum_congr rfl (fun i _ => ?_)
      rw [Tree.size, Tree.stage, pow_add, pow_one]
      ring
    simp only [smul_sub, Finset.sum_sub_distrib]
    rw [this]
    abel
  rw [key]
  refine (norm_sub_le _ _).trans ?_
  have hp : (0 : ℝ) ≤ τ ^ (N + 2) := by positivity
  have f1 := e1.trans (mul_le_mul_of_nonneg_right (le_abs_self C1) hp)
  have f2 := e2.trans (mul_le_mul_of_nonneg_right (le_abs_self C2) hp)
  linarith

/-- A step depends on where it starts as the exact solution would: with a factor close to one. -/
theorem Tube.stable (h : Tube f Y T R M (p + 1)) {s : ℕ} {a : Fin s → Fin s → ℝ} {b : Fin s → ℝ} (hex : ∀ i j, i ≤ j → a i j = 0) {t τ : ℝ} (ht : t ∈ Icc 0 T) (hτ : 0 ≤ τ)
    (hs : τ * (coeffSum a * M) ≤ R / 2) (hs' : τ * (coeffSum a * M) ≤ 1 / 2) {y : E} (hy : ‖y - Y t‖ ≤ R / 2) {k k' : Fin s → E}
    (hk : ∀ i, k i = f (y + τ • ∑ j, a i j • k j)) (hk' : ∀ i, k' i = f (Y t + τ • ∑ j, a i j • k' j)) :
    ‖y + τ • ∑ i, b i • k i - (Y t + τ • ∑ i, b i • k' i)‖ ≤ (1 + τ * (2 * M * ∑ i, |b i|)) * ‖y - Y t‖ := by
  have hst := h.stages hex ht hτ hs hy hk
  have hst' := h.stages hex ht hτ hs (y := Y t) (by rw [sub_self, norm_zero]; linarith [h.pos]) hk'
  have hR := h.pos
  have hM := h.nonneg
  have hd : ∀ i, ‖k i - k' i‖ ≤ M * ‖y - Y t‖ + 1 / 2 * ‖k - k'‖ := by
    intro i
    have e : ‖y + τ • ∑ j, a i j • k j - (Y t + τ • ∑ j, a i j • k' j)‖ ≤ ‖y - Y t‖ + τ * (coeffSum a * ‖k - k'‖) := by
      have : y + τ • ∑ j, a i j • k j - (Y t + τ • ∑ j, a i j • k' j) = (y - Y t) + τ • ∑ j, a i j • (k j - k' j) := by
        simp only [smul_sub, Finset.sum_sub_distrib]; abel
      rw [this]
      refine (norm_add_le _ _).trans (add_le_add le_rfl ?_)
      rw [norm_smul, Real.norm_of_nonneg hτ]
      refine mul_le_mul_of_nonneg_left ((norm_sum_le _ _).trans ?_) hτ
      refine le_trans ?_ (mul_le_mul_of_nonneg_right (row_le_coeffSum a i) (norm_nonneg _))
      rw [Finset.sum_mul]
      refine Finset.sum_le_sum (fun j _ => ?_)
      rw [norm_smul, Real.norm_eq_abs]
      exact mul_le_mul_of_nonneg_left (norm_le_pi_norm (k - k') j) (abs_nonneg _)
    have hl := h.lipschitz ht (y := y + τ • ∑ j, a i j • k j) (y' := Y t + τ • ∑ j, a i j • k' j) ?_ ?_
    · rw [hk i, hk' i]
      refine hl.trans ((mul_le_mul_of_nonneg_left e hM).trans ?_)
      have := mul_le_mul_of_nonneg_right hs' (norm_nonneg (k - k'))
      nlinarith
    · have : y + τ • ∑ j, a i j • k j - Y t = (y - Y t) + τ • ∑ j, a i j • k j := by abel
      rw [this]
      exact (norm_add_le _ _).trans (by linarith [(hst i).1])
    · rw [add_sub_cancel_left]
      linarith [(hst' i).1]
  have hn : ‖k - k'‖ ≤ 2 * M * ‖y - Y t‖ := by
    have : ‖k - k'‖ ≤ M * ‖y - Y t‖ + 1 / 2 * ‖k - k'‖ := (pi_norm_le_iff_of_nonneg (by positivity)).2 hd
    linarith
  have : y + τ • ∑ i, b i • k i - (Y t + τ • ∑ i, b i • k' i) = (y - Y t) + τ • ∑ i, b i • (k i - k' i) := by
    simp only [smul_sub, Finset.sum_sub_distrib]; abel
  rw [this]
  refine (norm_add_le _ _).trans ?_
  have h2 : ‖τ • ∑ i, b i • (k i - k' i)‖ ≤ τ * ((∑ i, |b i|) * (2 * M * ‖y - Y t‖)) := by
    rw [norm_smul, Real.norm_of_nonneg hτ]
    refine mul_le_mul_of_nonneg_left ((norm_sum_le _ _).trans ?_) hτ
    rw [Finset.sum_mul]
    refine Finset.sum_le_sum (fun i _ => ?_)
    rw [norm_smul, Real.norm_eq_abs]
    exact mul_le_mul_of_nonneg_left ((norm_le_pi_norm (k - k') i).trans hn) (abs_nonneg _)
  linarith

/-- A step of an explicit method exists. -/
theorem exists_stages {s : ℕ} {a : Fin s → Fin s → ℝ} (hex : ∀ i j, i ≤ j → a i j = 0) (f : E → E) (y : E) (τ : ℝ) :
    ∃ k : Fin s → E, ∀ i, k i = f (y + τ • ∑ j, a i j • k j) := by
  have key : ∀ n : ℕ, ∃ k : Fin s → E, ∀ i : Fin s, i.val < n → k i = f (y + τ • ∑ j, a i j • k j) := by
    intro n
    induction n with
    | zero => exact ⟨fun _ => 0, fun i hi => absurd hi (by omega)⟩
    | succ n ih =>
      obtain ⟨k, hk⟩ := ih
      refine ⟨fun i => if i.val = n then f (y + τ • ∑ j, a i j • k j) else k i, fun i hi => ?_⟩
      have hsame : ∑ j, a i j • (if j.val = n then f (y + τ • ∑ l, a j l • k l) else k j) = ∑ j, a i j • k j := by
        refine Finset.sum_congr rfl (fun j _ => ?_)
        rcases le_or_gt i j with hj | hj
        · rw [hex i j hj]; simp
        · rw [if_neg (by have : j.val < i.val := hj; omega)]
      dsimp only
      rw [hsame]
      by_cases hi' : i.val = n
      · rw [if_pos hi']
      · rw [if_neg hi']; exact hk i (by omega)
  obtain ⟨k, hk⟩ := key s
  exact ⟨k, fun i => hk i i.isLt⟩

/-- **The error of many steps.** -/
theorem Tube.global_error [CompleteSpace E] {N : ℕ} (h : Tube f Y T R M (N + 1)) {s : ℕ} {a : Fin s → Fin s → ℝ} {b : Fin s → ℝ} (hex : ∀ i j, i ≤ j → a i j = 0)
    (ho : OrderConditions a b (N + 1)) (hT : 0 ≤ T) :
    ∃ C, 0 ≤ C ∧ ∃ h1, 0 < h1 ∧ ∀ (η : ℝ), η ≤ h1 → ∀ (ts : ℕ → ℝ) (ys : ℕ → E) (n : ℕ), ts 0 = 0 → ys 0 = Y 0 → ts n ≤ T →
      (∀ i < n, ts i ≤ ts (i + 1) ∧ ts (i + 1) - ts i ≤ η ∧
        ∃ k : Fin s → E, (∀ j, k j = f (ys i + (ts (i + 1) - ts i) • ∑ l, a j l • k l)) ∧ ys (i + 1) = ys i + (ts (i + 1) - ts i) • ∑ j, b j • k j) →
      ∀ i ≤ n, ‖ys i - Y (ts i)‖ ≤ C * ts i * η ^ (N + 1) := by
  have hR := h.pos
  have hM := h.nonneg
  have hA := coeffSum_nonneg a
  -- a first bound on the step
  set A := coeffSum a * M with hAdef
  have hA0 : 0 ≤ A := mul_nonneg hA hM
  obtain ⟨h2, h2pos, h2le, h2A, h2A', h2M⟩ : ∃ h2 : ℝ, 0 < h2 ∧ h2 ≤ 1 ∧ h2 * A ≤ R / 2 ∧ h2 * A ≤ 1 / 2 ∧ h2 * M ≤ R := by
    refine ⟨min (min 1 (min R 1 / (2 * (A + 1)))) (R / (M + 1)), by positivity, (min_le_left _ _).trans (min_le_left _ _), ?_, ?_, ?_⟩
    · have h3 : min (min 1 (min R 1 / (2 * (A + 1)))) (R / (M + 1)) ≤ R / (2 * (A + 1)) :=
        (min_le_left _ _).trans ((min_le_right _ _).trans (by gcongr; exact min_le_left _ _))
      refine (mul_le_mul_of_nonneg_right h3 hA0).trans ?_
      rw [div_mul_eq_mul_div, div_le_div_iff₀ (by positivity) (by norm_num)]
      nlinarith
    · have h3 : min (min 1 (min R 1 / (2 * (A + 1)))) (R / (M + 1)) ≤ 1 / (2 * (A + 1)) :=
        (min_le_left _ _).trans ((min_le_right _ _).trans (by gcongr; exact min_le_right _ _))
      refine (mul_le_mul_of_nonneg_right h3 hA0).trans ?_
      rw [div_mul_eq_mul_div, div_le_div_iff₀ (by positivity) (by norm_num)]
      nlinarith
    · refine (mul_le_mul_of_nonneg_right (min_le_right _ _) hM).trans ?_
      rw [div_mul_eq_mul_div, div_le_iff₀ (by positivity)]
      nlinarith
  obtain ⟨C, hC, hloc⟩ := h.local_error hex ho h2le h2A h2M
  set L := 2 * M * ∑ i, |b i| with hL
  have hL0 : 0 ≤ L := mul_nonneg (by linarith) (Finset.sum_nonneg (fun _ _ => abs_nonneg _))
  -- a second one
  obtain ⟨h3, h3pos, h3le⟩ : ∃ h3 : ℝ, 0 < h3 ∧ h3 ≤ h2 ∧ C * Real.exp (L * T) * T * h3 ≤ R / 2 := by
    have hQ : 0 ≤ C * Real.exp (L * T) * T := by positivity
    refine ⟨min h2 (R / (2 * (C * Real.exp (L * T) * T + 1))), by positivity, min_le_left _ _, ?_⟩
    refine (mul_le_mul_of_nonneg_left (min_le_right _ _) hQ).trans ?_
    rw [mul_div_assoc', div_le_div_iff₀ (by positivity) (by norm_num)]
    nlinarith
  refine ⟨C * Real.exp (L * T), by positivity, h3, h3pos, ?_⟩
  intro η hη ts ys n ht0 hy0 htn hstep
  have hmono : ∀ i ≤ n, 0 ≤ ts i := by
    intro i
    induction i with
    | zero => intro _; rw [ht0]
    | succ i ih => intro hi; have := ih (by omega); have := (hstep i (by omega)).1; linarith
  have hle : ∀ j ≤ n, ∀ i ≤ j, ts i ≤ ts j := by
    intro j
    induction j with
    | zero => intro _ i hi; rw [Nat.le_zero.1 hi]
    | succ j ih =>
      intro hj i hi
      rcases Nat.lt_or_ge i (j + 1) with h' | h'
      · exact (ih (by omega) i (by omega)).trans (hstep j (by omega)).1
      · rw [le_antisymm hi h']
  have main : ∀ i ≤ n, ‖ys i - Y (ts i)‖ ≤ C * Real.exp (L * ts i) * ts i * η ^ (N + 1) := by
    intro i
    induction i with
    | zero => intro _; rw [hy0, ht0]; simp
    | succ i ih =>
      intro hi
      have ih := ih (by omega)
      obtain ⟨hs1, hs2, k, hk, hyk⟩ := hstep i (by omega)
      have hti := hmono i (by omega)
      have hti' := hle n le_rfl (i + 1) hi
      set τ := ts (i + 1) - ts i with hτ
      have hτ0 : 0 ≤ τ := by linarith
      have hη0 : 0 ≤ η := hτ0.trans hs2
      have hη1 : η ≤ 1 := hη.trans (h3le.1.trans h2le)
      have hτ2 : τ ≤ h2 := hs2.trans (hη.trans h3le.1)
      have hmem : ts i ∈ Icc 0 T := ⟨hti, by linarith⟩
      have e2 : ts (i + 1) = ts i + τ := by rw [hτ]; ring
      have hclose : ‖ys i - Y (ts i)‖ ≤ R / 2 := by
        refine ih.trans (le_trans ?_ h3le.2)
        have : η ^ (N + 1) ≤ h3 := (pow_le_of_le_one hη0 hη1 (by omega)).trans hη
        have hmT : ts i ≤ T := hmem.2
        gcongr
      obtain ⟨k', hk'⟩ := exists_stages hex f (Y (ts i)) τ
      have l1 := h.stable (b := b) hex hmem hτ0 ((mul_le_mul_of_nonneg_right hτ2 hA0).trans h2A) ((mul_le_mul_of_nonneg_right hτ2 hA0).trans h2A') hclose hk hk'
      have l2 := hloc (ts i) τ hti hτ0 hτ2 (by linarith) k' hk'
      rw [e2, hyk]
      have hsplit : ys i + τ • ∑ j, b j • k j - Y (ts i + τ) = (ys i + τ • ∑ j, b j • k j - (Y (ts i) + τ • ∑ j, b j • k' j)) + (Y (ts i) + τ • ∑ j, b j • k' j - Y (ts i + τ)) := by abel
      rw [hsplit]
      refine (norm_add_le _ _).trans ((add_le_add l1 l2).trans ?_)
      have hexp : 1 + τ * L ≤ Real.exp (L * τ) := by have := Real.add_one_le_exp (L * τ); linarith
      have hpw : τ ^ (N + 2) ≤ τ * η ^ (N + 1) := by
        rw [pow_succ' τ (N + 1)]
        exact mul_le_mul_of_nonneg_left (pow_le_pow_left₀ hτ0 hs2 _) hτ0
      have hone : 1 ≤ Real.exp (L * (ts i + τ)) := Real.one_le_exp (by positivity)
      have hηp : 0 ≤ η ^ (N + 1) := by positivity
      calc (1 + τ * L) * ‖ys i - Y (ts i)‖ + C * τ ^ (N + 2)
          ≤ Real.exp (L * τ) * (C * Real.exp (L * ts i) * ts i * η ^ (N + 1)) + C * (τ * η ^ (N + 1)) := by gcongr
        _ = C * Real.exp (L * (ts i + τ)) * ts i * η ^ (N + 1) + C * (τ * η ^ (N + 1)) * 1 := by rw [mul_add, Real.exp_add]; ring
        _ ≤ C * Real.exp (L * (ts i + τ)) * ts i * η ^ (N + 1) + C * (τ * η ^ (N + 1)) * Real.exp (L * (ts i + τ)) := by gcongr
        _ = C * Real.exp (L * (ts i + τ)) * (ts i + τ) * η ^ (N + 1) := by ring
  intro i hi
  refine (main i hi).trans ?_
  rcases Nat.eq_zero_or_pos i with rfl | hipos
  · rw [ht0]; simp
  have hη0 : 0 ≤ η := by
    obtain ⟨hs1, hs2, _⟩ := hstep 0 (by omega)
    linarith
  have hti := hmono i hi
  have : ts i ≤ T := (hle n le_rfl i hi).trans htn
  gcongr

end Traceon.BSeries
