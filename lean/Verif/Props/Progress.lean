import Verif.Props.Tracer3
import Verif.Lemmas.Smooth
import Mathlib.Logic.Relation

/-!
# C79: the tracer makes progress and returns
-/
namespace Traceon
open V3 Spec

/-! ## Statements -/

/-- The force is bounded near the state `y`. -/
def Spec.BoundedNear (field : Phase → V3) (y : Phase) : Prop :=
  ∃ M r : ℝ, 0 < r ∧ ∀ y' : Phase, (∀ j, |vec y' j - vec y j| ≤ r) → V3.norm (field y') ≤ M

/-- Row `b` follows row `a` by one accepted step, from inside the box. -/
def Spec.Follows (em : ℝ) (field : Phase → V3) (bounds : (ℝ × ℝ) × (ℝ × ℝ) × (ℝ × ℝ)) (atol : ℝ) (a b : ℝ × Phase) : Prop :=
  InBox bounds a.2.pos ∧ a.1 < b.1 ∧ Accepted em field atol (b.1 - a.1) a.2 b.2

/-! ## The error of a short step -/

theorem phase_of_vec (u : Fin 6 → ℝ) : ∃ y : Phase, vec y = u := by
  refine ⟨⟨⟨u 0, u 1, u 2⟩, ⟨u 3, u 4, u 5⟩⟩, ?_⟩
  funext i; fin_cases i <;> rfl

theorem motion_vec (em : ℝ) (field : Phase → V3) (y : Phase) :
    motion em field (vec y) = ![y.vel.x, y.vel.y, y.vel.z, em * (field y).x, em * (field y).y, em * (field y).z] := rfl

theorem fehlbergA_zero (i j : Fin 6) (h : i ≤ j) : fehlbergA i j = 0 := by
  fin_cases i <;> fin_cases j <;> first | rfl | (exfalso; revert h; decide)

theorem V3.abs_x_le (a : V3) : |a.x| ≤ V3.norm a := by
  unfold V3.norm dot
  rw [← Real.sqrt_sq_eq_abs]
  apply Real.sqrt_le_sqrt
  nlinarith [sq_nonneg a.y, sq_nonneg a.z]

theorem V3.abs_y_le (a : V3) : |a.y| ≤ V3.norm a := by
  unfold V3.norm dot
  rw [← Real.sqrt_sq_eq_abs]
  apply Real.sqrt_le_sqrt
  nlinarith [sq_nonneg a.x, sq_nonneg a.z]

theorem V3.abs_z_le (a : V3) : |a.z| ≤ V3.norm a := by
  unfold V3.norm dot
  rw [← Real.sqrt_sq_eq_abs]
  apply Real.sqrt_le_sqrt
  nlinarith [sq_nonneg a.x, sq_nonneg a.y]

/-- The sizes of the coefficients. -/
noncomputable def sizeA : ℝ := ∑ i, ∑ j, |fehlbergA i j|
noncomputable def sizeD : ℝ := ∑ i, |fehlberg5 i - fehlberg4 i|

theorem sizeA_nonneg : 0 ≤ sizeA := Finset.sum_nonneg (fun _ _ => Finset.sum_nonneg (fun _ _ => abs_nonneg _))
theorem sizeD_nonneg : 0 ≤ sizeD := Finset.sum_nonneg (fun _ _ => abs_nonneg _)

/-- A sum of multiples of bounded numbers. -/
theorem sum_mul_bound {c k : Fin 6 → ℝ} {K : ℝ} (hk : ∀ i, c i = 0 ∨ |k i| ≤ K) : |∑ i, c i * k i| ≤ (∑ i, |c i|) * K := by
  rw [Finset.sum_mul]
  refine (Finset.abs_sum_le_sum_abs _ _).trans (Finset.sum_le_sum (fun i _ => ?_))
  rw [abs_mul]
  rcases hk i with h | h
  · simp [h]
  · exact mul_le_mul_of_nonneg_left h (abs_nonneg _)

theorem row_le_sizeA (i : Fin 6) : ∑ j, |fehlbergA i j| ≤ sizeA :=
  Finset.single_le_sum (f := fun i => ∑ j, |fehlbergA i j|) (fun _ _ => Finset.sum_nonneg (fun _ _ => abs_nonneg _)) (Finset.mem_univ i)

theorem errorEstimate_le {h : ℝ} (hh : 0 ≤ h) {z z' : Fin 6 → ℝ} {P Q : ℝ} (h0 : |z 0 - z' 0| ≤ P) (h1 : |z 1 - z' 1| ≤ P) (h2 : |z 2 - z' 2| ≤ P)
    (h3 : |z 3 - z' 3| ≤ Q) (h4 : |z 4 - z' 4| ≤ Q) (h5 : |z 5 - z' 5| ≤ Q) : errorEstimate h z z' ≤ P + h * Q := by
  unfold errorEstimate
  have := max_le h0 (max_le h1 h2)
  have := max_le h3 (max_le h4 h5)
  gcongr

/-- A short step from a state near which the force is bounded is accepted. -/
theorem short_step (field : Phase → V3) (atol : ℝ) (ha : 0 < atol) (y : Phase) (hb : BoundedNear field y) :
    ∃ h0, 0 < h0 ∧ ∀ h, 0 < h → h ≤ h0 → rkError h (rkStages field h y) ≤ atol := by
  obtain ⟨M, r, hr, hM⟩ := hb
  obtain ⟨K, hK0, hK⟩ : ∃ K : ℝ, 0 ≤ K ∧ ∀ u : Fin 6 → ℝ, (∀ j, |u j - vec y j| ≤ r) → ∀ j, |motion constEM field u j| ≤ K := by
    refine ⟨|constEM| * |M| + (|y.vel.x| + |y.vel.y| + |y.vel.z| + r), by positivity, fun u hu j => ?_⟩
    obtain ⟨p, rfl⟩ := phase_of_vec u
    have hF := (hM p hu).trans (le_abs_self M)
    have hx := (abs_x_le (field p)).trans hF
    have hy := (abs_y_le (field p)).trans hF
    have hz := (abs_z_le (field p)).trans hF
    have hc : ∀ c : ℝ, |c| ≤ |M| → |constEM * c| ≤ |constEM| * |M| := fun c h => by rw [abs_mul]; gcongr
    have e0 : 0 ≤ |constEM| * |M| := by positivity
    have tri : ∀ a b : ℝ, |a - b| ≤ r → |a| ≤ |b| + r := fun a b h => by
      have := abs_add_le (a - b) b; rw [sub_add_cancel] at this; linarith
    have h3 := tri _ _ (hu 3)
    have h4 := tri _ _ (hu 4)
    have h5 := tri _ _ (hu 5)
    simp only [vec] at h3 h4 h5
    have q1 := abs_nonneg y.vel.x
    have q2 := abs_nonneg y.vel.y
    have q3 := abs_nonneg y.vel.z
    rw [motion_vec]
    fin_cases j
    · show |p.vel.x| ≤ _
      simp at h3; linarith
    · show |p.vel.y| ≤ _
      simp at h4; linarith
    · show |p.vel.z| ≤ _
      simp at h5; linarith
    · exact (hc _ hx).trans (by linarith)
    · exact (hc _ hy).trans (by linarith)
    · exact (hc _ hz).trans (by linarith)
  have hA := sizeA_nonneg
  have hD := sizeD_nonneg
  refine ⟨min 1 (min (r / (sizeA * K + 1)) (atol / (2 * (sizeD * K) + 1))), lt_min one_pos (lt_min (by positivity) (by positivity)), fun h hh hle => ?_⟩
  have l1 := hle.trans (min_le_left _ _)
  have l2 := hle.trans ((min_le_right _ _).trans (min_le_left _ _))
  have l3 := hle.trans ((min_le_right _ _).trans (min_le_right _ _))
  rw [le_div_iff₀ (by positivity)] at l2 l3
  obtain ⟨z, ⟨k, hk, hz, hz'⟩, he⟩ := step_fehlberg field h y
  rw [he]
  have hkK : ∀ (n : ℕ) (i : Fin 6), i.val = n → ∀ j, |k i j| ≤ K := by
    intro n
    induction n using Nat.strong_induction_on with
    | _ n ih =>
      intro i hi j
      rw [hk i]
      refine hK _ (fun j => ?_) j
      simp only [Pi.add_apply, Pi.smul_apply, Finset.sum_apply, smul_eq_mul, add_sub_cancel_left]
      rw [abs_mul, abs_of_pos hh]
      have := sum_mul_bound (c := fun l => fehlbergA i l) (k := fun l => k l j) (K := K) (fun l => by
        rcases le_or_gt i l with hl | hl
        · exact Or.inl (fehlbergA_zero i l hl)
        · exact Or.inr (ih l.val (by have : l.val < i.val := hl; omega) l rfl j))
      calc h * |∑ l, fehlbergA i l * k l j| ≤ h * ((∑ l, |fehlbergA i l|) * K) := by gcongr
        _ ≤ h * (sizeA * K) := by gcongr; exact row_le_sizeA i
        _ ≤ r := by nlinarith
  have hdiff : ∀ j, |vec (rkAdvance y (rkStages field h y)) j - z j| ≤ h * (sizeD * K) := by
    intro j
    rw [hz, hz']
    have : (vec y + h • ∑ i, fehlberg5 i • k i) j - (vec y + h • ∑ i, fehlberg4 i • k i) j = h * ∑ i, (fehlberg5 i - fehlberg4 i) * k i j := by
      simp only [Pi.add_apply, Pi.smul_apply, Finset.sum_apply, smul_eq_mul, sub_mul, Finset.sum_sub_distrib]
      ring
    rw [this, abs_mul, abs_of_pos hh]
    have := sum_mul_bound (c := fun l => fehlberg5 l - fehlberg4 l) (k := fun l => k l j) (K := K) (fun l => Or.inr (hkK _ l rfl j))
    have h2 : ∑ l, |fehlberg5 l - fehlberg4 l| = sizeD := rfl
    rw [h2] at this
    gcongr
  refine (errorEstimate_le hh.le (hdiff 0) (hdiff 1) (hdiff 2) (hdiff 3) (hdiff 4) (hdiff 5)).trans ?_
  have : h * (h * (sizeD * K)) ≤ 1 * (h * (sizeD * K)) := by gcongr
  nlinarith

/-! ## Rejected steps -/

theorem rkNewStep_rejected {atol error h hmax : ℝ} (ha : 0 < atol) (he : atol < error) (hh : 0 < h) : rkNewStep atol error h hmax ≤ 0.9 * h := by
  unfold rkNewStep
  rw [if_neg (by push Not; exact ⟨by linarith, ha.le⟩)]
  refine (min_le_left _ _).trans ?_
  have : (atol / error) ^ (0.2 : ℝ) ≤ 1 := Real.rpow_le_one (div_nonneg ha.le (by linarith)) ((div_le_one (by linarith)).2 he.le) (by norm_num)
  nlinarith

/-- The loop ends. -/
theorem traceLoop_returns (field : Phase → V3) (bounds : Bounds) (atol hmax : ℝ) (B : Nat) (ha : 0 < atol) (hm : 0 < hmax) (m : Nat) :
    ∀ (rows : List Row) (t : ℝ) (y : Phase) (h : ℝ), 0 < h → rows.length < B → B ≤ rows.length + m →
    (∀ row, Relation.ReflTransGen (Follows constEM field bounds atol) (t, y) row → InBox bounds row.2.pos → BoundedNear field row.2) →
    ∃ fuel out, traceLoop field bounds atol hmax B fuel rows t y h = some out := by
  induction m with
  | zero => intro rows t y h _ h1 h2; omega
  | succ m ih =>
    intro rows t y h hh hlen hm' hreach
    by_cases hin : InBox bounds y.pos
    · obtain ⟨h0, hh0, hshort⟩ := short_step field atol ha y (hreach (t, y) .refl hin)
      have accept : ∀ h : ℝ, 0 < h → rkError h (rkStages field h y) ≤ atol → ∃ fuel out, traceLoop field bounds atol hmax B fuel rows t y h = some out := by
        intro h hh hacc
        by_cases hfull : (rows ++ [(t + h, rkAdvance y (rkStages field h y))]).length = B
        · refine ⟨1, rows ++ [(t + h, rkAdvance y (rkStages field h y))], ?_⟩
          rw [traceLoop, if_pos ((inBoundsC_iff _ _).2 hin)]
          simp only
          rw [if_pos hacc, if_pos hfull]
        · obtain ⟨fuel, out, ho⟩ := ih (rows ++ [(t + h, rkAdvance y (rkStages field h y))]) (t + h) (rkAdvance y (rkStages field h y))
            (rkNewStep atol (rkError h (rkStages field h y)) h hmax) (rkNewStep_pos ha (rkError_nonneg hh _) hh hm).1
            (by simp only [List.length_append, List.length_singleton] at hfull ⊢; omega) (by simp only [List.length_append, List.length_singleton]; omega)
            (fun row hrow hbox => hreach row (.head ⟨hin, by simpa using hh, by simpa using accepted_step field atol h y hacc⟩ hrow) hbox)
          refine ⟨fuel + 1, out, ?_⟩
          rw [traceLoop, if_pos ((inBoundsC_iff _ _).2 hin)]
          simp only
          rw [if_pos hacc, if_neg hfull]
          exact ho
      have inner : ∀ (n : ℕ) (h : ℝ), 0 < h → h * 0.9 ^ n ≤ h0 → ∃ fuel out, traceLoop field bounds atol hmax B fuel rows t y h = some out := by
        intro n
        induction n with
        | zero =>
          intro h hh hle
          exact accept h hh (hshort h hh (by simpa using hle))
        | succ n ihn =>
          intro h hh hle
          by_cases hacc : rkError h (rkStages field h y) ≤ atol
          · exact accept h hh hacc
          · push Not at hacc
            have hle' := rkNewStep_rejected (hmax := hmax) ha hacc hh
            obtain ⟨fuel, out, ho⟩ := ihn _ (rkNewStep_pos ha (rkError_nonneg hh _) hh hm).1 (by
              have : (0.9 * h) * 0.9 ^ n ≤ h0 := by rw [pow_succ] at hle; linarith
              exact le_trans (by gcongr) this)
            refine ⟨fuel + 1, out, ?_⟩
            rw [traceLoop, if_pos ((inBoundsC_iff _ _).2 hin)]
            simp only
            rw [if_neg (not_le.2 hacc)]
            exact ho
      obtain ⟨n, hn⟩ := exists_pow_lt_of_lt_one (div_pos hh0 hh) (show (0.9 : ℝ) < 1 by norm_num)
      refine inner n h hh ?_
      rw [lt_div_iff₀ hh] at hn
      linarith
    · refine ⟨1, rows, ?_⟩
      rw [traceLoop, if_neg (by rwa [inBoundsC_iff])]

/-- **C79.** Every call of the C routine for a moving particle returns, if the force is bounded near every state inside the box that the trajectory reaches. -/
theorem C79_block (field : Phase → V3) (bounds : Bounds) (atol : ℝ) (ha : 0 < atol) (B : Nat) (hB : 2 ≤ B) (s : Row) (hv : s.2.vel ≠ 0)
    (hb : ∀ row, Relation.ReflTransGen (Follows constEM field bounds atol) s row → InBox bounds row.2.pos → BoundedNear field row.2) :
    ∃ fuel rows, traceParticleC field bounds atol B fuel s = some rows := by
  have hV := V3.norm_pos hv
  have hm : 0 < tracingStepMax / V3.norm s.2.vel := div_pos (by norm_num [tracingStepMax]) hV
  obtain ⟨fuel, out, ho⟩ := traceLoop_returns field bounds atol _ B ha hm B [s] s.1 s.2 _ hm (by simp; omega) (by simp) hb
  refine ⟨fuel, out, ?_⟩
  unfold traceParticleC
  simp only
  rw [if_neg (fun h => hV.ne' h.1)]
  exact ho

end Traceon
