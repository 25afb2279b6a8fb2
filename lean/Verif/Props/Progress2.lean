import Verif.Props.Progress
import Verif.Lemmas.FarTriangle

/-!
# C79: a particle that is fast enough leaves the box
-/
namespace Traceon
open V3 Spec

/-- What an accepted step does to the motion in the direction `n`, if the acceleration in this direction is nowhere less than `-g`: no worse than a uniform deceleration `g`. -/
theorem step_direction (field : Phase → V3) (n : V3) (g h : ℝ) (hh : 0 < h) (hg : ∀ y, -g ≤ constEM * dot n (field y)) (y y' : Phase) (z : Fin 6 → ℝ)
    (hs : EmbeddedStep fehlbergA fehlberg5 fehlberg4 (motion constEM field) h (vec y) (vec y') z) :
    dot n y.vel - g * h ≤ dot n y'.vel ∧ dot n y.pos + h * dot n y.vel - g * h ^ 2 / 2 ≤ dot n y'.pos := by
  obtain ⟨k, hk, hz, -⟩ := hs
  have hp : ∀ i, ∃ p : Phase, vec p = vec y + h • ∑ j, fehlbergA i j • k j := fun i => phase_of_vec _
  choose p hp using hp
  have hk' : ∀ i, k i = ![(p i).vel.x, (p i).vel.y, (p i).vel.z, constEM * (field (p i)).x, constEM * (field (p i)).y, constEM * (field (p i)).z] := by
    intro i; rw [hk i, ← hp i, motion_vec]
  let q : Fin 6 → ℝ := fun i => constEM * dot n (field (p i))
  have hq : ∀ i, -g ≤ q i := fun i => hg (p i)
  let w : Fin 6 → ℝ := fun i => dot n (p i).vel
  have hw : ∀ i, w i = dot n y.vel + h * ∑ j, fehlbergA i j * q j := by
    intro i
    have e3 := congrFun (hp i) 3
    have e4 := congrFun (hp i) 4
    have e5 := congrFun (hp i) 5
    simp only [Pi.add_apply, Pi.smul_apply, Finset.sum_apply, smul_eq_mul, hk'] at e3 e4 e5
    have e3' : (p i).vel.x = y.vel.x + h * ∑ j, fehlbergA i j * (constEM * (field (p j)).x) := e3
    have e4' : (p i).vel.y = y.vel.y + h * ∑ j, fehlbergA i j * (constEM * (field (p j)).y) := e4
    have e5' : (p i).vel.z = y.vel.z + h * ∑ j, fehlbergA i j * (constEM * (field (p j)).z) := e5
    show dot n (p i).vel = _
    unfold dot
    rw [e3', e4', e5']
    have : ∑ j, fehlbergA i j * q j = n.x * (∑ j, fehlbergA i j * (constEM * (field (p j)).x)) + n.y * (∑ j, fehlbergA i j * (constEM * (field (p j)).y)) +
        n.z * (∑ j, fehlbergA i j * (constEM * (field (p j)).z)) := by
      simp only [Finset.mul_sum, ← Finset.sum_add_distrib]
      refine Finset.sum_congr rfl (fun j _ => ?_)
      simp only [q, dot]; ring
    rw [this]; ring
  have hvel : dot n y'.vel = dot n y.vel + h * ∑ i, fehlberg5 i * q i := by
    have e3 := congrFun hz 3
    have e4 := congrFun hz 4
    have e5 := congrFun hz 5
    simp only [Pi.add_apply, Pi.smul_apply, Finset.sum_apply, smul_eq_mul, hk'] at e3 e4 e5
    have e3' : y'.vel.x = y.vel.x + h * ∑ j, fehlberg5 j * (constEM * (field (p j)).x) := e3
    have e4' : y'.vel.y = y.vel.y + h * ∑ j, fehlberg5 j * (constEM * (field (p j)).y) := e4
    have e5' : y'.vel.z = y.vel.z + h * ∑ j, fehlberg5 j * (constEM * (field (p j)).z) := e5
    unfold dot
    rw [e3', e4', e5']
    have : ∑ j, fehlberg5 j * q j = n.x * (∑ j, fehlberg5 j * (constEM * (field (p j)).x)) + n.y * (∑ j, fehlberg5 j * (constEM * (field (p j)).y)) +
        n.z * (∑ j, fehlberg5 j * (constEM * (field (p j)).z)) := by
      simp only [Finset.mul_sum, ← Finset.sum_add_distrib]
      refine Finset.sum_congr rfl (fun j _ => ?_)
      simp only [q, dot]; ring
    rw [this]; ring
  have hpos : dot n y'.pos = dot n y.pos + h * ∑ i, fehlberg5 i * w i := by
    have e3 := congrFun hz 0
    have e4 := congrFun hz 1
    have e5 := congrFun hz 2
    simp only [Pi.add_apply, Pi.smul_apply, Finset.sum_apply, smul_eq_mul, hk'] at e3 e4 e5
    have e3' : y'.pos.x = y.pos.x + h * ∑ j, fehlberg5 j * (p j).vel.x := e3
    have e4' : y'.pos.y = y.pos.y + h * ∑ j, fehlberg5 j * (p j).vel.y := e4
    have e5' : y'.pos.z = y.pos.z + h * ∑ j, fehlberg5 j * (p j).vel.z := e5
    unfold dot
    rw [e3', e4', e5']
    have : ∑ j, fehlberg5 j * w j = n.x * (∑ j, fehlberg5 j * (p j).vel.x) + n.y * (∑ j, fehlberg5 j * (p j).vel.y) + n.z * (∑ j, fehlberg5 j * (p j).vel.z) := by
      simp only [Finset.mul_sum, ← Finset.sum_add_distrib]
      refine Finset.sum_congr rfl (fun j _ => ?_)
      simp only [w, dot]; ring
    rw [this]; ring
  have h0 := mul_le_mul_of_nonneg_left (hq 0) hh.le
  have h1 := mul_le_mul_of_nonneg_left (hq 1) hh.le
  have h2 := mul_le_mul_of_nonneg_left (hq 2) hh.le
  have h3 := mul_le_mul_of_nonneg_left (hq 3) hh.le
  have h4 := mul_le_mul_of_nonneg_left (hq 4) hh.le
  have h5 := mul_le_mul_of_nonneg_left (hq 5) hh.le
  constructor
  · rw [hvel, Fin.sum_univ_six]
    simp [fehlberg5]
    linarith
  · rw [hpos]
    simp only [hw, Fin.sum_univ_six]
    simp [fehlberg5, fehlbergA]
    have hh2 : (0 : ℝ) ≤ h ^ 2 := by positivity
    have i0 := mul_le_mul_of_nonneg_left (hq 0) hh2
    have i1 := mul_le_mul_of_nonneg_left (hq 1) hh2
    have i2 := mul_le_mul_of_nonneg_left (hq 2) hh2
    have i3 := mul_le_mul_of_nonneg_left (hq 3) hh2
    have i4 := mul_le_mul_of_nonneg_left (hq 4) hh2
    have i5 := mul_le_mul_of_nonneg_left (hq 5) hh2
    linarith

/-- The change of the velocity in a step, and the error, if the acceleration is bounded. -/
theorem step_bounded (field : Phase → V3) (a h : ℝ) (hh : 0 < h) (hb : ∀ y, |constEM| * V3.norm (field y) ≤ a) (y y' : Phase) (z : Fin 6 → ℝ)
    (hs : EmbeddedStep fehlbergA fehlberg5 fehlberg4 (motion constEM field) h (vec y) (vec y') z) :
    (|y'.vel.x| ≤ |y.vel.x| + a * h ∧ |y'.vel.y| ≤ |y.vel.y| + a * h ∧ |y'.vel.z| ≤ |y.vel.z| + a * h) ∧
      errorEstimate h (vec y') z ≤ (sizeD * sizeA + sizeD) * a * h ^ 2 := by
  obtain ⟨k, hk, hz, hz'⟩ := hs
  have hp : ∀ i, ∃ p : Phase, vec p = vec y + h • ∑ j, fehlbergA i j • k j := fun i => phase_of_vec _
  choose p hp using hp
  have hk' : ∀ i, k i = ![(p i).vel.x, (p i).vel.y, (p i).vel.z, constEM * (field (p i)).x, constEM * (field (p i)).y, constEM * (field (p i)).z] := by
    intro i; rw [hk i, ← hp i, motion_vec]
  have ha : 0 ≤ a := le_trans (mul_nonneg (abs_nonneg _) (Real.sqrt_nonneg _)) (hb y)
  have hc : ∀ (c : ℝ) (u : Phase), |c| ≤ V3.norm (field u) → |constEM * c| ≤ a := fun c u h => by
    rw [abs_mul]; exact (mul_le_mul_of_nonneg_left h (abs_nonneg _)).trans (hb u)
  -- the accelerations
  have hacc : ∀ (j : Fin 3) (i : Fin 6), |k i (j.natAdd 3)| ≤ a := by
    intro j i
    rw [hk' i]
    fin_cases j
    · exact hc _ _ (abs_x_le _)
    · exact hc _ _ (abs_y_le _)
    · exact hc _ _ (abs_z_le _)
  -- the velocities of the stages
  have hvel : ∀ (j : Fin 3) (i : Fin 6), k i (j.castAdd 3) = vec y (j.natAdd 3) + h * ∑ l, fehlbergA i l * k l (j.natAdd 3) := by
    intro j i
    have e := congrFun (hp i) (j.natAdd 3)
    simp only [Pi.add_apply, Pi.smul_apply, Finset.sum_apply, smul_eq_mul] at e
    rw [← e, hk' i]
    fin_cases j <;> rfl
  have hA := sizeA_nonneg
  have hD := sizeD_nonneg
  have hdiff : ∀ j, vec y' j - z j = h * ∑ i, (fehlberg5 i - fehlberg4 i) * k i j := by
    intro j
    rw [hz, hz']
    simp only [Pi.add_apply, Pi.smul_apply, Finset.sum_apply, smul_eq_mul, sub_mul, Finset.sum_sub_distrib]
    ring
  have hsum0 : ∑ i, (fehlberg5 i - fehlberg4 i) = 0 := by
    simp [Fin.sum_univ_six, fehlberg5, fehlberg4]; norm_num
  have hd : ∀ j : Fin 3, |vec y' (j.natAdd 3) - z (j.natAdd 3)| ≤ h * (sizeD * a) := by
    intro j
    rw [hdiff, abs_mul, abs_of_pos hh]
    have := sum_mul_bound (c := fun l => fehlberg5 l - fehlberg4 l) (k := fun l => k l (j.natAdd 3)) (K := a) (fun l => Or.inr (hacc j l))
    have h2 : ∑ l, |fehlberg5 l - fehlberg4 l| = sizeD := rfl
    rw [h2] at this
    gcongr
  have hd' : ∀ j : Fin 3, |vec y' (j.castAdd 3) - z (j.castAdd 3)| ≤ h * (sizeD * (h * (sizeA * a))) := by
    intro j
    have e : ∑ i, (fehlberg5 i - fehlberg4 i) * k i (j.castAdd 3) = ∑ i, (fehlberg5 i - fehlberg4 i) * (h * ∑ l, fehlbergA i l * k l (j.natAdd 3)) := by
      have : ∑ i, (fehlberg5 i - fehlberg4 i) * k i (j.castAdd 3) =
          (∑ i, (fehlberg5 i - fehlberg4 i)) * vec y (j.natAdd 3) + ∑ i, (fehlberg5 i - fehlberg4 i) * (h * ∑ l, fehlbergA i l * k l (j.natAdd 3)) := by
        rw [Finset.sum_mul, ← Finset.sum_add_distrib]
        refine Finset.sum_congr rfl (fun i _ => ?_)
        rw [hvel]; ring
      rw [this, hsum0]; ring
    rw [hdiff, e, abs_mul, abs_of_pos hh]
    have := sum_mul_bound (c := fun l => fehlberg5 l - fehlberg4 l) (k := fun i => h * ∑ l, fehlbergA i l * k l (j.natAdd 3)) (K := h * (sizeA * a)) (fun i => Or.inr (by
      rw [abs_mul, abs_of_pos hh]
      have h3 := sum_mul_bound (c := fun l => fehlbergA i l) (k := fun l => k l (j.natAdd 3)) (K := a) (fun l => Or.inr (hacc j l))
      have h4 := row_le_sizeA i
      calc h * |∑ l, fehlbergA i l * k l (j.natAdd 3)| ≤ h * ((∑ l, |fehlbergA i l|) * a) := by gcongr
        _ ≤ h * (sizeA * a) := by gcongr))
    have h2 : ∑ l, |fehlberg5 l - fehlberg4 l| = sizeD := rfl
    rw [h2] at this
    gcongr
  refine ⟨?_, ?_⟩
  · have key : ∀ j : Fin 3, |vec y' (j.natAdd 3)| ≤ |vec y (j.natAdd 3)| + a * h := by
      intro j
      have e := congrFun hz (j.natAdd 3)
      simp only [Pi.add_apply, Pi.smul_apply, Finset.sum_apply, smul_eq_mul] at e
      rw [e]
      refine (abs_add_le _ _).trans ?_
      rw [abs_mul, abs_of_pos hh]
      have := sum_mul_bound (c := fun l => fehlberg5 l) (k := fun l => k l (j.natAdd 3)) (K := a) (fun l => Or.inr (hacc j l))
      have h5 : ∑ l, |fehlberg5 l| = 1 := by
        simp [Fin.sum_univ_six, fehlberg5]; norm_num [abs_of_pos]
      rw [h5, one_mul] at this
      nlinarith
    exact ⟨key 0, key 1, key 2⟩
  · refine (errorEstimate_le hh.le (hd' 0) (hd' 1) (hd' 2) (hd 0) (hd 1) (hd 2)).trans (le_of_eq ?_)
    ring

/-! ## The length of the steps -/

/-- The step length does not fall below `μ`. -/
theorem rkNewStep_ge {atol error h hmax D μ : ℝ} (hμ : 0 < μ) (hD : 2 * D * μ ^ 2 ≤ atol) (hD0 : 0 < D) (hh : μ ≤ h) (hm : μ ≤ hmax) (he : error ≤ D * h ^ 2) (he0 : 0 ≤ error) :
    μ ≤ rkNewStep atol error h hmax := by
  unfold rkNewStep
  split_ifs with hc
  · exact hm
  · push Not at hc
    have he' : 0 < error := lt_of_le_of_ne he0 (Ne.symm hc.1)
    have hhp : 0 < h := by linarith
    refine le_min ?_ hm
    set x := μ / h with hx
    have hx0 : 0 < x := div_pos hμ hhp
    have hx1 : x ≤ 1 := (div_le_one hhp).2 hh
    have hμx : μ = x * h := by rw [hx]; field_simp
    have hq : 2 * x ^ 2 ≤ atol / error := by
      rw [le_div_iff₀ he']
      calc 2 * x ^ 2 * error ≤ 2 * x ^ 2 * (D * h ^ 2) := by gcongr
        _ = 2 * D * μ ^ 2 := by rw [hμx]; ring
        _ ≤ atol := hD
    have h5 : (x / 0.9) ^ 5 ≤ atol / error := by
      refine le_trans ?_ hq
      have h3 : x ^ 3 ≤ 1 := pow_le_one₀ hx0.le hx1
      have h2 : 0 ≤ x ^ 2 := by positivity
      have : x ^ 5 = x ^ 2 * x ^ 3 := by ring
      rw [div_pow, div_le_iff₀ (by positivity), this]
      nlinarith
    have h6 : x / 0.9 ≤ (atol / error) ^ (0.2 : ℝ) := by
      have e : ((x / 0.9) ^ 5) ^ (0.2 : ℝ) = x / 0.9 := by
        have := Real.pow_rpow_inv_natCast (x := x / 0.9) (n := 5) (by positivity) (by norm_num)
        have e2 : ((5 : ℕ) : ℝ)⁻¹ = (0.2 : ℝ) := by norm_num
        rwa [e2] at this
      rw [← e]
      exact Real.rpow_le_rpow (by positivity) h5 (by norm_num)
    have h7 : x ≤ 0.9 * (atol / error) ^ (0.2 : ℝ) := by
      rw [div_le_iff₀ (by norm_num)] at h6; linarith
    calc μ = x * h := hμx
      _ ≤ 0.9 * (atol / error) ^ (0.2 : ℝ) * h := by gcongr
      _ = 0.9 * h * (atol / error) ^ (0.2 : ℝ) := by ring

/-- All steps of a block have at least the length `μ`. -/
theorem traceLoop_steps (field : Phase → V3) (bounds : Bounds) (atol hmax : ℝ) (B : Nat) {D μ : ℝ} (hμ : 0 < μ) (hD : 2 * D * μ ^ 2 ≤ atol) (hD0 : 0 < D) (hm : μ ≤ hmax)
    (herr : ∀ y h, 0 < h → rkError h (rkStages field h y) ≤ D * h ^ 2) (fuel : Nat) :
    ∀ (rows : List Row) (t : ℝ) (y : Phase) (h : ℝ) (out : List Row), μ ≤ h → traceLoop field bounds atol hmax B fuel rows t y h = some out →
    ∃ l, out = rows ++ l ∧ List.IsChain (fun a b : Row => a.1 + μ ≤ b.1) ((t, y) :: l) := by
  induction fuel with
  | zero => intro rows t y h out _ ho; simp [traceLoop] at ho
  | succ fuel ih =>
    intro rows t y h out hh hout
    have hhp : 0 < h := by linarith
    have hnew := rkNewStep_ge hμ hD hD0 hh hm (herr y h hhp) (rkError_nonneg hhp _)
    rw [traceLoop] at hout
    split_ifs at hout with hin
    · simp only at hout
      split_ifs at hout with hacc hfull
      · obtain rfl := Option.some.inj hout
        refine ⟨[(t + h, rkAdvance y (rkStages field h y))], rfl, ?_⟩
        simp only [List.isChain_cons_cons, List.isChain_singleton, and_true]
        linarith
      · obtain ⟨l, e1, e2⟩ := ih _ _ _ _ _ hnew hout
        refine ⟨(t + h, rkAdvance y (rkStages field h y)) :: l, by rw [e1]; simp, ?_⟩
        rw [List.isChain_cons_cons]
        refine ⟨?_, e2⟩
        simp only
        linarith
      · exact ih _ _ _ _ _ hnew hout
    · obtain rfl := Option.some.inj hout
      exact ⟨[], by simp, by simp⟩

theorem chain_inv {R : Row → Row → Prop} {I box : Row → Prop} {μ : ℝ} (hμ : 0 ≤ μ) (hstep : ∀ a b, I a → box a → R a b → I b) (l : List Row) :
    ∀ s, List.IsChain R (s :: l) → List.IsChain (fun a b : Row => a.1 + μ ≤ b.1) (s :: l) → (∀ a ∈ (s :: l).dropLast, box a) → I s → ∀ m, (s :: l).getLast? = some m →
    I m ∧ (l ≠ [] → s.1 + μ ≤ m.1) ∧ s.1 ≤ m.1 := by
  induction l with
  | nil =>
    intro s _ _ _ hI m hm
    simp at hm
    subst hm
    exact ⟨hI, fun h => absurd rfl h, le_rfl⟩
  | cons b l ih =>
    intro s hR hS hbox hI m hm
    rw [List.isChain_cons_cons] at hR hS
    rw [List.dropLast_cons_of_ne_nil (by simp)] at hbox
    have hIb := hstep s b hI (hbox s (by simp)) hR.1
    obtain ⟨h1, h2, h3⟩ := ih b hR.2 hS.2 (fun a ha => hbox a (by simp [ha])) hIb m (by rwa [List.getLast?_cons_cons] at hm)
    exact ⟨h1, fun _ => hS.1.trans h3, by linarith [hS.1]⟩

theorem Spec.Glued.mono {R : Type} {fill fill' : R → Option (List R)} (hf : ∀ s out, fill s = some out → fill' s = some out) {B : Nat} {s : R} {l : List R} (g : Glued fill B s l) :
    Glued fill' B s l := by
  induction g with
  | last s l h hN => exact .last s l (hf _ _ h) hN
  | more s l m l' h hN _ ih => exact .more s l m l' (hf _ _ h) hN ih

theorem norm_le_comps (a : V3) : V3.norm a ≤ |a.x| + |a.y| + |a.z| := by
  unfold V3.norm dot
  apply Real.sqrt_le_iff.2
  refine ⟨by positivity, ?_⟩
  have := mul_nonneg (abs_nonneg a.x) (abs_nonneg a.y)
  have := mul_nonneg (abs_nonneg a.x) (abs_nonneg a.z)
  have := mul_nonneg (abs_nonneg a.y) (abs_nonneg a.z)
  nlinarith [sq_abs a.x, sq_abs a.y, sq_abs a.z]

theorem energy_step {c g u h p x p' u' : ℝ} (h2 : c ^ 2 ≤ u ^ 2 + 2 * g * (p - x)) (q2 : (u - g * h) ^ 2 ≤ u' ^ 2) (q3 : 2 * g * (p + h * u - g * h ^ 2 / 2) ≤ 2 * g * p') :
    c ^ 2 ≤ u' ^ 2 + 2 * g * (p' - x) := by
  have e : u ^ 2 + 2 * g * p = (u - g * h) ^ 2 + 2 * g * (p + h * u - g * h ^ 2 / 2) := by ring
  linarith

theorem advance_step {t w p x h u g p' : ℝ} (h3 : t * w / 2 ≤ p - x) (d2 : p + h * u - g * h ^ 2 / 2 ≤ p') (q4 : g * h * h ≤ u * h) (q5 : w * h ≤ u * h) :
    (t + h) * w / 2 ≤ p' - x := by
  have e : g * h ^ 2 = g * h * h := by ring
  linarith

/-- **C79.** A particle that is fast enough leaves the box, and the tracer returns. `n` is a unit vector. If the acceleration is bounded, in the direction `n` nowhere less than `-g`, the box does not extend further than
`L` in the direction `n`, and the kinetic energy of the motion along `n` is enough to travel `L` and 5 mm more against the deceleration `g`, the tracer returns, whatever the tolerance and the block size. With `g = 0` (the force never
points backwards) this is every particle that moves forward. -/
theorem C79_leaves (field : Phase → V3) (bounds : Bounds) (atol : ℝ) (ha : 0 < atol) (B : Nat) (hB : 2 ≤ B) (x v n : V3) (hn : V3.norm n = 1) (g a L : ℝ) (hg0 : 0 ≤ g)
    (hb : ∀ y, |constEM| * V3.norm (field y) ≤ a) (hg : ∀ y, -g ≤ constEM * dot n (field y)) (hL : ∀ p, InBox bounds p → dot n p ≤ dot n x + L)
    (hc : 0 < dot n v) (hE : 2 * g * (L + 0.005) ≤ dot n v ^ 2) :
    ∃ fuel rows, traceParticle field bounds atol B fuel x v = some rows := by
  have ha0 : 0 ≤ a := le_trans (mul_nonneg (abs_nonneg _) (Real.sqrt_nonneg _)) (hb ⟨0, 0⟩)
  set c := dot n v with hcdef
  -- the least forward velocity in the box
  have hw2 : 0 < c ^ 2 - 2 * g * L := by
    rcases hg0.eq_or_lt with h | h
    · rw [← h]; nlinarith
    · nlinarith
  set w := Real.sqrt (c ^ 2 - 2 * g * L) with hwdef
  have hw : 0 < w := Real.sqrt_pos.2 hw2
  have hww : w ^ 2 = c ^ 2 - 2 * g * L := Real.sq_sqrt hw2.le
  have hwg : 0.01 * g ≤ w ^ 2 := by rw [hww]; linarith
  set T := 2 * |L| / w with hT
  have hT0 : 0 ≤ T := by positivity
  set Vm := |v.x| + |v.y| + |v.z| + 3 * (a * T) with hVm
  have hVm0 : 0 < Vm := by
    have h1 : 0 < V3.norm v := V3.norm_pos (fun h => by rw [hcdef, h] at hc; simp [dot] at hc)
    have := norm_le_comps v
    have : 0 ≤ a * T := by positivity
    linarith
  set D := (sizeD * sizeA + sizeD) * a + 1 with hD
  have hD0 : 0 < D := by have := sizeA_nonneg; have := sizeD_nonneg; positivity
  have herr : ∀ y h, 0 < h → rkError h (rkStages field h y) ≤ D * h ^ 2 := by
    intro y h hh
    obtain ⟨z, hs, he⟩ := step_fehlberg field h y
    rw [he]
    refine (step_bounded field a h hh hb y _ z hs).2.trans ?_
    gcongr
    linarith
  obtain ⟨μ, hμ, hμ1, hμ2⟩ : ∃ μ : ℝ, 0 < μ ∧ μ ≤ 0.01 / Vm ∧ 2 * D * μ ^ 2 ≤ atol := by
    refine ⟨min (0.01 / Vm) (Real.sqrt (atol / (2 * D))), lt_min (by positivity) (Real.sqrt_pos.2 (by positivity)), min_le_left _ _, ?_⟩
    have h1 : min (0.01 / Vm) (Real.sqrt (atol / (2 * D))) ^ 2 ≤ Real.sqrt (atol / (2 * D)) ^ 2 := by
      have : 0 ≤ min (0.01 / Vm) (Real.sqrt (atol / (2 * D))) := (lt_min (by positivity) (Real.sqrt_pos.2 (by positivity))).le
      exact pow_le_pow_left₀ this (min_le_right _ _) 2
    rw [Real.sq_sqrt (by positivity)] at h1
    calc 2 * D * min (0.01 / Vm) (Real.sqrt (atol / (2 * D))) ^ 2 ≤ 2 * D * (atol / (2 * D)) := by gcongr
      _ = atol := by field_simp
  -- what holds of all rows
  let I : Row → Prop := fun r => 0 ≤ r.1 ∧ 0 ≤ dot n r.2.vel ∧ c ^ 2 ≤ dot n r.2.vel ^ 2 + 2 * g * (dot n r.2.pos - dot n x) ∧ r.1 * w / 2 ≤ dot n r.2.pos - dot n x ∧
    |r.2.vel.x| ≤ |v.x| + a * r.1 ∧ |r.2.vel.y| ≤ |v.y| + a * r.1 ∧ |r.2.vel.z| ≤ |v.z| + a * r.1
  have hforward : ∀ r, I r → InBox bounds r.2.pos → w ≤ dot n r.2.vel := by
    rintro r ⟨_, h1, h2, _⟩ hin
    have := hL _ hin
    refine le_of_sq_le_sq ?_ h1
    rw [hww]
    have : 2 * g * (dot n r.2.pos - dot n x) ≤ 2 * g * L := by gcongr; linarith
    linarith
  have htime : ∀ r, I r → InBox bounds r.2.pos → r.1 ≤ T := by
    rintro r ⟨_, _, _, h3, _⟩ hin
    have := hL _ hin
    rw [hT, le_div_iff₀ hw]
    have := le_abs_self L
    linarith
  have hspeed : ∀ r, I r → w ≤ dot n r.2.vel → w ≤ V3.norm r.2.vel := by
    intro r _ h
    have := V3.abs_dot_le n r.2.vel
    rw [hn, one_mul] at this
    exact h.trans ((le_abs_self _).trans this)
  have hstep : ∀ V : ℝ, w ≤ V → ∀ r r', I r → InBox bounds r.2.pos → StepRel field atol (tracingStepMax / V) r r' → I r' := by
    intro V hV r r' hI hin hr
    have hwr := hforward r hI hin
    obtain ⟨h0, h1, h2, h3, h4, h5, h6⟩ := hI
    obtain ⟨h, hh, hle, ht, z, hs, _⟩ := hr
    obtain ⟨d1, d2⟩ := step_direction field n g h hh hg r.2 r'.2 z hs
    obtain ⟨⟨e1, e2, e3⟩, _⟩ := step_bounded field a h hh hb r.2 r'.2 z hs
    have hhw : h * w ≤ 0.01 := by
      have : h ≤ 0.01 / w := hle.trans (by unfold tracingStepMax; gcongr)
      rwa [le_div_iff₀ hw] at this
    have hgh : g * h ≤ w := by
      have h7 : g * h * w ≤ w * w := by
        have := mul_le_mul_of_nonneg_left hhw hg0
        linarith [sq w]
      exact le_of_mul_le_mul_right h7 hw
    have q1 : 0 ≤ dot n r.2.vel - g * h := by linarith
    have q2 : (dot n r.2.vel - g * h) ^ 2 ≤ dot n r'.2.vel ^ 2 := pow_le_pow_left₀ q1 d1 2
    refine ⟨by rw [ht]; linarith, q1.trans d1, ?_, ?_, ?_, ?_, ?_⟩
    · have q3 : 2 * g * (dot n r.2.pos + h * dot n r.2.vel - g * h ^ 2 / 2) ≤ 2 * g * dot n r'.2.pos := mul_le_mul_of_nonneg_left d2 (by positivity)
      exact energy_step h2 q2 q3
    · rw [ht]
      have q4 : g * h * h ≤ dot n r.2.vel * h := mul_le_mul_of_nonneg_right (by linarith) hh.le
      have q5 : w * h ≤ dot n r.2.vel * h := mul_le_mul_of_nonneg_right hwr hh.le
      exact advance_step h3 d2 q4 q5
    · rw [ht]; linarith
    · rw [ht]; linarith
    · rw [ht]; linarith
  -- the blocks
  have hbn : ∀ y, BoundedNear field y := by
    intro y
    refine ⟨a / |constEM|, 1, one_pos, fun y' _ => ?_⟩
    have hem : 0 < |constEM| := abs_pos.2 (by norm_num [constEM])
    rw [le_div_iff₀ hem, mul_comm]
    exact hb y'
  have main : ∀ (N : ℕ) (s : Row), I s → T < s.1 + N * μ → ∃ fuel l, Glued (traceParticleC field bounds atol B fuel) B s l := by
    intro N
    induction N with
    | zero =>
      intro s hI hs
      have hnot : ¬InBox bounds s.2.pos := fun h => by have := htime s hI h; simp at hs; linarith
      refine ⟨1, [], .last s [] ?_ (by simp; omega)⟩
      unfold traceParticleC
      simp only
      rw [if_neg (fun h => hnot h.2), traceLoop, if_neg (by rwa [inBoundsC_iff])]
    | succ N ih =>
      intro s hI hs
      by_cases hin : InBox bounds s.2.pos
      · have hwr := hforward s hI hin
        have hV := hspeed s hI hwr
        have hV0 : V3.norm s.2.vel ≠ 0 := (hw.trans_le hV).ne'
        have hvel : s.2.vel ≠ 0 := fun h => by rw [h] at hV0; simp [V3.norm, dot] at hV0
        obtain ⟨fuel, rows, hrows⟩ := C79_block field bounds atol ha B hB s hvel (fun row _ _ => hbn row.2)
        obtain ⟨l, rfl, e2, e3, e4, e5⟩ := traceParticleC_spec field bounds atol B ha hB fuel s rows hrows
        by_cases hN : (s :: l).length = B
        · have hlne : l ≠ [] := fun h => by rw [h] at hN; simp at hN; omega
          obtain ⟨l0, m, rfl⟩ := (List.eq_nil_or_concat' l).resolve_left hlne
          have hsteps : List.IsChain (fun a b : Row => a.1 + μ ≤ b.1) (s :: (l0 ++ [m])) := by
            have hhm : μ ≤ tracingStepMax / V3.norm s.2.vel := by
              refine hμ1.trans ?_
              unfold tracingStepMax
              have : V3.norm s.2.vel ≤ Vm := by
                refine (norm_le_comps _).trans ?_
                obtain ⟨h0, _, _, _, h4, h5, h6⟩ := hI
                have : a * s.1 ≤ a * T := by gcongr; exact htime s ⟨h0, ‹_›, ‹_›, ‹_›, h4, h5, h6⟩ hin
                linarith
              have := hw.trans_le hV
              gcongr
            have hrun := hrows
            unfold traceParticleC at hrun
            simp only at hrun
            rw [if_neg (fun h => hV0 h.1)] at hrun
            obtain ⟨l', e, hc'⟩ := traceLoop_steps field bounds atol _ B hμ hμ2 hD0 hhm herr fuel [s] s.1 s.2 _ _ hhm hrun
            have : l0 ++ [m] = l' := by simpa using e
            rw [this]; exact hc'
          obtain ⟨f1, f2, _⟩ := chain_inv (box := fun r => InBox bounds r.2.pos) hμ.le (hstep _ hV) (l0 ++ [m]) s e5 hsteps e4 hI m (by simp [List.getLast?_cons])
          have f2' := f2 hlne
          obtain ⟨fuel', l', g'⟩ := ih m f1 (by push_cast at hs; linarith)
          refine ⟨max fuel fuel', l0 ++ [m] ++ l', .more s l0 m l' ?_ (by simpa using hN) ?_⟩
          · exact traceParticleC_mono field bounds atol B (le_max_left _ _) hrows
          · exact g'.mono (fun s out h => traceParticleC_mono field bounds atol B (le_max_right _ _) h)
        · exact ⟨fuel, l, .last s l hrows (by simpa using hN)⟩
      · refine ⟨1, [], .last s [] ?_ (by simp; omega)⟩
        unfold traceParticleC
        simp only
        rw [if_neg (fun h => hin h.2), traceLoop, if_neg (by rwa [inBoundsC_iff])]
  obtain ⟨N, hN⟩ := exists_nat_gt (T / μ)
  obtain ⟨fuel, l, gl⟩ := main N (0, ⟨x, v⟩) ⟨le_rfl, hc.le, by simp [← hcdef], by simp, by simp, by simp, by simp⟩ (by rw [div_lt_iff₀ hμ] at hN; simpa using hN)
  obtain ⟨res, hr⟩ := traceBlocks_fuel gl [] (l.length + 1) (by omega)
  refine ⟨max fuel (l.length + 1), res.flatten, ?_⟩
  unfold traceParticle
  rw [traceWrapper_eq, traceBlocks_mono (fun s out h => traceParticleC_mono field bounds atol B (le_max_left fuel (l.length + 1)) h) B _ (max fuel (l.length + 1)) _ _ _ (le_max_right _ _) hr]
  rfl

end Traceon
