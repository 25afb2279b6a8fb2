import Verif.Spec.TracerSymmetry
import Verif.Props.Rigid4
import Verif.Props.Energy2

/-!
# C89 and C90: symmetries of traced trajectories
-/
namespace Traceon
open Spec

section
variable {R : RigidMotion} {κ : ℝ}

/-- The state `y` moved. -/
noncomputable def movedPhase (R : RigidMotion) (κ : ℝ) (y : Phase) : Phase := ⟨R.move y.pos, κ * R.lin y.vel⟩

/-- Differences of states move without the shift; the stages of a step contain the step, which is `κ` times as short. -/
noncomputable def movedStage (R : RigidMotion) (κ : ℝ) (k : Phase) : Phase := ⟨R.lin k.pos, κ * R.lin k.vel⟩

theorem movedStage_add (k l : Phase) : movedStage R κ (k + l) = movedStage R κ k + movedStage R κ l := by
  unfold movedStage
  simp only [Phase.add_pos, Phase.add_vel, R.add]
  apply Phase.ext
  · rfl
  · simp only [Phase.add_vel]
    ext <;> simp <;> ring

theorem movedStage_smul (c : ℝ) (k : Phase) : movedStage R κ (c * k) = c * movedStage R κ k := by
  unfold movedStage
  simp only [Phase.smul_pos, Phase.smul_vel, R.smul]
  apply Phase.ext
  · rfl
  · simp only [Phase.smul_vel]
    ext <;> simp <;> ring

theorem lin_zero (R : RigidMotion) : R.lin 0 = 0 := by
  have := R.smul 0 0
  have e : ∀ v : V3, (0 : ℝ) * v = 0 := fun v => by ext <;> simp
  rwa [e, e] at this

theorem movedStage_zero : movedStage R κ 0 = 0 := by
  unfold movedStage
  simp only [Phase.zero_pos, Phase.zero_vel, lin_zero]
  apply Phase.ext
  · rfl
  · ext <;> simp

theorem movedPhase_add (y k : Phase) : movedPhase R κ (y + k) = movedPhase R κ y + movedStage R κ k := by
  unfold movedPhase movedStage RigidMotion.move
  simp only [Phase.add_pos, Phase.add_vel, R.add]
  apply Phase.ext
  · simp only [Phase.add_pos]
    ext <;> simp <;> ring
  · simp only [Phase.add_vel]
    ext <;> simp <;> ring

theorem produceNewY_move (y : Phase) (c : List ℝ) (ks : List Phase) :
    produceNewY (movedPhase R κ y) c (ks.map (movedStage R κ)) = movedPhase R κ (produceNewY y c ks) := by
  unfold produceNewY
  rw [List.zip_map_right]
  generalize c.zip ks = l
  induction l generalizing y with
  | nil => rfl
  | cons a l ih =>
    simp only [List.map_cons, List.foldl_cons]
    rw [← ih]
    congr 1
    rw [movedPhase_add, movedStage_smul]
    rfl

theorem sum_move (c : List ℝ) (ks : List Phase) (a : Phase) :
    (c.zip (ks.map (movedStage R κ))).foldl (fun acc ck => acc + ck.1 * ck.2) (movedStage R κ a) = movedStage R κ ((c.zip ks).foldl (fun acc ck => acc + ck.1 * ck.2) a) := by
  rw [List.zip_map_right]
  generalize c.zip ks = l
  induction l generalizing a with
  | nil => rfl
  | cons x l ih =>
    simp only [List.map_cons, List.foldl_cons]
    rw [← ih]
    congr 1
    rw [movedStage_add, movedStage_smul]
    rfl

variable {field field' : Phase → V3} (hκ : 0 < κ) (hF : ∀ y, field' (movedPhase R κ y) = κ ^ 2 * R.lin (field y))

include hκ hF in
theorem produceNewK_move (h : ℝ) (y : Phase) : produceNewK field' (h / κ) (movedPhase R κ y) = movedStage R κ (produceNewK field h y) := by
  unfold produceNewK
  rw [hF]
  unfold movedPhase movedStage
  apply Phase.ext
  · simp only [R.smul]
    ext <;> simp <;> field_simp
  · simp only [R.smul]
    ext <;> simp <;> field_simp

include hκ hF in
theorem rkStages_move (h : ℝ) (y : Phase) : rkStages field' (h / κ) (movedPhase R κ y) = (rkStages field h y).map (movedStage R κ) := by
  unfold rkStages
  have : ∀ (cs : List (List ℝ)) (ks : List Phase), cs.foldl (fun ks coeff => ks ++ [produceNewK field' (h / κ) (produceNewY (movedPhase R κ y) coeff ks)]) (ks.map (movedStage R κ)) =
      (cs.foldl (fun ks coeff => ks ++ [produceNewK field h (produceNewY y coeff ks)]) ks).map (movedStage R κ) := by
    intro cs
    induction cs with
    | nil => intro ks; rfl
    | cons c cs ih =>
      intro ks
      simp only [List.foldl_cons]
      rw [← ih, List.map_append, List.map_singleton, produceNewY_move, produceNewK_move hκ hF]
  exact this _ []

theorem rkMaxError_eq (ks : List Phase) (f g h : Phase → ℝ) :
    rkMaxError ks [f, g, h] = max |(rkCT.zip ks).foldl (fun e ck => e + ck.1 * f ck.2) 0| (max |(rkCT.zip ks).foldl (fun e ck => e + ck.1 * g ck.2) 0| |(rkCT.zip ks).foldl (fun e ck => e + ck.1 * h ck.2) 0|) := by
  unfold rkMaxError
  simp only [List.foldl_cons, List.foldl_nil]
  generalize (rkCT.zip ks).foldl (fun e ck => e + ck.1 * f ck.2) 0 = a
  generalize (rkCT.zip ks).foldl (fun e ck => e + ck.1 * g ck.2) 0 = b
  generalize (rkCT.zip ks).foldl (fun e ck => e + ck.1 * h ck.2) 0 = c
  have := abs_nonneg a
  have := abs_nonneg b
  have := abs_nonneg c
  rcases le_total |a| |b| with h1 | h1 <;> rcases le_total |b| |c| with h2 | h2 <;> rcases le_total |a| |c| with h3 | h3 <;>
    simp only [max_eq_left, max_eq_right, h1, h2, h3, gt_iff_lt] <;> split_ifs <;> linarith

theorem foldl_comp (l : List (ℝ × Phase)) (f : Phase → ℝ) (hadd : ∀ a b, f (a + b) = f a + f b) (hsm : ∀ (k : ℝ) a, f (k * a) = k * f a) (a : Phase) :
    l.foldl (fun e ck => e + ck.1 * f ck.2) (f a) = f (l.foldl (fun acc ck => acc + ck.1 * ck.2) a) := by
  induction l generalizing a with
  | nil => rfl
  | cons x l ih =>
    simp only [List.foldl_cons]
    rw [← ih, hadd, hsm]

/-- The estimated error of a step, in terms of the difference of the two methods. -/
theorem rkError_eq (h : ℝ) (ks : List Phase) : ∃ d : Phase, d = (rkCT.zip ks).foldl (fun acc ck => acc + ck.1 * ck.2) 0 ∧
    rkError h ks = max |d.pos.x| (max |d.pos.y| |d.pos.z|) + h * max |d.vel.x| (max |d.vel.y| |d.vel.z|) := by
  refine ⟨_, rfl, ?_⟩
  unfold rkError
  rw [rkMaxError_eq, rkMaxError_eq]
  have := fun (f : Phase → ℝ) (hadd : ∀ a b, f (a + b) = f a + f b) (hsm : ∀ (k : ℝ) a, f (k * a) = k * f a) (h0 : f 0 = 0) => foldl_comp (rkCT.zip ks) f hadd hsm 0
  rw [← this (fun k => k.pos.x) (fun _ _ => rfl) (fun _ _ => rfl) rfl, ← this (fun k => k.pos.y) (fun _ _ => rfl) (fun _ _ => rfl) rfl, ← this (fun k => k.pos.z) (fun _ _ => rfl) (fun _ _ => rfl) rfl,
    ← this (fun k => k.vel.x) (fun _ _ => rfl) (fun _ _ => rfl) rfl, ← this (fun k => k.vel.y) (fun _ _ => rfl) (fun _ _ => rfl) rfl, ← this (fun k => k.vel.z) (fun _ _ => rfl) (fun _ _ => rfl) rfl]
  rfl

theorem rkError_move (hR : R.KeepsAxes) (hκ : 0 < κ) (h : ℝ) (ks : List Phase) : rkError (h / κ) (ks.map (movedStage R κ)) = rkError h ks := by
  obtain ⟨d, hd, h1⟩ := rkError_eq h ks
  obtain ⟨d', hd', h2⟩ := rkError_eq (h / κ) (ks.map (movedStage R κ))
  have : d' = movedStage R κ d := by
    rw [hd, hd', ← sum_move, movedStage_zero]
  rw [h1, h2, this]
  unfold movedStage
  have a1 := hR d.pos
  have a2 := hR (κ * d.vel)
  rw [R.smul] at a2
  simp only
  rw [a1, a2]
  simp only [V3.smul_x, V3.smul_y, V3.smul_z, abs_mul, abs_of_pos hκ]
  rw [← mul_max_of_nonneg _ _ hκ.le, ← mul_max_of_nonneg _ _ hκ.le]
  field_simp

theorem rkAdvance_move (y : Phase) (ks : List Phase) : rkAdvance (movedPhase R κ y) (ks.map (movedStage R κ)) = movedPhase R κ (rkAdvance y ks) := by
  unfold rkAdvance
  rw [movedPhase_add, ← sum_move, movedStage_zero]

theorem rkNewStep_move (hκ : 0 < κ) (atol e h hmax : ℝ) : rkNewStep atol e (h / κ) (hmax / κ) = rkNewStep atol e h hmax / κ := by
  unfold rkNewStep
  split
  · rfl
  · have e : 0.9 * (h / κ) * (atol / e) ^ (0.2 : ℝ) = 0.9 * h * (atol / e) ^ (0.2 : ℝ) / κ := by ring
    rw [e, min_div_div_right hκ.le]

theorem traceLoop_move (hR : R.KeepsAxes) (hκ : 0 < κ) (hF : ∀ y, field' (movedPhase R κ y) = κ ^ 2 * R.lin (field y)) {bounds bounds' : Bounds}
    (hb : ∀ p, inBoundsC bounds' (R.move p) ↔ inBoundsC bounds p) (atol hmax : ℝ) (B fuel : Nat) (rows : List Row) (t : ℝ) (y : Phase) (h : ℝ) :
    traceLoop field' bounds' atol (hmax / κ) B fuel (rows.map (movedRow R κ)) (t / κ) (movedPhase R κ y) (h / κ) =
      (traceLoop field bounds atol hmax B fuel rows t y h).map (List.map (movedRow R κ)) := by
  induction fuel generalizing rows t y h with
  | zero => rfl
  | succ fuel ih =>
    have hb' : inBoundsC bounds' (movedPhase R κ y).pos ↔ inBoundsC bounds y.pos := hb y.pos
    have hrow : ∀ z, rows.map (movedRow R κ) ++ [(t / κ + h / κ, movedPhase R κ z)] = (rows ++ [(t + h, z)]).map (movedRow R κ) := by
      intro z
      rw [List.map_append, List.map_singleton]
      congr 2
      unfold movedRow movedPhase
      rw [← add_div]
    rw [traceLoop, traceLoop]
    by_cases c : inBoundsC bounds y.pos
    · rw [if_pos c, if_pos (hb'.2 c)]
      simp only [rkStages_move hκ hF, rkError_move hR hκ, rkAdvance_move, rkNewStep_move hκ]
      rw [hrow, ← add_div, List.length_map]
      by_cases c2 : rkError h (rkStages field h y) ≤ atol
      · rw [if_pos c2, if_pos c2]
        by_cases c3 : (rows ++ [(t + h, rkAdvance y (rkStages field h y))]).length = B
        · rw [if_pos c3, if_pos c3]; rfl
        · rw [if_neg c3, if_neg c3]; exact ih ..
      · rw [if_neg c2, if_neg c2]; exact ih ..
    · rw [if_neg c, if_neg (fun d => c (hb'.1 d))]; rfl

theorem traceParticleC_move (hR : R.KeepsAxes) (hκ : 0 < κ) (hF : ∀ y, field' (movedPhase R κ y) = κ ^ 2 * R.lin (field y)) {bounds bounds' : Bounds}
    (hb : ∀ p, inBoundsC bounds' (R.move p) ↔ inBoundsC bounds p) (atol : ℝ) (B fuel : Nat) (start : Row) :
    traceParticleC field' bounds' atol B fuel (movedRow R κ start) = (traceParticleC field bounds atol B fuel start).map (List.map (movedRow R κ)) := by
  have hnorm : V3.norm (movedRow R κ start).2.vel = κ * V3.norm start.2.vel := by
    have : V3.dot (κ * R.lin start.2.vel) (κ * R.lin start.2.vel) = κ ^ 2 * V3.dot start.2.vel start.2.vel := by
      rw [← R.dot start.2.vel start.2.vel]; simp [V3.dot]; ring
    have e : ∀ v, V3.norm v = Real.sqrt (V3.dot v v) := fun v => by unfold V3.norm V3.dot; congr 1
    rw [e, e]
    show Real.sqrt (V3.dot (κ * R.lin start.2.vel) (κ * R.lin start.2.vel)) = _
    rw [this, Real.sqrt_mul (by positivity), Real.sqrt_sq hκ.le]
  unfold traceParticleC
  simp only [hnorm]
  have h0 : (movedRow R κ start).2.vel.norm = 0 ∧ inBoundsC bounds' (movedRow R κ start).2.pos ↔ V3.norm start.2.vel = 0 ∧ inBoundsC bounds start.2.pos := by
    rw [hnorm, mul_eq_zero]
    have := hb start.2.pos
    constructor
    · rintro ⟨a, b⟩; exact ⟨a.resolve_left hκ.ne', this.1 b⟩
    · rintro ⟨a, b⟩; exact ⟨Or.inr a, this.2 b⟩
  by_cases c : V3.norm start.2.vel = 0 ∧ inBoundsC bounds start.2.pos
  · rw [if_pos c, if_pos (h0.2 c)]; rfl
  · rw [if_neg c, if_neg (fun d => c (h0.1 d))]
    have := traceLoop_move hR hκ hF hb atol (tracingStepMax / V3.norm start.2.vel) B fuel [start] start.1 start.2 (tracingStepMax / V3.norm start.2.vel)
    have e : tracingStepMax / (κ * V3.norm start.2.vel) = tracingStepMax / V3.norm start.2.vel / κ := by rw [div_div, mul_comm]
    rw [e]
    exact this

theorem traceBlocks_move {fill fill' : Row → Option (List Row)} {m : Row → Row} (h : ∀ s, fill' (m s) = (fill s).map (List.map m)) (B fuel : Nat) (acc : List (List Row)) (start : Row) :
    traceBlocks fill' B fuel (acc.map (List.map m)) (m start) = (traceBlocks fill B fuel acc start).map (List.map (List.map m)) := by
  induction fuel generalizing acc start with
  | zero => rfl
  | succ fuel ih =>
    unfold traceBlocks
    rw [h]
    cases hf : fill start with
    | none => rfl
    | some rows =>
      simp only [Option.map_some, Option.bind_eq_bind, Option.bind_some, List.length_map]
      have hblock : (if acc.length > 0 then (rows.map m).drop 1 else rows.map m) = (if acc.length > 0 then rows.drop 1 else rows).map m := by
        split_ifs <;> simp
      rw [hblock]
      generalize (if acc.length > 0 then rows.drop 1 else rows) = block
      have hacc : acc.map (List.map m) ++ [block.map m] = (acc ++ [block]).map (List.map m) := by simp
      rw [hacc]
      by_cases c : rows.length ≠ B
      · rw [if_pos c, if_pos c]; rfl
      · rw [if_neg c, if_neg c, List.getLast?_map]
        cases block.getLast? with
        | none => rfl
        | some last => exact ih _ _

/-- **C90.** Let the force in `field'` be the one in `field`, moved by `R` and `κ²` times as large for electrons `κ` times as fast, where `R` takes coordinate axes to coordinate axes, and let the
bounds of the tracer be moved as well. Then an electron that starts at the moved position with the moved velocity, `κ` times as fast, passes in the `field'` exactly the moved points: the tracer makes the same steps,
and returns row by row the moved positions and velocities, with times divided by `κ`. -/
theorem C90_trace (R : RigidMotion) (hR : R.KeepsAxes) (κ : ℝ) (hκ : 0 < κ) {field field' : Phase → V3} (hF : ∀ x v, field' ⟨R.move x, κ * R.lin v⟩ = κ ^ 2 * R.lin (field ⟨x, v⟩))
    {bounds bounds' : Bounds} (hb : ∀ p, InBox bounds' (R.move p) ↔ InBox bounds p) (atol : ℝ) (B fuel : Nat) (x v : V3) :
    traceParticle field' bounds' atol B fuel (R.move x) (κ * R.lin v) = (traceParticle field bounds atol B fuel x v).map (List.map (movedRow R κ)) := by
  have hF' : ∀ y, field' (movedPhase R κ y) = κ ^ 2 * R.lin (field y) := fun y => hF y.pos y.vel
  have hb' : ∀ p, inBoundsC bounds' (R.move p) ↔ inBoundsC bounds p := hb
  unfold traceParticle traceWrapper
  have := traceBlocks_move (m := movedRow R κ) (fun s => traceParticleC_move hR hκ hF' hb' atol B fuel s) B fuel [] (0, ⟨x, v⟩)
  have e : movedRow R κ (0, ⟨x, v⟩) = (0, ⟨R.move x, κ * R.lin v⟩) := by simp [movedRow]
  rw [e] at this
  simp only [List.map_nil] at this
  rw [this]
  cases traceBlocks (traceParticleC field bounds atol B fuel) B fuel [] (0, ⟨x, v⟩) with
  | none => rfl
  | some bs =>
    simp only [Option.map_some, Option.bind_eq_bind, Option.bind_some]
    match bs with
    | [] => rfl
    | [b] => rfl
    | b :: c :: bs => simp [List.map_flatten]

end

end Traceon
