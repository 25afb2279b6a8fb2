import Verif.Props.Tracer

/-!
# C70: the integrator is Fehlberg's pair of orders five and four
-/
namespace Traceon
open Spec

/-- All forests with at most `n` nodes. -/
def forestsLe : Nat → Nat → List (List Tree)
  | 0, _ => [[]]
  | fuel + 1, n => [] :: (if 1 ≤ n then
      (forestsLe fuel (n - 1)).flatMap (fun f => (forestsLe fuel (n - 1 - Tree.sizes f)).map (fun g => Spec.Tree.node f :: g)) else [])

theorem mem_forestsLe (fuel : Nat) : ∀ (n : Nat) (ts : List Tree), Tree.sizes ts ≤ n → n ≤ fuel → ts ∈ forestsLe fuel n := by
  induction fuel with
  | zero =>
    intro n ts h hn
    cases ts with
    | nil => simp [forestsLe]
    | cons t ts => cases t; simp [Tree.sizes, Tree.size] at h; omega
  | succ fuel ih =>
    intro n ts h hn
    rw [forestsLe]
    cases ts with
    | nil => simp
    | cons t g =>
      obtain ⟨f⟩ := t
      simp only [Tree.sizes, Tree.size] at h
      rw [if_pos (by omega)]
      refine List.mem_cons_of_mem _ (List.mem_flatMap.2 ⟨f, ih _ _ (by omega) (by omega), List.mem_map.2 ⟨g, ih _ _ (by omega) (by omega), rfl⟩⟩)

mutual
/-- The elementary weights in rational numbers. -/
def stageQ (a : Fin 6 → Fin 6 → ℚ) : Tree → Fin 6 → ℚ
  | .node ts => stagesQ a ts
@[inherit_doc stageQ]
def stagesQ (a : Fin 6 → Fin 6 → ℚ) : List Tree → Fin 6 → ℚ
  | [], _ => 1
  | t :: ts, i => (a i 0 * stageQ a t 0 + a i 1 * stageQ a t 1 + a i 2 * stageQ a t 2 + a i 3 * stageQ a t 3 + a i 4 * stageQ a t 4 + a i 5 * stageQ a t 5) * stagesQ a ts i
end

def fehlbergAQ : Fin 6 → Fin 6 → ℚ :=
  ![![0, 0, 0, 0, 0, 0],
    ![2 / 9, 0, 0, 0, 0, 0],
    ![1 / 12, 1 / 4, 0, 0, 0, 0],
    ![69 / 128, -243 / 128, 135 / 64, 0, 0, 0],
    ![-17 / 12, 27 / 4, -27 / 5, 16 / 15, 0, 0],
    ![65 / 432, -5 / 16, 13 / 16, 4 / 27, 5 / 144, 0]]

def fehlberg5Q : Fin 6 → ℚ := ![47 / 450, 0, 12 / 25, 32 / 225, 1 / 30, 6 / 25]
def fehlberg4Q : Fin 6 → ℚ := ![1 / 9, 0, 9 / 20, 16 / 45, 1 / 12, 0]

theorem cast_A (i j : Fin 6) : ((fehlbergAQ i j : ℚ) : ℝ) = fehlbergA i j := by
  fin_cases i <;> fin_cases j <;> norm_num [fehlbergAQ, fehlbergA]
theorem cast_5 (i : Fin 6) : ((fehlberg5Q i : ℚ) : ℝ) = fehlberg5 i := by
  fin_cases i <;> norm_num [fehlberg5Q, fehlberg5]
theorem cast_4 (i : Fin 6) : ((fehlberg4Q i : ℚ) : ℝ) = fehlberg4 i := by
  fin_cases i <;> norm_num [fehlberg4Q, fehlberg4]

mutual
theorem cast_stage : ∀ (t : Tree) (i : Fin 6), ((stageQ fehlbergAQ t i : ℚ) : ℝ) = t.stage fehlbergA i
  | .node ts, i => cast_stages ts i
theorem cast_stages : ∀ (ts : List Tree) (i : Fin 6), ((stagesQ fehlbergAQ ts i : ℚ) : ℝ) = Tree.stages fehlbergA ts i
  | [], i => by simp [stagesQ, Tree.stages]
  | t :: ts, i => by
    simp only [stagesQ, Tree.stages]
    push_cast
    simp only [cast_stages ts i, cast_stage t, cast_A]
    congr 1
    simp only [Fin.sum_univ_succ]
    simp
    ring
end

/-- The weight of a tree. -/
def weightQ (b : Fin 6 → ℚ) (ts : List Tree) : ℚ :=
  b 0 * stagesQ fehlbergAQ ts 0 + b 1 * stagesQ fehlbergAQ ts 1 + b 2 * stagesQ fehlbergAQ ts 2 + b 3 * stagesQ fehlbergAQ ts 3 + b 4 * stagesQ fehlbergAQ ts 4 + b 5 * stagesQ fehlbergAQ ts 5

theorem weightQ_5 : ∀ ts ∈ forestsLe 4 4, weightQ fehlberg5Q ts * (Tree.density (.node ts) : ℚ) = 1 := by decide +kernel
theorem weightQ_4 : ∀ ts ∈ forestsLe 3 3, weightQ fehlberg4Q ts * (Tree.density (.node ts) : ℚ) = 1 := by decide +kernel

theorem order_of_weightQ (b : Fin 6 → ℝ) (bQ : Fin 6 → ℚ) (hb : ∀ i, ((bQ i : ℚ) : ℝ) = b i) (n : Nat)
    (h : ∀ ts ∈ forestsLe n n, weightQ bQ ts * (Tree.density (.node ts) : ℚ) = 1) : OrderConditions fehlbergA b (n + 1) := by
  rintro ⟨ts⟩ hs
  have h1 := h ts (mem_forestsLe n n ts (by simp [Tree.size] at hs; omega) (le_refl n))
  have h2 : (((weightQ bQ ts * (Tree.density (.node ts) : ℚ) : ℚ)) : ℝ) = 1 := by rw [h1]; simp
  rw [Rat.cast_mul, Rat.cast_natCast] at h2
  have hne : ((Tree.density (.node ts) : ℕ) : ℝ) ≠ 0 := by intro h0; rw [h0, mul_zero] at h2; exact absurd h2 (by norm_num)
  rw [eq_div_iff hne, ← h2]
  congr 1
  unfold weightQ
  push_cast
  simp only [hb, cast_stages, Tree.stage]
  simp only [Fin.sum_univ_succ]
  simp
  ring

/-- **C70.** Every step of every tracer is a step of the pair with Fehlberg's coefficients, for all fields and step lengths; its result satisfies all the conditions of order five, and the result it is compared
with to estimate the error satisfies those of order four (Butcher's conditions, for every rooted tree). -/
theorem C70_order : OrderConditions fehlbergA fehlberg5 5 ∧ OrderConditions fehlbergA fehlberg4 4 ∧
    ∀ (field : Phase → V3) (h : ℝ) (y : Phase),
      ∃ z, EmbeddedStep fehlbergA fehlberg5 fehlberg4 (motion constEM field) h (vec y) (vec (rkAdvance y (rkStages field h y))) z ∧
        rkError h (rkStages field h y) = errorEstimate h (vec (rkAdvance y (rkStages field h y))) z :=
  ⟨order_of_weightQ _ _ cast_5 4 weightQ_5, order_of_weightQ _ _ cast_4 3 weightQ_4, step_fehlberg⟩

/-- The two methods are different and not of higher order: the conditions are not trivial. -/
example : ¬OrderConditions fehlbergA fehlberg4 5 := by
  intro h
  have := h (.node [.node [.node [.node [.node []]]]]) (by simp [Tree.size, Tree.sizes])
  simp only [Tree.stage, Tree.stages, Tree.density, Tree.densities, Tree.size, Tree.sizes, Fin.sum_univ_succ] at this
  simp [fehlberg4, fehlbergA] at this
  norm_num at this

/-! ## Linear systems -/

/-- **C70**, an independent consequence: for every linear system y' = Ly in every vector space, the step is the Taylor polynomial of the exact solution up to and including order five (plus a term of order six), and the other method agrees up to order four. -/
theorem C70_linear {E : Type*} [AddCommGroup E] [Module ℝ E] (L : E →ₗ[ℝ] E) (h : ℝ) (y z z' : E)
    (hs : EmbeddedStep fehlbergA fehlberg5 fehlberg4 L h y z z') :
    z = y + h • L y + (h ^ 2 / 2) • L (L y) + (h ^ 3 / 6) • L (L (L y)) + (h ^ 4 / 24) • L (L (L (L y))) + (h ^ 5 / 120) • L (L (L (L (L y)))) +
      (h ^ 6 / 960) • L (L (L (L (L (L y))))) ∧
    z' = y + h • L y + (h ^ 2 / 2) • L (L y) + (h ^ 3 / 6) • L (L (L y)) + (h ^ 4 / 24) • L (L (L (L y))) + (h ^ 5 / 96) • L (L (L (L (L y)))) := by
  obtain ⟨k, hk, rfl, rfl⟩ := hs
  have k0 := hk 0
  have k1 := hk 1
  have k2 := hk 2
  have k3 := hk 3
  have k4 := hk 4
  have k5 := hk 5
  simp only [fehlbergA, Fin.sum_univ_succ] at k0 k1 k2 k3 k4 k5
  simp at k0 k1 k2 k3 k4 k5
  rw [k0] at k1 k2 k3 k4 k5
  rw [k1] at k2 k3 k4 k5
  rw [k2] at k3 k4 k5
  rw [k3] at k4 k5
  rw [k4] at k5
  simp only [map_add, map_smul] at k1 k2 k3 k4 k5
  constructor
  · simp only [fehlberg5, Fin.sum_univ_succ]
    simp
    rw [k0, k2, k3, k4, k5]
    module
  · simp only [fehlberg4, Fin.sum_univ_succ]
    simp
    rw [k0, k2, k3, k4]
    module

end Traceon
