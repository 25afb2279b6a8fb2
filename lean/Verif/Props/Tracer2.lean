import Verif.Props.Tracer
import Mathlib.Analysis.Calculus.Deriv.Prod
import Mathlib.Analysis.Calculus.Deriv.Pow

/-!
# C44: the force; C45: uniform fields; C48: field bounds; C49: planes; C50: velocities
-/
namespace Traceon
open V3 Spec

/-! ## C44 -/

/-- **C44.** The force on a particle traced in a field without bounds is, for every position and velocity, E + μ₀ v × H, with E and H as returned by `electrostatic_field_at_point` and `magnetostatic_field_at_point` (in
radial symmetry H includes the field of the currents), for radial, 3D and axially interpolated fields. -/
theorem C44_force (p : Phase) :
    (∀ f : FieldRadialBEM, ∃ E H, PyObj.electrostaticField p.pos (.radial f) = some E ∧ PyObj.magnetostaticField p.pos (.radial f) = some H ∧
      tracerRadialForce f none p = E + constMu0 * cross p.vel H) ∧
    (∀ f : Field3DBEM, ∃ E H, PyObj.electrostaticField p.pos (.threeD f) = some E ∧ PyObj.magnetostaticField p.pos (.threeD f) = some H ∧
      tracer3dForce f none p = E + constMu0 * cross p.vel H) ∧
    (∀ f : FieldAxial, ∀ F, fieldRadialDerivsTraceable f.zs f.elec f.mag p = some F ↔ ∃ E H, PyObj.electrostaticField p.pos (.axial f) = some E ∧
      PyObj.magnetostaticField p.pos (.axial f) = some H ∧ F = E + constMu0 * cross p.vel H) := by
  refine ⟨fun f => ⟨_, _, rfl, rfl, ?_⟩, fun f => ⟨_, _, rfl, rfl, ?_⟩, fun f F => ?_⟩
  · unfold tracerRadialForce fieldRadialTraceable
    rw [if_pos (by simp)]
    unfold combineElecMagneticField cross
    ext <;> simp <;> ring
  · unfold tracer3dForce field3dTraceable
    rw [if_pos (by simp)]
    unfold combineElecMagneticField cross
    ext <;> simp <;> ring
  · unfold fieldRadialDerivsTraceable
    simp only [PyObj.electrostaticField, PyObj.magnetostaticField]
    cases he : fieldRadialDerivs p.pos f.zs f.elec with
    | none => simp [he]
    | some E =>
      cases hm : fieldRadialDerivs p.pos f.zs f.mag with
      | none => simp [hm]
      | some H =>
        have : combineElecMagneticField p.vel E H 0 = E + constMu0 * cross p.vel H := by
          unfold combineElecMagneticField cross
          ext <;> simp <;> ring
        simp only [he, hm, this, Option.bind_eq_bind, Option.bind_some, Option.some.injEq]
        constructor
        · rintro rfl; exact ⟨E, H, rfl, rfl, rfl⟩
        · rintro ⟨_, _, rfl, rfl, rfl⟩; rfl

/-- **C44.** The magnetic part of the force is perpendicular to the velocity, for all fields: it does no work. -/
theorem C44_no_work (v E Hmag Hcur : V3) :
    dot (combineElecMagneticField v E Hmag Hcur - E) v = 0 ∧ combineElecMagneticField v E Hmag Hcur = E + constMu0 * cross v (Hmag + Hcur) := by
  unfold combineElecMagneticField cross dot
  constructor
  · simp; ring
  · ext <;> simp <;> ring

/-- A field that does turn the velocity. -/
example : combineElecMagneticField ⟨1, 0, 0⟩ 0 ⟨0, 0, 1⟩ ⟨0, 0, 1⟩ = ⟨0, -2 * constMu0, 0⟩ := by
  unfold combineElecMagneticField cross; ext <;> simp <;> ring

/-! ## C45 -/

/-- The exact motion in a uniform force field `F`. -/
noncomputable def Spec.parabola (em : ℝ) (F : V3) (y : Phase) (t : ℝ) : Phase :=
  ⟨y.pos + t * y.vel + (t ^ 2 / 2) * (em * F), y.vel + t * (em * F)⟩

/-- It solves the equation of motion. -/
theorem Spec.parabola_derivative (em : ℝ) (F : V3) (y : Phase) (t : ℝ) :
    HasDerivAt (fun t => vec (parabola em F y t)) (motion em (fun _ => F) (vec (parabola em F y t))) t ∧ parabola em F y 0 = y := by
  constructor
  · have hlin : ∀ a b c : ℝ, HasDerivAt (fun t : ℝ => a + t * b + t ^ 2 / 2 * c) (b + t * c) t := by
      intro a b c
      have h1 : HasDerivAt (fun t : ℝ => t * b) b t := by simpa using (hasDerivAt_id t).mul_const b
      have h2 : HasDerivAt (fun t : ℝ => t ^ 2 / 2 * c) (t * c) t := by
        have := (((hasDerivAt_id t).pow 2).div_const 2).mul_const c
        refine this.congr_deriv ?_
        simp
      exact ((h1.const_add a).add h2)
    have hlin' : ∀ a b : ℝ, HasDerivAt (fun t : ℝ => a + t * b) b t := by
      intro a b
      have h1 : HasDerivAt (fun t : ℝ => t * b) b t := by simpa using (hasDerivAt_id t).mul_const b
      exact h1.const_add a
    rw [hasDerivAt_pi]
    intro i
    fin_cases i
    · simpa [vec, motion, parabola] using hlin y.pos.x y.vel.x (em * F.x)
    · simpa [vec, motion, parabola] using hlin y.pos.y y.vel.y (em * F.y)
    · simpa [vec, motion, parabola] using hlin y.pos.z y.vel.z (em * F.z)
    · simpa [vec, motion, parabola] using hlin' y.vel.x (em * F.x)
    · simpa [vec, motion, parabola] using hlin' y.vel.y (em * F.y)
    · simpa [vec, motion, parabola] using hlin' y.vel.z (em * F.z)
  · unfold parabola
    ext <;> simp

/-- **C45.** One step in a uniform field is exact, whatever its length, and its estimated error is zero. -/
theorem C45_step (F : V3) (h : ℝ) (y : Phase) :
    rkAdvance y (rkStages (fun _ => F) h y) = parabola constEM F y h ∧ rkError h (rkStages (fun _ => F) h y) = 0 := by
  obtain ⟨Y1, Y2, Y3, Y4, Y5, Y6, K1, K2, K3, K4, K5, K6, hks, y1, k1, y2, k2, y3, k3, y4, k4, y5, k5, y6, k6⟩ := rkStages_eq (fun _ => F) h y
  rw [hks]
  unfold produceNewK at k1 k2 k3 k4 k5 k6
  subst y1
  subst k1
  subst y2
  subst k2
  subst y3
  subst k3
  subst y4
  subst k4
  subst y5
  subst k5
  subst y6
  subst k6
  constructor
  · unfold rkAdvance rkCH parabola
    ext <;> simp <;> ring
  · unfold rkError
    rw [maxError_eq, maxError_eq]
    simp only [Phase.add_vel, Phase.smul_vel, V3.add_x, V3.add_y, V3.add_z, V3.smul_x, V3.smul_y, V3.smul_z]
    have e0 : ∀ a b c d e f : ℝ, a + b + c + d + e + f = 0 → |a + b + c + d + e + f| = 0 := by intro a b c d e f h0; rw [h0, abs_zero]
    rw [e0, e0, e0, e0, e0, e0]
    · simp
    all_goals ring

/-- An accepted step in a uniform field ends on the parabola. -/
theorem accepted_uniform (F : V3) (atol h : ℝ) (y y' : Phase) (ha : Accepted constEM (fun _ => F) atol h y y') : y' = parabola constEM F y h := by
  obtain ⟨z, ⟨k, hk, hz, _⟩, _⟩ := ha
  have hv : ∀ i, (k i) 3 = constEM * F.x ∧ (k i) 4 = constEM * F.y ∧ (k i) 5 = constEM * F.z := by
    intro i; rw [hk i]; simp [motion]
  have hp : ∀ i, (k i) 0 = y.vel.x + h * ∑ j, fehlbergA i j * (constEM * F.x) ∧ (k i) 1 = y.vel.y + h * ∑ j, fehlbergA i j * (constEM * F.y) ∧
      (k i) 2 = y.vel.z + h * ∑ j, fehlbergA i j * (constEM * F.z) := by
    intro i
    refine ⟨?_, ?_, ?_⟩
    · rw [hk i]; simp [motion, vec, (hv _).1]
    · rw [hk i]; simp [motion, vec, (hv _).2.1]
    · rw [hk i]; simp [motion, vec, (hv _).2.2]
  have hz' : ∀ c, vec y' c = vec y c + h * ∑ i, fehlberg5 i * k i c := by
    intro c; rw [hz]; simp
  have e0 := hz' 0
  have e1 := hz' 1
  have e2 := hz' 2
  have e3 := hz' 3
  have e4 := hz' 4
  have e5 := hz' 5
  simp only [(hp _).1, (hp _).2.1, (hp _).2.2, (hv _).1, (hv _).2.1, (hv _).2.2, fehlbergA, fehlberg5, Fin.sum_univ_succ] at e0 e1 e2 e3 e4 e5
  simp [vec] at e0 e1 e2 e3 e4 e5
  unfold parabola
  ext
  · rw [e0]; simp; ring
  · rw [e1]; simp; ring
  · rw [e2]; simp; ring
  · rw [e3]; simp only [V3.add_x, V3.smul_x]; ring
  · rw [e4]; simp only [V3.add_y, V3.smul_y]; ring
  · rw [e5]; simp only [V3.add_z, V3.smul_z]; ring

theorem parabola_add (em : ℝ) (F : V3) (y : Phase) (s t : ℝ) : parabola em F (parabola em F y s) t = parabola em F y (s + t) := by
  unfold parabola; ext <;> simp <;> ring

/-- **C45.** Every row of every trajectory traced in a uniform field (in particular without a field) lies exactly on the parabola, at its time. -/
theorem C45_trajectory (F : V3) (bounds : Bounds) (atol : ℝ) (ha : 0 < atol) (B : Nat) (hB : 2 ≤ B) (fuel : Nat) (x v : V3) (rows : List Row)
    (h : traceParticle (fun _ => F) bounds atol B fuel x v = some rows) : ∀ row ∈ rows, row.2 = parabola constEM F ⟨x, v⟩ row.1 := by
  have ht := C46_trajectory _ bounds atol ha B hB fuel x v rows h
  have key : ∀ (i : ℕ) (a : Row), rows[i]? = some a → a.2 = parabola constEM F ⟨x, v⟩ a.1 := by
    intro i
    induction i with
    | zero =>
      intro a h0
      rw [ht.first] at h0
      obtain rfl := Option.some.inj h0
      exact (parabola_derivative constEM F ⟨x, v⟩ 0).2.symm
    | succ i ih =>
      intro b hb
      have hlt : i + 1 < rows.length := by
        by_contra hc
        rw [List.getElem?_eq_none (by omega)] at hb; cases hb
      have hlt2 : i / (B - 1) * (B - 1) < rows.length := lt_of_le_of_lt (Nat.div_mul_le_self i (B - 1)) (by omega)
      obtain ⟨_, _, hacc⟩ := ht.step i rows[i] b rows[i / (B - 1) * (B - 1)] (by simp) hb (by simp)
      have := accepted_uniform F atol _ _ _ hacc
      rw [ih rows[i] (by simp), parabola_add] at this
      rw [this]
      congr 1; ring
  intro row hr
  obtain ⟨i, hi⟩ := List.getElem?_of_mem hr
  exact key i row hi

/-! ### Without field: the tracer returns -/

/-- The rows of a straight trajectory. -/
noncomputable def straightRow (h t : ℝ) (y : Phase) (i : Nat) : Row := (t + i * h, ⟨y.pos + ((i : ℝ) * h) * y.vel, y.vel⟩)

theorem loop_free (bounds : Bounds) (atol : ℝ) (ha : 0 ≤ atol) (h : ℝ) (B : Nat) (n : Nat) :
    ∀ (fuel : Nat) (rows : List Row) (t : ℝ) (y : Phase), n < fuel → rows.length < B →
    (∀ i < n, InBox bounds (straightRow h t y i).2.pos) → ¬InBox bounds (straightRow h t y n).2.pos →
    traceLoop (fun _ => 0) bounds atol h B fuel rows t y h = some (rows ++ (List.range (min n (B - rows.length))).map (fun i => straightRow h t y (i + 1))) := by
  induction n with
  | zero =>
    intro fuel rows t y hf hl _ hout
    obtain ⟨f, rfl⟩ : ∃ f, fuel = f + 1 := ⟨fuel - 1, by omega⟩
    have : ¬inBoundsC bounds y.pos := by
      intro hb; apply hout
      have : (straightRow h t y 0).2.pos = y.pos := by unfold straightRow; ext <;> simp
      rw [this]; exact hb
    rw [traceLoop, if_neg this]
    simp
  | succ n ih =>
    intro fuel rows t y hf hl hin hout
    obtain ⟨f, rfl⟩ : ∃ f, fuel = f + 1 := ⟨fuel - 1, by omega⟩
    have hy : inBoundsC bounds y.pos := by
      have h0 := hin 0 (by omega)
      have : (straightRow h t y 0).2.pos = y.pos := by unfold straightRow; ext <;> simp
      rw [this] at h0; exact h0
    obtain ⟨hadv, herr⟩ := C45_step 0 h y
    have hrow : (t + h, rkAdvance y (rkStages (fun _ => 0) h y)) = straightRow h t y 1 := by
      rw [hadv]; unfold straightRow parabola
      refine Prod.ext (by simp) (Phase.ext ?_ ?_) <;> ext <;> simp
    have hshift : ∀ i, straightRow h (t + h) (rkAdvance y (rkStages (fun _ => 0) h y)) i = straightRow h t y (i + 1) := by
      intro i
      rw [hadv]; unfold straightRow parabola
      refine Prod.ext ?_ (Phase.ext ?_ ?_)
      · simp; ring
      · ext <;> simp <;> ring
      · ext <;> simp
    rw [traceLoop, if_pos hy]
    simp only
    rw [if_pos (by rw [herr]; exact ha)]
    have hnew : rkNewStep atol (rkError h (rkStages (fun _ => 0) h y)) h h = h := by rw [herr]; simp [rkNewStep]
    rw [hnew]
    have hlen : (rows ++ [(t + h, rkAdvance y (rkStages (fun _ => 0) h y))]).length = rows.length + 1 := by simp
    by_cases hB : rows.length + 1 = B
    · rw [if_pos (by rw [hlen]; exact hB), hrow]
      have : min (n + 1) (B - rows.length) = 1 := by omega
      rw [this]; simp
    · rw [if_neg (by rw [hlen]; exact hB)]
      rw [ih f _ _ _ (by omega) (by rw [hlen]; omega) (fun i hi => by rw [hshift]; exact hin (i + 1) (by omega)) (by rw [hshift]; exact hout)]
      have : min (n + 1) (B - rows.length) = min n (B - (rows.length + 1)) + 1 := by omega
      rw [this, hlen, hrow, List.range_succ_eq_map]
      simp [hshift, List.map_map, Function.comp_def]

theorem glued_free (bounds : Bounds) (atol : ℝ) (ha : 0 ≤ atol) (B : Nat) (hB : 2 ≤ B) (v : V3) (hv : v ≠ 0) (n : Nat) :
    ∀ (fuel : Nat) (t : ℝ) (x : V3), n < fuel →
    (∀ i < n, InBox bounds (straightRow (tracingStepMax / V3.norm v) t ⟨x, v⟩ i).2.pos) → ¬InBox bounds (straightRow (tracingStepMax / V3.norm v) t ⟨x, v⟩ n).2.pos →
    Glued (traceParticleC (fun _ => 0) bounds atol B fuel) B (t, ⟨x, v⟩) ((List.range n).map (fun i => straightRow (tracingStepMax / V3.norm v) t ⟨x, v⟩ (i + 1))) := by
  induction n using Nat.strong_induction_on with
  | _ n ih =>
    intro fuel t x hf hin hout
    have hV : V3.norm v ≠ 0 := (V3.norm_pos hv).ne'
    have hfill : traceParticleC (fun _ => 0) bounds atol B fuel (t, ⟨x, v⟩) =
        some ((t, ⟨x, v⟩) :: (List.range (min n (B - 1))).map (fun i => straightRow (tracingStepMax / V3.norm v) t ⟨x, v⟩ (i + 1))) := by
      unfold traceParticleC
      simp only
      rw [if_neg (by simp [hV]), loop_free bounds atol ha _ B n fuel _ t ⟨x, v⟩ hf (by simp; omega) hin hout]
      simp
    by_cases hn : n < B - 1
    · rw [min_eq_left hn.le] at hfill
      exact .last _ _ hfill (by simp; omega)
    · push Not at hn
      rw [min_eq_right hn] at hfill
      obtain ⟨b, hb⟩ : ∃ b, B - 1 = b + 1 := ⟨B - 2, by omega⟩
      rw [hb, List.range_succ, List.map_append] at hfill
      have hshift : ∀ i, straightRow (tracingStepMax / V3.norm v) (straightRow (tracingStepMax / V3.norm v) t ⟨x, v⟩ (b + 1)).1
          ⟨(straightRow (tracingStepMax / V3.norm v) t ⟨x, v⟩ (b + 1)).2.pos, v⟩ i = straightRow (tracingStepMax / V3.norm v) t ⟨x, v⟩ (i + (b + 1)) := by
        intro i
        unfold straightRow
        refine Prod.ext ?_ (Phase.ext ?_ ?_)
        · simp; ring
        · ext <;> simp <;> ring
        · rfl
      have g := ih (n - (b + 1)) (by omega) fuel (straightRow (tracingStepMax / V3.norm v) t ⟨x, v⟩ (b + 1)).1 (straightRow (tracingStepMax / V3.norm v) t ⟨x, v⟩ (b + 1)).2.pos
        (by omega) (fun i hi => by rw [hshift]; exact hin _ (by omega)) (by rw [hshift, Nat.sub_add_cancel (by omega)]; exact hout)
      have hm := Glued.more _ _ _ _ hfill (by simp; omega) g
      have e : (List.range n).map (fun i => straightRow (tracingStepMax / V3.norm v) t ⟨x, v⟩ (i + 1)) =
          (List.range b).map (fun i => straightRow (tracingStepMax / V3.norm v) t ⟨x, v⟩ (i + 1)) ++ [straightRow (tracingStepMax / V3.norm v) t ⟨x, v⟩ (b + 1)] ++
          (List.range (n - (b + 1))).map (fun i => straightRow (tracingStepMax / V3.norm v) (straightRow (tracingStepMax / V3.norm v) t ⟨x, v⟩ (b + 1)).1
            ⟨(straightRow (tracingStepMax / V3.norm v) t ⟨x, v⟩ (b + 1)).2.pos, v⟩ (i + 1)) := by
        have hn' : n = b + 1 + (n - (b + 1)) := by omega
        conv_lhs => rw [hn', List.range_add, List.map_append, List.range_succ, List.map_append]
        simp only [hshift, List.map_map, Function.comp_def, List.map_cons, List.map_nil]
        congr 1
        apply List.map_congr_left
        intro i _
        congr 1; omega
      rw [e]
      exact hm

/-- Enough fuel for the blocks. -/
theorem traceBlocks_fuel {fill : Row → Option (List Row)} {B : Nat} {s : Row} {l : List Row} (g : Glued fill B s l) :
    ∀ (acc : List (List Row)) (fuel : Nat), l.length < fuel → ∃ res, traceBlocks fill B fuel acc s = some res := by
  induction g with
  | last s l h hN =>
    intro acc fuel hf
    obtain ⟨f, rfl⟩ : ∃ f, fuel = f + 1 := ⟨fuel - 1, by omega⟩
    refine ⟨acc ++ [if acc.length > 0 then (s :: l).drop 1 else s :: l], ?_⟩
    rw [traceBlocks, h]
    simp only [Option.bind_eq_bind, Option.bind_some]
    rw [if_pos (by simpa using hN)]
  | more s l m l' h hN _ ih =>
    intro acc fuel hf
    obtain ⟨f, rfl⟩ : ∃ f, fuel = f + 1 := ⟨fuel - 1, by omega⟩
    obtain ⟨res, hr⟩ := ih (acc ++ [if acc.length > 0 then (s :: (l ++ [m])).drop 1 else s :: (l ++ [m])]) f (by simp at hf; omega)
    refine ⟨res, ?_⟩
    rw [traceBlocks, h]
    simp only [Option.bind_eq_bind, Option.bind_some]
    rw [if_neg (by simp; omega)]
    have : (if acc.length > 0 then (s :: (l ++ [m])).drop 1 else s :: (l ++ [m])).getLast? = some m := by
      split_ifs <;> simp [List.getLast?_cons]
    rw [this]
    exact hr

/-- The chain of blocks is unique. -/
theorem Glued.unique {fill : Row → Option (List Row)} {B : Nat} {s : Row} {l l' : List Row} (g : Glued fill B s l) (g' : Glued fill B s l') : l = l' := by
  induction g generalizing l' with
  | last s l h hN =>
    cases g' with
    | last _ _ h' _ => rw [h] at h'; simpa using h'
    | more _ l1 m1 l1' h' hN' _ =>
      rw [h] at h'
      have : l = l1 ++ [m1] := by simpa using h'
      subst this
      simp at hN; omega
  | more s l m l0 h hN _ ih =>
    cases g' with
    | last _ _ h' hN' =>
      rw [h] at h'
      have : l ++ [m] = l' := by simpa using h'
      subst this
      simp at hN'; omega
    | more _ l1 m1 l1' h' hN' g1 =>
      rw [h] at h'
      have h2 : l ++ [m] = l1 ++ [m1] := by simpa using h'
      obtain ⟨rfl, h3⟩ := List.append_inj' h2 rfl
      have h4 : m = m1 := by simpa using h3
      subst h4
      rw [ih g1]

/-- **C45**, and a case in which the tracer is known to return: without field a moving particle is traced until it leaves the bounds, for all bounds and block sizes. The rows are the points of a straight line, one step of
0.01 m after the other, from the start to the first point outside (number `n`). -/
theorem C45_free (bounds : Bounds) (atol : ℝ) (ha : 0 ≤ atol) (B : Nat) (hB : 2 ≤ B) (x v : V3) (hv : v ≠ 0) (n : Nat)
    (hin : ∀ i < n, InBox bounds (x + ((i : ℝ) * (0.01 / V3.norm v)) * v)) (hout : ¬InBox bounds (x + ((n : ℝ) * (0.01 / V3.norm v)) * v)) (fuel : Nat) (hf : n < fuel) :
    traceParticle (fun _ => 0) bounds atol B fuel x v =
      some ((List.range (n + 1)).map (fun i : ℕ => ((i : ℝ) * (0.01 / V3.norm v), ⟨x + ((i : ℝ) * (0.01 / V3.norm v)) * v, v⟩))) := by
  have g := glued_free bounds atol ha B hB v hv n fuel 0 x hf hin hout
  obtain ⟨res, hr⟩ := traceBlocks_fuel g [] fuel (by simpa using hf)
  obtain ⟨l', g', e⟩ := traceBlocks_spec hB (fun s rows hs => by
    unfold traceParticleC at hs
    simp only at hs
    split_ifs at hs
    have : ∀ (fuel : Nat) (rows : List Row) (t : ℝ) (y : Phase) (h hm : ℝ) (out : List Row), traceLoop (fun _ => 0) bounds atol hm B fuel rows t y h = some out → ∃ l, out = rows ++ l := by
      intro fuel
      induction fuel with
      | zero => intro rows t y h hm out ho; simp [traceLoop] at ho
      | succ f ih =>
        intro rows t y h hm out ho
        rw [traceLoop] at ho
        split_ifs at ho
        · simp only at ho
          split_ifs at ho
          · exact ⟨_, (Option.some.inj ho).symm⟩
          · obtain ⟨l, hl⟩ := ih _ _ _ _ _ _ ho
            exact ⟨[(t + h, rkAdvance y (rkStages (fun _ => 0) h y))] ++ l, by rw [hl]; simp⟩
          · exact ih _ _ _ _ _ _ ho
        · exact ⟨[], by simpa using (Option.some.inj ho).symm⟩
    obtain ⟨l, hl⟩ := this _ _ _ _ _ _ _ hs
    exact ⟨l, hl⟩) fuel [] _ _ hr
  unfold traceParticle
  rw [traceWrapper_eq, hr, Option.map_some, e, ← Glued.unique g g']
  rw [List.range_succ_eq_map]
  simp only [List.flatten_nil, List.nil_append, List.length_nil, gt_iff_lt, lt_self_iff_false, if_false, List.map_cons, List.map_map, Function.comp_def]
  congr 2
  · refine Prod.ext (by simp) (Phase.ext ?_ rfl); ext <;> simp
  · apply List.map_congr_left
    intro i _
    unfold straightRow
    refine Prod.ext ?_ (Phase.ext ?_ rfl)
    · simp [tracingStepMax]
    · ext <;> simp [tracingStepMax]

/-- A particle that crosses a cube: three points inside, the fourth outside. -/
example : ∃ n : Nat, (∀ i < n, InBox ((-1, 1), (-1, 1), (0, 0.025)) ((⟨0, 0, 0⟩ : V3) + ((i : ℝ) * (0.01 / V3.norm ⟨0, 0, 2⟩)) * (⟨0, 0, 2⟩ : V3))) ∧
    ¬InBox ((-1, 1), (-1, 1), (0, 0.025)) ((⟨0, 0, 0⟩ : V3) + ((n : ℝ) * (0.01 / V3.norm ⟨0, 0, 2⟩)) * (⟨0, 0, 2⟩ : V3)) := by
  have hn : V3.norm ⟨0, 0, 2⟩ = 2 := by
    unfold V3.norm dot
    rw [show (0 * 0 + 0 * 0 + 2 * 2 : ℝ) = 2 ^ 2 by norm_num]
    exact Real.sqrt_sq (by norm_num)
  refine ⟨3, ?_, ?_⟩
  · intro i hi
    rw [hn]
    have : (i : ℝ) ≤ 2 := by exact_mod_cast (by omega : i ≤ 2)
    have h0 : (0 : ℝ) ≤ i := by positivity
    refine ⟨?_, ?_, ?_⟩ <;> simp <;> constructor <;> nlinarith
  · rw [hn]
    rintro ⟨_, _, h⟩
    simp at h
    norm_num at h

end Traceon
