import Verif.Props.TracerNaN
import Verif.Props.Tracer3

/-!
# C102: electrons at a charge
-/
namespace Traceon
open Spec

theorem loopSub_of_spots {c : EffCharges V3} (h : c.spots = []) (f : V3 → ℝ) : c.loopSub f = 0 := by
  unfold EffCharges.spots at h
  unfold EffCharges.loopSub
  generalize c.charges.zip (c.jacobians.zip c.positions) = l at h ⊢
  suffices ∀ s : ℝ, l.foldl (fun s x => (x.2.1.zip x.2.2).foldl (fun s y => s - x.1 * y.1 * f y.2) s) s = s from this 0
  induction l with
  | nil => intro s; rfl
  | cons x l ih =>
    intro s
    rw [List.flatMap_cons, List.append_eq_nil_iff, List.map_eq_nil_iff] at h
    rw [List.foldl_cons, h.1]
    exact ih h.2 s

theorem field3d_of_spots {c : EffCharges V3} (h : c.spots = []) (p : V3) : field3d p c = 0 := by
  unfold field3d
  rw [loopSub_of_spots h, loopSub_of_spots h, loopSub_of_spots h]
  rfl

open Classical in
theorem field3dN_nums {c : EffCharges V3} {p : V3} (h : p ∉ c.spots) : field3dN p.nums c = (field3d p c).nums := by
  unfold field3dN
  by_cases hs : c.spots = []
  · rw [if_pos hs, field3d_of_spots hs]
  · rw [if_neg hs]
    show (if p ∈ c.spots then nan3 else (field3d p c).nums) = _
    rw [if_neg h]

open Classical in
theorem field3dN_nan {c : EffCharges V3} {p : V3} (h : p ∈ c.spots) : field3dN p.nums c = nan3 := by
  unfold field3dN
  have hs : c.spots ≠ [] := List.ne_nil_of_mem h
  rw [if_neg hs]
  show (if p ∈ c.spots then nan3 else (field3d p c).nums) = _
  rw [if_pos h]

theorem add_nan (v : NV3) : v + nan3 = nan3 := by
  obtain ⟨a, b, c⟩ := v
  cases a <;> cases b <;> cases c <;> rfl

theorem nan_add (v : NV3) : nan3 + v = nan3 := rfl

theorem cross_nan (v : NV3) (k : ℝ) : crossN v (k * nan3) = nan3 := by
  have e : k * nan3 = nan3 := rfl
  rw [e]
  obtain ⟨a, b, c⟩ := v
  cases a <;> cases b <;> cases c <;> rfl

/-- **C102**, the force of the charges of a three dimensional field: a number, namely the one of C44, unless the electron is exactly at one of the point charges; there it is NaN. -/
theorem C102_force (f : Field3DBEM) (p : Phase) :
    (p.pos ∉ f.elec.spots ++ f.mag.spots → force3dN f p.nums = (tracer3dForce f none p).nums) ∧ (p.pos ∈ f.elec.spots ++ f.mag.spots → force3dN f p.nums = nan3) := by
  constructor
  · intro h
    rw [List.mem_append, not_or] at h
    unfold force3dN
    have e1 : field3dN p.nums.pos f.elec = _ := field3dN_nums h.1
    have e2 : field3dN p.nums.pos f.mag = _ := field3dN_nums h.2
    rw [e1, e2, tracer3dForce]
    unfold field3dTraceable
    rw [if_pos (by simp)]
    unfold combineElecMagneticField
    have e3 : (⟨constMu0 * ((field3d p.pos f.mag).x + (0 : V3).x), constMu0 * ((field3d p.pos f.mag).y + (0 : V3).y), constMu0 * ((field3d p.pos f.mag).z + (0 : V3).z)⟩ : V3) = constMu0 * field3d p.pos f.mag := by
      ext <;> simp
    simp only [e3]
    rfl
  · intro h
    unfold force3dN
    rcases List.mem_append.1 h with h | h
    · have e1 : field3dN p.nums.pos f.elec = _ := field3dN_nan h
      rw [e1, nan_add]
    · have e1 : field3dN p.nums.pos f.mag = _ := field3dN_nan h
      rw [e1, cross_nan, add_nan]

/-- **C102**: so rows of numbers of an electron traced in a three dimensional field follow each other by ordinary steps with the force of C44 (use this in `C102_rows_partial`). -/
theorem C102_agrees (f : Field3DBEM) : Agrees (force3dN f) (tracer3dForce f none) := by
  intro p a h
  by_cases hp : p.pos ∈ f.elec.spots ++ f.mag.spots
  · rw [(C102_force f p).2 hp] at h
    cases congrArg NV3.x h
  · rw [(C102_force f p).1 hp] at h
    exact congrArg (fun v : NV3 => (⟨v.x.getD 0, v.y.getD 0, v.z.getD 0⟩ : V3)) h

theorem fold_none (l : List (ℝ × NPhase)) (i : NPhase → Option ℝ) : l.foldl (fun e ck => nadd e (nsmul ck.1 (i ck.2))) none = none := by
  induction l with
  | nil => rfl
  | cons c l ih => rw [List.foldl_cons]; exact ih

theorem fold_nan (l : List (ℝ × NPhase)) : ∀ y : NPhase, (y.pos = nan3 → (l.foldl (fun acc ck => acc + ck.1 * ck.2) y).pos = nan3) ∧ (y.vel = nan3 → (l.foldl (fun acc ck => acc + ck.1 * ck.2) y).vel = nan3) := by
  induction l with
  | nil => intro y; exact ⟨id, id⟩
  | cons c l ih =>
    intro y
    rw [List.foldl_cons]
    refine ⟨fun h => (ih _).1 ?_, fun h => (ih _).2 ?_⟩
    · show y.pos + _ = _
      rw [h]; rfl
    · show y.vel + _ = _
      rw [h]; rfl

/-- One step from a point where the force is not a number. -/
theorem nan_step {field : NPhase → NV3} (y : Phase) (hf : field y.nums = nan3) (h : ℝ) :
    rkErrorN h (rkStagesN field h y.nums) = 0 ∧ rkAdvanceN y.nums (rkStagesN field h y.nums) = ⟨nan3, nan3⟩ := by
  obtain ⟨l, hl⟩ : ∃ l, rkStagesN field h y.nums = produceNewKN field h y.nums :: produceNewKN field h (y.nums + (2 / 9 : ℝ) * produceNewKN field h y.nums) :: l := by
    unfold rkStagesN rkCoefficients
    rw [List.foldl_cons, List.foldl_cons]
    obtain ⟨l, hl⟩ := foldStages_append field h y.nums [[1 / 12, 1 / 4], [69 / 128, -243 / 128, 135 / 64], [-17 / 12, 27 / 4, -27 / 5, 16 / 15], [65 / 432, -5 / 16, 13 / 16, 4 / 27, 5 / 144]]
      (([] ++ [produceNewKN field h (produceNewYN y.nums [] [])]) ++ [produceNewKN field h (produceNewYN y.nums [2 / 9] ([] ++ [produceNewKN field h (produceNewYN y.nums [] [])]))])
    exact ⟨l, by rw [hl]; rfl⟩
  have k0 : (produceNewKN field h y.nums).vel = nan3 := by
    show (h * constEM) * field y.nums = _
    rw [hf]; rfl
  have k1 : (produceNewKN field h (y.nums + (2 / 9 : ℝ) * produceNewKN field h y.nums)).pos = nan3 := by
    show h * (y.nums.vel + (2 / 9 : ℝ) * (produceNewKN field h y.nums).vel) = _
    rw [k0]; rfl
  rw [hl]
  generalize produceNewKN field h (y.nums + (2 / 9 : ℝ) * produceNewKN field h y.nums) = K1 at k1
  generalize produceNewKN field h y.nums = K0 at k0
  obtain ⟨p0, v0⟩ := K0
  obtain ⟨p1, v1⟩ := K1
  simp only at k0 k1
  subst k0 k1
  constructor
  · have hpos : ∀ i : NV3 → Option ℝ, i nan3 = none → (rkCT.zip (⟨p0, nan3⟩ :: ⟨nan3, v1⟩ :: l)).foldl (fun e ck => nadd e (nsmul ck.1 (i ck.2.pos))) (some 0) = none := by
      intro i hi
      rw [show rkCT = -1 / 150 :: 0 :: [3 / 100, -16 / 75, -1 / 20, 6 / 25] from rfl, List.zip_cons_cons, List.zip_cons_cons, List.foldl_cons, List.foldl_cons]
      have : ∀ a : Option ℝ, nadd a (nsmul 0 (i nan3)) = none := by intro a; rw [hi]; cases a <;> rfl
      simp only
      rw [this]
      exact fold_none _ fun k => i k.pos
    have hvel : ∀ i : NV3 → Option ℝ, i nan3 = none → (rkCT.zip (⟨p0, nan3⟩ :: ⟨nan3, v1⟩ :: l)).foldl (fun e ck => nadd e (nsmul ck.1 (i ck.2.vel))) (some 0) = none := by
      intro i hi
      rw [show rkCT = -1 / 150 :: 0 :: [3 / 100, -16 / 75, -1 / 20, 6 / 25] from rfl, List.zip_cons_cons, List.foldl_cons]
      simp only
      rw [hi]
      exact fold_none _ fun k => i k.vel
    unfold rkErrorN rkMaxErrorN
    simp only [List.foldl_cons, List.foldl_nil, hpos NV3.x rfl, hpos NV3.y rfl, hpos NV3.z rfl, hvel NV3.x rfl, hvel NV3.y rfl, hvel NV3.z rfl]
    ring
  · unfold rkAdvanceN
    rw [show rkCH = 47 / 450 :: 0 :: [12 / 25, 32 / 225, 1 / 30, 6 / 25] from rfl, List.zip_cons_cons, List.zip_cons_cons, List.foldl_cons, List.foldl_cons]
    have a := (fold_nan (List.zip [12 / 25, 32 / 225, 1 / 30, 6 / 25] l) ((Phase.nums 0 + (47 / 450 : ℝ) * (⟨p0, nan3⟩ : NPhase)) + (0 : ℝ) * (⟨nan3, v1⟩ : NPhase)))
    have a1 := a.1 (add_nan _)
    have a2 := a.2 (by
      show (V3.nums 0 + (47 / 450 : ℝ) * nan3) + (0 : ℝ) * v1 = nan3
      rfl)
    refine NPhase.ext ?_ ?_
    · show y.nums.pos + _ = _
      simp only at a1 ⊢
      rw [a1, add_nan]
    · show y.nums.vel + _ = _
      simp only at a2 ⊢
      rw [a2, add_nan]

/-- What happens where the force is not a number: the error of the step counts as zero, so the step is accepted. The tracer returns, and the last row is not a number. -/
theorem C102_nan (field : NPhase → NV3) (bounds : Bounds) (atol : ℝ) (ha : 0 ≤ atol) (B fuel : Nat) (hB : 3 ≤ B) (hfuel : 2 ≤ fuel) (x v : V3) (hv : v ≠ 0) (hx : InBox bounds x) (hf : field (Phase.nums ⟨x, v⟩) = nan3) :
    traceParticleN field bounds atol B fuel x v = some [(0, Phase.nums ⟨x, v⟩), (0.01 / V3.norm v, ⟨nan3, nan3⟩)] := by
  obtain ⟨fuel, rfl⟩ : ∃ k, fuel = k + 2 := ⟨fuel - 2, by omega⟩
  have hV : V3.norm v ≠ 0 := (V3.norm_pos hv).ne'
  have hb : inBoundsN bounds (Phase.nums ⟨x, v⟩).pos := (inBounds_nums bounds x).2 hx
  obtain ⟨h1, h2⟩ := nan_step ⟨x, v⟩ hf (tracingStepMax / V3.norm v)
  have hnb : ¬inBoundsN bounds nan3 := by rintro ⟨⟨a, h, -⟩, -⟩; cases h
  have hp : traceParticleCN field bounds atol B (fuel + 2) (0, Phase.nums ⟨x, v⟩) = some [(0, Phase.nums ⟨x, v⟩), (0.01 / V3.norm v, ⟨nan3, nan3⟩)] := by
    unfold traceParticleCN
    rw [show normN (0, Phase.nums ⟨x, v⟩).2.vel = some (V3.norm v) from rfl]
    simp only
    rw [if_neg fun h => hV h.1, traceLoopN, if_pos hb]
    simp only [h1, h2]
    rw [if_pos ha, if_neg (by simp; omega), traceLoopN, if_neg hnb]
    simp [tracingStepMax]
  unfold traceParticleN
  rw [traceBlocksN, hp]
  simp only [Option.bind_eq_bind, Option.bind_some, List.length_nil, lt_irrefl, if_false, List.nil_append]
  rw [if_pos (by simp; omega)]
  rfl

/-- **C102** is false: an electron that starts exactly at a charge. -/
theorem C102_refuted : ∃ (f : Field3DBEM) (bounds : Bounds) (x v : V3) (rows : List NRow) (r : NRow), InBox bounds x ∧ v ≠ 0 ∧ traceParticleN (force3dN f) bounds 1e-10 100000 2 x v = some rows ∧ r ∈ rows ∧ ¬Numbers r.2 := by
  have hv : (⟨0, 0, 1⟩ : V3) ≠ 0 := by simp [V3.ext_iff]
  have hx : InBox ((-1, 1), (-1, 1), (-1, 1)) (⟨0, 0, 0⟩ : V3) := by unfold InBox; norm_num
  refine ⟨pointField, ((-1, 1), (-1, 1), (-1, 1)), ⟨0, 0, 0⟩, ⟨0, 0, 1⟩, _, (0.01 / V3.norm ⟨0, 0, 1⟩, ⟨nan3, nan3⟩), hx, hv, C102_nan _ _ _ (by norm_num) _ _ (by norm_num) le_rfl _ _ hv hx ?_, by simp, ?_⟩
  · refine (C102_force pointField ⟨⟨0, 0, 0⟩, ⟨0, 0, 1⟩⟩).2 ?_
    simp [pointField, EffCharges.spots]
  · rintro ⟨h, -⟩
    cases h

/-! ## Planes -/

/-- **C102**, crossings of a plane: for rows of numbers the result is the one of C49. -/
theorem C102_plane_numbers (positions : List Phase) (p0 n : V3) : planeIntersectionN (positions.map Phase.nums) p0 n = (planeIntersection positions p0 n).map Phase.nums := by
  have key : ∀ (rest : List Phase) (prev : Phase), planeLoopN p0 n prev.nums (rest.map Phase.nums) = (planeLoop p0 n prev rest).map Phase.nums := by
    intro rest
    induction rest with
    | nil => intro prev; rfl
    | cons p rest ih =>
      intro prev
      rw [List.map_cons, planeLoopN, planeLoop]
      have e : ∀ q : Phase, planeKappaN p0 n q.nums.pos = some (planeKappa p0 n q.pos) := fun q => rfl
      simp only [e, Option.some.injEq, exists_eq_left']
      by_cases h : (if planeKappa p0 n p.pos > 0 then (1 : Int) else -1) ≠ (if planeKappa p0 n prev.pos > 0 then 1 else -1)
      · rw [if_pos h, if_pos h]; rfl
      · rw [if_neg h, if_neg h]; exact ih p
  unfold planeIntersectionN planeIntersection
  rw [← List.map_reverse]
  cases positions.reverse with
  | nil => rfl
  | cons last rest =>
    simp only [List.map_cons, List.map_eq_nil_iff]
    by_cases h : rest = []
    · rw [if_pos h, if_pos h]; rfl
    · rw [if_neg h, if_neg h]; exact key rest last

/-- **C102**: the intersection of such a trajectory with a plane in front of the electron, which it never reached, is not reported as missing: the result is NaN. -/
theorem C102_plane_refuted : ∃ (f : Field3DBEM) (bounds : Bounds) (x v : V3) (rows : List NRow), traceParticleN (force3dN f) bounds 1e-10 100000 2 x v = some rows ∧
    (∀ r ∈ rows, ∀ q : Phase, r.2 = q.nums → q.pos.z < 0.5) ∧ planeIntersectionN (rows.map (·.2)) ⟨0, 0, 0.5⟩ ⟨0, 0, 1⟩ = some ⟨nan3, nan3⟩ := by
  have hv : (⟨0, 0, 1⟩ : V3) ≠ 0 := by simp [V3.ext_iff]
  have hx : InBox ((-1, 1), (-1, 1), (-1, 1)) (⟨0, 0, 0⟩ : V3) := by unfold InBox; norm_num
  refine ⟨pointField, ((-1, 1), (-1, 1), (-1, 1)), ⟨0, 0, 0⟩, ⟨0, 0, 1⟩, _, C102_nan _ _ _ (by norm_num) _ _ (by norm_num) le_rfl _ _ hv hx ?_, ?_, ?_⟩
  · refine (C102_force pointField ⟨⟨0, 0, 0⟩, ⟨0, 0, 1⟩⟩).2 ?_
    simp [pointField, EffCharges.spots]
  · intro r hr q hq
    simp only [List.mem_cons, List.not_mem_nil, or_false] at hr
    rcases hr with rfl | rfl
    · have := Phase.nums_inj hq
      rw [← this]
      norm_num
    · cases congrArg (fun p : NPhase => p.pos.x) hq
  · simp only [List.map_cons, List.map_nil, planeIntersectionN, List.reverse_cons, List.reverse_nil, List.nil_append, List.cons_append]
    rw [if_neg (by simp), planeLoopN]
    have e1 : planeKappaN ⟨0, 0, 0.5⟩ ⟨0, 0, 1⟩ nan3 = none := rfl
    have e2 : planeKappaN ⟨0, 0, 0.5⟩ ⟨0, 0, 1⟩ (Phase.nums ⟨⟨0, 0, 0⟩, ⟨0, 0, 1⟩⟩).pos = some 0.5 := by
      show some (planeKappa ⟨0, 0, 0.5⟩ ⟨0, 0, 1⟩ ⟨0, 0, 0⟩) = _
      unfold planeKappa V3.norm V3.dot
      norm_num
    simp only [e1, e2]
    rw [if_pos]
    rw [if_pos (⟨0.5, rfl, by norm_num⟩ : ∃ k, some (0.5 : ℝ) = some k ∧ k > 0), if_neg (by rintro ⟨k, h, -⟩; cases h)]
    decide

/-- A concrete case of `C102_rows_partial`: the rows of the electron that starts at the charge, with the force `tracer3dForce` of C44 for `F`. -/
theorem C102_rows_example : ∃ rows : List NRow, rows.length = 2 ∧ traceParticleN (force3dN pointField) ((-1, 1), (-1, 1), (-1, 1)) 1e-10 100000 2 ⟨0, 0, 0⟩ ⟨0, 0, 1⟩ = some rows ∧ Agrees (force3dN pointField) (tracer3dForce pointField none) := by
  have hv : (⟨0, 0, 1⟩ : V3) ≠ 0 := by simp [V3.ext_iff]
  have hx : InBox ((-1, 1), (-1, 1), (-1, 1)) (⟨0, 0, 0⟩ : V3) := by unfold InBox; norm_num
  refine ⟨_, rfl, C102_nan _ _ _ (by norm_num) _ _ (by norm_num) le_rfl _ _ hv hx ?_, C102_agrees pointField⟩
  refine (C102_force pointField ⟨⟨0, 0, 0⟩, ⟨0, 0, 1⟩⟩).2 ?_
  simp [pointField, EffCharges.spots]

/-- A concrete case of `C102_numbers`: a force that pushes the electron along, given by a Python function that never returns NaN for numbers. -/
theorem C102_numbers_example : ∃ (field : NPhase → NV3) (F : Phase → V3), (∀ p : Phase, field p.nums = (F p).nums) ∧ F ⟨0, 0⟩ ≠ F ⟨⟨1, 0, 0⟩, 0⟩ :=
  ⟨fun p => ⟨p.pos.x, some 1, p.vel.z⟩, fun p => ⟨p.pos.x, 1, p.vel.z⟩, fun _ => rfl, by simp [V3.ext_iff]⟩

end Traceon
