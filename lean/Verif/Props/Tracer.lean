import Verif.Spec.Tracer
import Mathlib.Tactic.FinCases

/-!
# C46: the trace loop; C47: gluing blocks
-/
namespace Traceon
open V3 Spec

/-! ## One step is a step of Fehlberg's method -/

theorem rkStages_eq (field : Phase → V3) (h : ℝ) (y : Phase) : ∃ Y1 Y2 Y3 Y4 Y5 Y6 K1 K2 K3 K4 K5 K6 : Phase,
    rkStages field h y = [K1, K2, K3, K4, K5, K6] ∧
    Y1 = y ∧ K1 = produceNewK field h Y1 ∧
    Y2 = y + (2 / 9 : ℝ) * K1 ∧ K2 = produceNewK field h Y2 ∧
    Y3 = y + (1 / 12 : ℝ) * K1 + (1 / 4 : ℝ) * K2 ∧ K3 = produceNewK field h Y3 ∧
    Y4 = y + (69 / 128 : ℝ) * K1 + (-243 / 128 : ℝ) * K2 + (135 / 64 : ℝ) * K3 ∧ K4 = produceNewK field h Y4 ∧
    Y5 = y + (-17 / 12 : ℝ) * K1 + (27 / 4 : ℝ) * K2 + (-27 / 5 : ℝ) * K3 + (16 / 15 : ℝ) * K4 ∧ K5 = produceNewK field h Y5 ∧
    Y6 = y + (65 / 432 : ℝ) * K1 + (-5 / 16 : ℝ) * K2 + (13 / 16 : ℝ) * K3 + (4 / 27 : ℝ) * K4 + (5 / 144 : ℝ) * K5 ∧ K6 = produceNewK field h Y6 :=
  ⟨_, _, _, _, _, _, _, _, _, _, _, _, rfl, rfl, rfl, rfl, rfl, rfl, rfl, rfl, rfl, rfl, rfl, rfl, rfl⟩

theorem vec_add (a b : Phase) : vec (a + b) = vec a + vec b := by
  funext i; fin_cases i <;> simp [vec]

theorem vec_smul (k : ℝ) (a : Phase) : vec (k * a) = k • vec a := by
  funext i; fin_cases i <;> simp [vec]

theorem vec_zero : vec 0 = 0 := by
  funext i; fin_cases i <;> simp [vec]

theorem vec_produceNewK (field : Phase → V3) (h : ℝ) (y : Phase) : vec (produceNewK field h y) = h • motion constEM field (vec y) := by
  funext i; fin_cases i <;> simp [vec, produceNewK, motion] <;> ring

theorem ite_gt_max (a m : ℝ) : (if |a| > m then |a| else m) = max m |a| := by
  split_ifs with h
  · exact (max_eq_right (le_of_lt h)).symm
  · exact (max_eq_left (not_lt.1 h)).symm

theorem maxError_eq (K1 K2 K3 K4 K5 K6 : Phase) (f1 f2 f3 : Phase → ℝ) :
    rkMaxError [K1, K2, K3, K4, K5, K6] [f1, f2, f3] =
      max |-1 / 150 * f1 K1 + 0 * f1 K2 + 3 / 100 * f1 K3 + -16 / 75 * f1 K4 + -1 / 20 * f1 K5 + 6 / 25 * f1 K6|
        (max |-1 / 150 * f2 K1 + 0 * f2 K2 + 3 / 100 * f2 K3 + -16 / 75 * f2 K4 + -1 / 20 * f2 K5 + 6 / 25 * f2 K6|
          |-1 / 150 * f3 K1 + 0 * f3 K2 + 3 / 100 * f3 K3 + -16 / 75 * f3 K4 + -1 / 20 * f3 K5 + 6 / 25 * f3 K6|) := by
  unfold rkMaxError rkCT
  simp only [List.zip_cons_cons, List.zip_nil_left, List.foldl_cons, List.foldl_nil, ite_gt_max, zero_add]
  simp only [max_assoc]
  exact max_eq_right (le_max_of_le_left (abs_nonneg _))

/-- The step, its two results and its error. -/
theorem step_fehlberg (field : Phase → V3) (h : ℝ) (y : Phase) :
    ∃ z, EmbeddedStep fehlbergA fehlberg5 fehlberg4 (motion constEM field) h (vec y) (vec (rkAdvance y (rkStages field h y))) z ∧
      rkError h (rkStages field h y) = errorEstimate h (vec (rkAdvance y (rkStages field h y))) z := by
  obtain ⟨Y1, Y2, Y3, Y4, Y5, Y6, K1, K2, K3, K4, K5, K6, hks, y1, k1, y2, k2, y3, k3, y4, k4, y5, k5, y6, k6⟩ := rkStages_eq field h y
  rw [hks]
  have v1 := k1 ▸ vec_produceNewK field h Y1
  have v2 := k2 ▸ vec_produceNewK field h Y2
  have v3 := k3 ▸ vec_produceNewK field h Y3
  have v4 := k4 ▸ vec_produceNewK field h Y4
  have v5 := k5 ▸ vec_produceNewK field h Y5
  have v6 := k6 ▸ vec_produceNewK field h Y6
  have hadv : vec (rkAdvance y [K1, K2, K3, K4, K5, K6]) =
      vec y + h • ∑ i, fehlberg5 i • (![motion constEM field (vec Y1), motion constEM field (vec Y2), motion constEM field (vec Y3),
        motion constEM field (vec Y4), motion constEM field (vec Y5), motion constEM field (vec Y6)] : Fin 6 → Fin 6 → ℝ) i := by
    simp only [rkAdvance, rkCH, List.zip_cons_cons, List.zip_nil_left, List.foldl_cons, List.foldl_nil, vec_add, vec_smul, vec_zero, v1, v2, v3, v4, v5, v6]
    simp only [Fin.sum_univ_succ, fehlberg5]
    simp
    module
  refine ⟨vec y + h • ∑ i, fehlberg4 i • (![motion constEM field (vec Y1), motion constEM field (vec Y2), motion constEM field (vec Y3),
        motion constEM field (vec Y4), motion constEM field (vec Y5), motion constEM field (vec Y6)] : Fin 6 → Fin 6 → ℝ) i, ⟨_, ?_, hadv, rfl⟩, ?_⟩
  · have e1 : vec Y1 = vec y := by rw [y1]
    have e2 := congrArg vec y2
    have e3 := congrArg vec y3
    have e4 := congrArg vec y4
    have e5 := congrArg vec y5
    have e6 := congrArg vec y6
    simp only [vec_add, vec_smul, v1, v2, v3, v4, v5] at e2 e3 e4 e5 e6
    intro i
    fin_cases i
    · simp only [fehlbergA, Fin.sum_univ_succ]
      simp [e1]
    · simp only [fehlbergA, Fin.sum_univ_succ]
      simp
      congr 1
      rw [e2]
      module
    · simp only [fehlbergA, Fin.sum_univ_succ]
      simp
      congr 1
      rw [e3]
      module
    · simp only [fehlbergA, Fin.sum_univ_succ]
      simp
      congr 1
      rw [e4]
      module
    · simp only [fehlbergA, Fin.sum_univ_succ]
      simp
      congr 1
      rw [e5]
      module
    · simp only [fehlbergA, Fin.sum_univ_succ]
      simp
      congr 1
      rw [e6]
      module
  · have hd : ∀ i, vec (rkAdvance y [K1, K2, K3, K4, K5, K6]) i - (vec y + h • ∑ i, fehlberg4 i • (![motion constEM field (vec Y1), motion constEM field (vec Y2), motion constEM field (vec Y3),
        motion constEM field (vec Y4), motion constEM field (vec Y5), motion constEM field (vec Y6)] : Fin 6 → Fin 6 → ℝ) i) i =
        -1 / 150 * vec K1 i + 0 * vec K2 i + 3 / 100 * vec K3 i + -16 / 75 * vec K4 i + -1 / 20 * vec K5 i + 6 / 25 * vec K6 i := by
      intro i
      rw [hadv, v1, v2, v3, v4, v5, v6]
      simp only [Fin.sum_univ_succ, fehlberg5, fehlberg4]
      simp
      ring
    unfold errorEstimate rkError
    rw [maxError_eq, maxError_eq]
    simp only [hd]
    simp [vec]

/-- An accepted step of the loop. -/
theorem accepted_step (field : Phase → V3) (atol h : ℝ) (y : Phase) (he : rkError h (rkStages field h y) ≤ atol) :
    Accepted constEM field atol h y (rkAdvance y (rkStages field h y)) := by
  obtain ⟨z, h1, h2⟩ := step_fehlberg field h y
  exact ⟨z, h1, h2 ▸ he⟩

/-! ## The loop of one block -/

/-- Two consecutive rows of a block whose first row has a velocity of length `V`. -/
def StepRel (field : Phase → V3) (atol hmax : ℝ) (a b : Row) : Prop :=
  ∃ h, 0 < h ∧ h ≤ hmax ∧ b.1 = a.1 + h ∧ Accepted constEM field atol h a.2 b.2

theorem inBoundsC_iff (b : Bounds) (p : V3) : inBoundsC b p ↔ InBox b p := Iff.rfl

theorem rkNewStep_pos {atol error h hmax : ℝ} (ha : 0 < atol) (he : 0 ≤ error) (hh : 0 < h) (hm : 0 < hmax) :
    0 < rkNewStep atol error h hmax ∧ rkNewStep atol error h hmax ≤ hmax := by
  unfold rkNewStep
  split_ifs with hc
  · exact ⟨hm, le_refl _⟩
  · push Not at hc
    have he' : 0 < error := lt_of_le_of_ne he (Ne.symm hc.1)
    refine ⟨lt_min ?_ hm, min_le_right _ _⟩
    have : 0 < (atol / error) ^ (0.2 : ℝ) := Real.rpow_pos_of_pos (div_pos ha he') _
    positivity

theorem rkMaxError_nonneg (ks : List Phase) (comps : List (Phase → ℝ)) : 0 ≤ rkMaxError ks comps := by
  unfold rkMaxError
  have : ∀ (m : ℝ), 0 ≤ m → 0 ≤ comps.foldl (fun m i =>
      let err := (rkCT.zip ks).foldl (fun e ck => e + ck.1 * i ck.2) 0
      if |err| > m then |err| else m) m := by
    induction comps with
    | nil => intro m hm; exact hm
    | cons c cs ih =>
      intro m hm
      rw [List.foldl_cons]
      apply ih
      simp only
      split_ifs
      · exact abs_nonneg _
      · exact hm
  exact this 0 (le_refl 0)

theorem rkError_nonneg {h : ℝ} (hh : 0 < h) (ks : List Phase) : 0 ≤ rkError h ks := by
  unfold rkError
  have := rkMaxError_nonneg ks [fun k => k.pos.x, fun k => k.pos.y, fun k => k.pos.z]
  have := rkMaxError_nonneg ks [fun k => k.vel.x, fun k => k.vel.y, fun k => k.vel.z]
  positivity

/-- The rows added by the loop. -/
theorem traceLoop_spec (field : Phase → V3) (bounds : Bounds) (atol hmax : ℝ) (B : Nat) (ha : 0 < atol) (hm : 0 < hmax) (fuel : Nat) :
    ∀ (rows : List Row) (t : ℝ) (y : Phase) (h : ℝ) (out : List Row), 0 < h → h ≤ hmax → rows.length < B → traceLoop field bounds atol hmax B fuel rows t y h = some out →
    ∃ l, out = rows ++ l ∧ List.IsChain (StepRel field atol hmax) ((t, y) :: l) ∧ (∀ a ∈ ((t, y) :: l).dropLast, InBox bounds a.2.pos) ∧
      out.length ≤ B ∧ (out.length = B ∨ ∀ a, ((t, y) :: l).getLast? = some a → ¬InBox bounds a.2.pos) := by
  induction fuel with
  | zero => intro rows t y h out _ _ _ hout; simp [traceLoop] at hout
  | succ fuel ih =>
    intro rows t y h out hh hhm hlen hout
    rw [traceLoop] at hout
    split_ifs at hout with hin
    · simp only at hout
      have hnn := rkError_nonneg hh (rkStages field h y)
      obtain ⟨hp, hle⟩ := rkNewStep_pos ha hnn hh hm
      split_ifs at hout with hacc hfull
      · obtain rfl := (Option.some.inj hout)
        refine ⟨[(t + h, rkAdvance y (rkStages field h y))], rfl, ?_, ?_, ?_, Or.inl hfull⟩
        · simp only [List.isChain_cons_cons, List.isChain_singleton, and_true]
          exact ⟨h, hh, hhm, rfl, accepted_step field atol h y hacc⟩
        · intro a ha'
          simp at ha'
          rw [ha']; exact hin
        · exact le_of_eq hfull
      · have hlt : (rows ++ [(t + h, rkAdvance y (rkStages field h y))]).length < B := by
          simp only [List.length_append, List.length_singleton] at hfull ⊢
          omega
        obtain ⟨l, e1, e2, e3, e4, e5⟩ := ih _ _ _ _ _ hp hle hlt hout
        refine ⟨(t + h, rkAdvance y (rkStages field h y)) :: l, by rw [e1]; simp, ?_, ?_, e4, ?_⟩
        · rw [List.isChain_cons_cons]
          exact ⟨⟨h, hh, hhm, rfl, accepted_step field atol h y hacc⟩, e2⟩
        · intro a ha'
          rw [List.dropLast_cons_of_ne_nil (by simp)] at ha'
          rcases List.mem_cons.1 ha' with rfl | ha'
          · exact hin
          · exact e3 a ha'
        · rcases e5 with e5 | e5
          · exact Or.inl e5
          · right
            intro a ha'
            rw [List.getLast?_cons_cons] at ha'
            exact e5 a ha'
      · exact ih _ _ _ _ _ hp hle hlen hout
    · obtain rfl := (Option.some.inj hout)
      refine ⟨[], by simp, by simp, by simp, le_of_lt hlen, Or.inr ?_⟩
      intro a ha'
      simp at ha'
      rw [← ha']; exact hin

/-- One block. -/
theorem traceParticleC_spec (field : Phase → V3) (bounds : Bounds) (atol : ℝ) (B : Nat) (ha : 0 < atol) (hB : 2 ≤ B) (fuel : Nat) (s : Row) (out : List Row)
    (h : traceParticleC field bounds atol B fuel s = some out) :
    ∃ l, out = s :: l ∧ out.length ≤ B ∧ (out.length = B ∨ ∀ a, out.getLast? = some a → ¬InBox bounds a.2.pos) ∧
      (∀ a ∈ out.dropLast, InBox bounds a.2.pos) ∧ List.IsChain (StepRel field atol (tracingStepMax / V3.norm s.2.vel)) out := by
  unfold traceParticleC at h
  simp only at h
  split_ifs at h with hV
  by_cases hV0 : V3.norm s.2.vel = 0
  · have hout : ¬inBoundsC bounds s.2.pos := fun hb => hV ⟨hV0, hb⟩
    have : out = [s] := by
      cases fuel with
      | zero => simp [traceLoop] at h
      | succ f => rw [traceLoop, if_neg hout] at h; exact (Option.some.inj h).symm
    subst this
    refine ⟨[], rfl, by simp; omega, Or.inr ?_, by simp, by simp⟩
    intro a ha'
    simp at ha'
    rw [← ha']; exact hout
  · have hVp : 0 < V3.norm s.2.vel := lt_of_le_of_ne (Real.sqrt_nonneg _) (Ne.symm hV0)
    have hm : 0 < tracingStepMax / V3.norm s.2.vel := div_pos (by norm_num [tracingStepMax]) hVp
    obtain ⟨l, e1, e2, e3, e4, e5⟩ := traceLoop_spec field bounds atol _ B ha hm fuel [s] s.1 s.2 _ out hm (le_refl _) (by simp; omega) h
    refine ⟨l, e1, e4, ?_, ?_, ?_⟩
    · rw [e1] at e5 ⊢; exact e5
    · rw [e1]; exact e3
    · rw [e1]; exact e2

/-! ## Gluing -/

/-- The blocks that the wrapper collects. -/
theorem traceBlocks_spec {fill : Row → Option (List Row)} {B : Nat} (hB : 2 ≤ B) (hfill : ∀ s rows, fill s = some rows → ∃ l, rows = s :: l) (fuel : Nat) :
    ∀ (acc : List (List Row)) (s : Row) (res : List (List Row)), traceBlocks fill B fuel acc s = some res →
    ∃ l, Glued fill B s l ∧ res.flatten = acc.flatten ++ (if acc.length > 0 then l else s :: l) := by
  induction fuel with
  | zero => intro acc s res h; simp [traceBlocks] at h
  | succ fuel ih =>
    intro acc s res h
    rw [traceBlocks] at h
    obtain ⟨rows, hrows, h⟩ := Option.bind_eq_some_iff.1 h
    obtain ⟨l, rfl⟩ := hfill s rows hrows
    simp only at h
    by_cases hN : (s :: l).length ≠ B
    · rw [if_pos hN] at h
      obtain rfl := Option.some.inj h
      refine ⟨l, .last s l hrows (by simpa using hN), ?_⟩
      split_ifs with hacc <;> simp
    · rw [if_neg hN] at h
      obtain ⟨m, hm, h⟩ := Option.bind_eq_some_iff.1 h
      have hlen : l.length + 1 = B := by push Not at hN; simpa using hN
      have hne : l ≠ [] := by rintro rfl; simp at hlen; omega
      obtain ⟨l0, rfl⟩ : ∃ l0, l = l0 ++ [m] := by
        have : l.getLast? = some m := by
          split_ifs at hm
          · simpa using hm
          · rw [List.getLast?_cons, List.getLast?_eq_some_getLast hne] at hm
            rw [List.getLast?_eq_some_getLast hne]; simpa using hm
        obtain ⟨l0, h0⟩ := List.getLast?_eq_some_iff.1 this; exact ⟨l0, h0⟩
      obtain ⟨l', g, e⟩ := ih _ _ _ h
      refine ⟨l0 ++ [m] ++ l', .more s l0 m l' hrows (by simp at hlen; omega) g, ?_⟩
      rw [e, if_pos (show (acc ++ _).length > 0 by simp)]
      split_ifs <;> simp

/-- Conversely every chain of blocks is found. -/
theorem traceBlocks_complete {fill : Row → Option (List Row)} {B : Nat} {s : Row} {l : List Row} (g : Glued fill B s l) :
    ∀ acc : List (List Row), ∃ fuel res, traceBlocks fill B fuel acc s = some res := by
  induction g with
  | last s l h hN =>
    intro acc
    refine ⟨1, acc ++ [if acc.length > 0 then (s :: l).drop 1 else s :: l], ?_⟩
    rw [traceBlocks, h]
    simp only [Option.bind_eq_bind, Option.bind_some]
    rw [if_pos (by simpa using hN)]
  | more s l m l' h hN _ ih =>
    intro acc
    obtain ⟨fuel, res, hr⟩ := ih (acc ++ [if acc.length > 0 then (s :: (l ++ [m])).drop 1 else s :: (l ++ [m])])
    refine ⟨fuel + 1, res, ?_⟩
    rw [traceBlocks, h]
    simp only [Option.bind_eq_bind, Option.bind_some]
    rw [if_neg (by simp; omega)]
    have : (if acc.length > 0 then (s :: (l ++ [m])).drop 1 else s :: (l ++ [m])).getLast? = some m := by
      split_ifs <;> simp [List.getLast?_cons]
    rw [this]
    exact hr

/-- The wrapper returns the concatenation in all cases. -/
theorem traceWrapper_eq (fill : Row → Option (List Row)) (B fuel : Nat) (x v : V3) :
    traceWrapper fill B fuel x v = (traceBlocks fill B fuel [] (0, ⟨x, v⟩)).map List.flatten := by
  unfold traceWrapper
  cases traceBlocks fill B fuel [] (0, ⟨x, v⟩) with
  | none => rfl
  | some bs =>
    rcases bs with _ | ⟨b, _ | ⟨c, cs⟩⟩ <;> simp

/-- **C47.** For every C routine `fill` that continues a block from its first row, the returned trajectory is the initial state followed by the new rows of all blocks in order, each once; and if the
sequence of blocks ends, it is returned. -/
theorem C47_glue (fill : Row → Option (List Row)) (B : Nat) (hB : 2 ≤ B) (hfill : ∀ s rows, fill s = some rows → ∃ l, rows = s :: l) (x v : V3) (out : List Row) :
    (∃ fuel, traceWrapper fill B fuel x v = some out) ↔ ∃ l, Glued fill B (0, ⟨x, v⟩) l ∧ out = (0, ⟨x, v⟩) :: l := by
  constructor
  · rintro ⟨fuel, h⟩
    rw [traceWrapper_eq] at h
    obtain ⟨res, hr, rfl⟩ := Option.map_eq_some_iff.1 h
    obtain ⟨l, g, e⟩ := traceBlocks_spec hB hfill fuel [] _ _ hr
    exact ⟨l, g, by simpa using e⟩
  · rintro ⟨l, g, rfl⟩
    obtain ⟨fuel, res, hr⟩ := traceBlocks_complete g []
    refine ⟨fuel, ?_⟩
    rw [traceWrapper_eq, hr]
    obtain ⟨l', g', e⟩ := traceBlocks_spec hB hfill fuel [] _ _ hr
    have huniq : ∀ {s : Row} {l l' : List Row}, Glued fill B s l → Glued fill B s l' → l = l' := by
      intro s l l' g
      induction g generalizing l' with
      | last s l h hN =>
        intro g'
        cases g' with
        | last _ _ h' _ => rw [h] at h'; simpa using h'
        | more _ l1 m1 l1' h' hN' _ =>
          rw [h] at h'
          have : l = l1 ++ [m1] := by simpa using h'
          subst this
          simp at hN; omega
      | more s l m l0 h hN _ ih =>
        intro g'
        cases g' with
        | last _ _ h' hN' =>
          rw [h] at h'
          have : l ++ [m] = l' := by simpa using h'
          subst this
          simp at hN'; omega
        | more _ l1 m1 l1' h' hN' g1 =>
          rw [h] at h'
          have h2 : l ++ [m] = l1 ++ [m1] := by simpa using h'
          obtain ⟨rfl, h3⟩ := List.append_inj' h2 rfl
          have h4 : m = m1 := by simpa using h3
          subst h4
          rw [ih g1]
    rw [huniq g g']
    simp [e]

/-! ## The whole trajectory -/

theorem chain_getElem {α : Type} {R : α → α → Prop} {l : List α} (h : List.IsChain R l) (i : Nat) (a b : α) (ha : l[i]? = some a) (hb : l[i + 1]? = some b) : R a b := by
  induction l generalizing i with
  | nil => simp at ha
  | cons c l ih =>
    cases l with
    | nil => simp at hb
    | cons d l =>
      rw [List.isChain_cons_cons] at h
      cases i with
      | zero => simp at ha hb; subst ha; subst hb; exact h.1
      | succ i => exact ih h.2 i (by simpa using ha) (by simpa using hb)

theorem dropLast_getElem {α : Type} {l : List α} {i : Nat} {a : α} (ha : l[i]? = some a) (hi : i + 1 < l.length) : a ∈ l.dropLast := by
  apply List.mem_of_getElem? (i := i)
  rw [List.getElem?_dropLast, if_pos (by omega)]
  exact ha

/-- The claims about the rows from `s` on. -/
theorem glued_rows (field : Phase → V3) (bounds : Bounds) (atol : ℝ) (B : Nat) (ha : 0 < atol) (hB : 2 ≤ B) (fuel : Nat) {s : Row} {l : List Row}
    (g : Glued (traceParticleC field bounds atol B fuel) B s l) :
    (∀ (i : ℕ) (a b c : Row), (s :: l)[i]? = some a → (s :: l)[i + 1]? = some b → (s :: l)[i / (B - 1) * (B - 1)]? = some c →
      a.1 < b.1 ∧ (b.1 - a.1) * V3.norm c.2.vel ≤ tracingStepMax ∧ Accepted constEM field atol (b.1 - a.1) a.2 b.2) ∧
    (∀ (i : ℕ) (a : Row), (s :: l)[i]? = some a → i + 1 < (s :: l).length → InBox bounds a.2.pos) ∧
    (∀ a, (s :: l).getLast? = some a → ¬InBox bounds a.2.pos) := by
  have key : ∀ (s : Row) (rows : List Row), traceParticleC field bounds atol B fuel s = some rows → ∀ (i : ℕ) (a b : Row), rows[i]? = some a → rows[i + 1]? = some b →
      a.1 < b.1 ∧ (b.1 - a.1) * V3.norm s.2.vel ≤ tracingStepMax ∧ Accepted constEM field atol (b.1 - a.1) a.2 b.2 := by
    intro s rows h i a b hi hi1
    obtain ⟨_, _, _, _, _, hc⟩ := traceParticleC_spec field bounds atol B ha hB fuel s rows h
    obtain ⟨h', h1, h2, h3, h4⟩ := chain_getElem hc i a b hi hi1
    rw [show b.1 - a.1 = h' by rw [h3]; ring]
    refine ⟨by linarith, ?_, h4⟩
    by_cases hV : V3.norm s.2.vel = 0
    · rw [hV]; norm_num [tracingStepMax]
    · have hVp : 0 < V3.norm s.2.vel := lt_of_le_of_ne (Real.sqrt_nonneg _) (Ne.symm hV)
      calc h' * V3.norm s.2.vel ≤ tracingStepMax / V3.norm s.2.vel * V3.norm s.2.vel := by gcongr
        _ = tracingStepMax := by field_simp
  induction g with
  | last s l h hN =>
    obtain ⟨l1, e1, e2, e3, e4, _⟩ := traceParticleC_spec field bounds atol B ha hB fuel s _ h
    refine ⟨?_, ?_, ?_⟩
    · intro i a b c hi hi1 hc
      have hlen : i + 1 < (s :: l).length := by
        by_contra hcon
        rw [List.getElem?_eq_none (by omega)] at hi1; cases hi1
      have : i / (B - 1) = 0 := by
        apply Nat.div_eq_of_lt
        simp at hlen e2 hN; omega
      rw [this] at hc
      simp at hc
      subst hc
      exact key s _ h i a b hi hi1
    · intro i a hi hlen
      exact e4 a (dropLast_getElem hi hlen)
    · rcases e3 with e3 | e3
      · exact absurd (by simpa using e3) hN
      · exact e3
  | more s l m l' h hN g ih =>
    obtain ⟨l1, e1, e2, e3, e4, _⟩ := traceParticleC_spec field bounds atol B ha hB fuel s _ h
    obtain ⟨i1, i2, i3⟩ := ih
    have hsplit : s :: (l ++ [m] ++ l') = (s :: l) ++ (m :: l') := by simp
    have hlen1 : (s :: l).length = B - 1 := by simp; omega
    rw [hsplit]
    have hleft : ∀ i : ℕ, i < B - 1 → (s :: l ++ (m :: l'))[i + 1]? = (s :: (l ++ [m]))[i + 1]? ∧ (s :: l ++ (m :: l'))[i]? = (s :: (l ++ [m]))[i]? := by
      intro i hi
      have e : (s :: l) ++ (m :: l') = (s :: (l ++ [m])) ++ l' := by simp
      rw [e]
      constructor
      · apply List.getElem?_append_left; simp at hlen1 ⊢; omega
      · apply List.getElem?_append_left; simp at hlen1 ⊢; omega
    have hright : ∀ i : ℕ, B - 1 ≤ i → (s :: l ++ (m :: l'))[i]? = (m :: l')[i - (B - 1)]? := by
      intro i hi
      rw [List.getElem?_append_right (by omega), hlen1]
    refine ⟨?_, ?_, ?_⟩
    · intro i a b c hi hi1 hc
      by_cases hlt : i < B - 1
      · rw [(hleft i hlt).1] at hi1
        rw [(hleft i hlt).2] at hi
        rw [Nat.div_eq_of_lt hlt] at hc
        simp at hc
        subst hc
        exact key s _ h i a b hi hi1
      · push Not at hlt
        have hdiv : i / (B - 1) * (B - 1) = (i - (B - 1)) / (B - 1) * (B - 1) + (B - 1) := by
          have : i / (B - 1) = (i - (B - 1)) / (B - 1) + 1 := by
            rw [← Nat.add_div_right _ (by omega)]
            congr 1; omega
          rw [this]; ring
        rw [hright i hlt] at hi
        rw [hright (i + 1) (by omega), show i + 1 - (B - 1) = i - (B - 1) + 1 by omega] at hi1
        rw [hdiv, hright _ (by omega), Nat.add_sub_cancel] at hc
        exact i1 _ a b c hi hi1 hc
    · intro i a hi hlen
      by_cases hlt : i < B - 1
      · rw [(hleft i hlt).2] at hi
        exact e4 a (dropLast_getElem hi (by simp at hlen1 ⊢; omega))
      · push Not at hlt
        rw [hright i hlt] at hi
        refine i2 _ a hi ?_
        simp at hlen hlen1 ⊢; omega
    · intro a ha'
      apply i3
      rw [List.getLast?_append] at ha'
      simpa [List.getLast?_cons] using ha'

/-- **C46.** For every field of force, all bounds, positive tolerances, block sizes and initial states: what a tracer returns is a trajectory. (`tracingBlockSize`, the value in the program, is one of the block sizes.) -/
theorem C46_trajectory (field : Phase → V3) (bounds : Bounds) (atol : ℝ) (ha : 0 < atol) (B : Nat) (hB : 2 ≤ B) (fuel : Nat) (x v : V3) (rows : List Row)
    (h : traceParticle field bounds atol B fuel x v = some rows) : Trajectory constEM field bounds atol 0.01 B ⟨x, v⟩ rows := by
  obtain ⟨l, g, rfl⟩ := (C47_glue _ B hB (fun s out ho => by
    obtain ⟨l, e, _⟩ := traceParticleC_spec field bounds atol B ha hB fuel s out ho
    exact ⟨l, e⟩) x v rows).1 ⟨fuel, h⟩
  obtain ⟨h1, h2, h3⟩ := glued_rows field bounds atol B ha hB fuel g
  exact ⟨rfl, h1, h2, h3⟩

/-- The block size of the program. -/
example : 2 ≤ tracingBlockSize := by decide

end Traceon
