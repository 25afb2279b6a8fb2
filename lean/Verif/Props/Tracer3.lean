import Verif.Props.Tracer2

/-!
# C46: the result does not depend on the fuel; C48: field bounds; C49: planes; C50: velocities
-/
namespace Traceon
open V3 Spec

/-! ## Fuel -/

theorem traceLoop_mono (field : Phase → V3) (bounds : Bounds) (atol hmax : ℝ) (B : Nat) (f : Nat) : ∀ (f' : Nat) (rows : List Row) (t : ℝ) (y : Phase) (h : ℝ) (out : List Row), f ≤ f' →
    traceLoop field bounds atol hmax B f rows t y h = some out → traceLoop field bounds atol hmax B f' rows t y h = some out := by
  induction f with
  | zero => intro f' rows t y h out _ ho; simp [traceLoop] at ho
  | succ f ih =>
    intro f' rows t y h out hle ho
    obtain ⟨g, rfl⟩ : ∃ g, f' = g + 1 := ⟨f' - 1, by omega⟩
    rw [traceLoop] at ho ⊢
    split_ifs at ho ⊢ with h1
    · simp only at ho ⊢
      split_ifs at ho ⊢ with h2 h3
      · exact ho
      · exact ih g _ _ _ _ _ (by omega) ho
      · exact ih g _ _ _ _ _ (by omega) ho
    · exact ho

theorem traceParticleC_mono (field : Phase → V3) (bounds : Bounds) (atol : ℝ) (B : Nat) {f f' : Nat} (hle : f ≤ f') {s : Row} {out : List Row}
    (h : traceParticleC field bounds atol B f s = some out) : traceParticleC field bounds atol B f' s = some out := by
  unfold traceParticleC at h ⊢
  simp only at h ⊢
  split_ifs at h ⊢
  exact traceLoop_mono _ _ _ _ _ f f' _ _ _ _ _ hle h

theorem traceBlocks_mono {fill fill' : Row → Option (List Row)} (hf : ∀ s out, fill s = some out → fill' s = some out) (B : Nat) (f : Nat) :
    ∀ (f' : Nat) (acc : List (List Row)) (s : Row) (res : List (List Row)), f ≤ f' → traceBlocks fill B f acc s = some res → traceBlocks fill' B f' acc s = some res := by
  induction f with
  | zero => intro f' acc s res _ h; simp [traceBlocks] at h
  | succ f ih =>
    intro f' acc s res hle h
    obtain ⟨g, rfl⟩ : ∃ g, f' = g + 1 := ⟨f' - 1, by omega⟩
    rw [traceBlocks] at h ⊢
    obtain ⟨rows, hrows, h⟩ := Option.bind_eq_some_iff.1 h
    refine Option.bind_eq_some_iff.2 ⟨rows, hf _ _ hrows, ?_⟩
    simp only at h ⊢
    split_ifs at h ⊢ with h1
    · exact h
    · exact h
    all_goals
      obtain ⟨m, hm, h⟩ := Option.bind_eq_some_iff.1 h
      exact Option.bind_eq_some_iff.2 ⟨m, hm, ih g _ _ _ (by omega) h⟩

/-- **C46.** The fuel only says how long we wait: two computations that return, return the same. -/
theorem C46_deterministic (field : Phase → V3) (bounds : Bounds) (atol : ℝ) (B : Nat) (f f' : Nat) (x v : V3) (rows rows' : List Row)
    (h : traceParticle field bounds atol B f x v = some rows) (h' : traceParticle field bounds atol B f' x v = some rows') : rows = rows' := by
  have key : ∀ {g g' : Nat} {r : List Row}, g ≤ g' → traceParticle field bounds atol B g x v = some r → traceParticle field bounds atol B g' x v = some r := by
    intro g g' r hle hr
    unfold traceParticle at hr ⊢
    rw [traceWrapper_eq] at hr ⊢
    obtain ⟨res, hres, rfl⟩ := Option.map_eq_some_iff.1 hr
    rw [traceBlocks_mono (fun s out ho => traceParticleC_mono field bounds atol B hle ho) B g g' _ _ _ hle hres]
    rfl
  rcases le_total f f' with hle | hle
  · rw [key hle h] at h'; exact Option.some.inj h'
  · rw [key hle h'] at h; exact (Option.some.inj h).symm

/-! ## C48 -/

/-- The particle is strictly within the bounds. -/
def Spec.Within (b : (ℝ × ℝ) × (ℝ × ℝ) × (ℝ × ℝ)) (p : V3) : Prop :=
  p.x ∈ Set.Ioo b.1.1 b.1.2 ∧ p.y ∈ Set.Ioo b.2.1.1 b.2.1.2 ∧ p.z ∈ Set.Ioo b.2.2.1 b.2.2.2

theorem cLt_some (a b : ℝ) : cLt (some a) (some b) ↔ a < b := by
  unfold cLt
  constructor
  · rintro ⟨x, y, h1, h2, h⟩; cases h1; cases h2; exact h
  · intro h; exact ⟨a, b, rfl, rfl, h⟩

/-- **C48**, the part that holds. In radial symmetry there is no force outside the bounds in x or y, given as floating point numbers; within all bounds the force is that of the field without bounds; and the C routine for 3D fields, if it were given the bounds, respects them all. -/
theorem C48_field_bounds_partial (b : (ℝ × ℝ) × (ℝ × ℝ) × (ℝ × ℝ)) (p : Phase) :
    (∀ f : FieldRadialBEM, (p.pos.x ∉ Set.Ioo b.1.1 b.1.2 ∨ p.pos.y ∉ Set.Ioo b.2.1.1 b.2.1.2) → tracerRadialForce f (some (.floats b)) p = 0) ∧
    (∀ f : FieldRadialBEM, Within b p.pos → tracerRadialForce f (some (.floats b)) p = tracerRadialForce f none p) ∧
    (∀ f : Field3DBEM, ¬Within b p.pos → field3dTraceable f.elec f.mag (UserBounds.floats b).toC p = 0) ∧
    (∀ f : Field3DBEM, Within b p.pos → field3dTraceable f.elec f.mag (UserBounds.floats b).toC p = tracer3dForce f none p) := by
  refine ⟨fun f h => ?_, fun f h => ?_, fun f h => ?_, fun f h => ?_⟩
  · unfold tracerRadialForce fieldRadialTraceable UserBounds.toC
    rw [if_neg]
    intro hc
    obtain ⟨h1, h2⟩ := hc _ rfl
    simp only [cLt_some] at h1 h2
    rcases h with h | h
    · exact h h1
    · exact h h2
  · unfold tracerRadialForce fieldRadialTraceable UserBounds.toC
    rw [if_pos, if_pos (by simp)]
    rintro _ ⟨⟩
    simp only [cLt_some]
    exact ⟨h.1, h.2.1⟩
  · unfold field3dTraceable UserBounds.toC
    rw [if_neg]
    intro hc
    obtain ⟨h1, h2, h3⟩ := hc _ rfl
    simp only [cLt_some] at h1 h2 h3
    exact h ⟨h1, h2, h3⟩
  · unfold tracer3dForce field3dTraceable UserBounds.toC
    rw [if_pos, if_pos (by simp)]
    rintro _ ⟨⟩
    simp only [cLt_some]
    exact ⟨h.1, h.2.1, h.2.2⟩

/-- A ring of radius 1 at height 0 with one quadrature point. -/
noncomputable def ringField : FieldRadialBEM := ⟨⟨1, [1], [[1]], [[(1, 0)]]⟩, ⟨1, [], [], []⟩, ⟨1, [], [], []⟩, none⟩

/-- A point charge in the origin. -/
noncomputable def pointField : Field3DBEM := ⟨⟨1, [1], [[1]], [[⟨0, 0, 0⟩]]⟩, ⟨1, [], [], []⟩, none⟩

theorem ringField_force : (tracerRadialForce ringField (some (.floats ((-1, 1), (-1, 1), (-1, 1)))) ⟨⟨0, 0, 2⟩, 0⟩).z ≠ 0 := by
  have h1 : tracerRadialForce ringField (some (.floats ((-1, 1), (-1, 1), (-1, 1)))) ⟨⟨0, 0, 2⟩, 0⟩ = fieldRadial ⟨0, 0, 2⟩ ringField.elec := by
    unfold tracerRadialForce fieldRadialTraceable UserBounds.toC
    rw [if_pos]
    · unfold combineElecMagneticField cross
      ext <;> simp
    · rintro _ ⟨⟩
      simp only [cLt_some]
      norm_num
  have hn : norm2d 0 0 = 0 := by simp [norm2d]
  rw [h1]
  unfold fieldRadial fromRadial
  simp only [hn]
  rw [if_neg (by norm_num [minDistanceAxis])]
  simp only [ringField, EffCharges.loopSub, List.zip_cons_cons, List.zip_nil_left, List.foldl_cons, List.foldl_nil, dz1PotentialRadialRing, dz1RingWith]
  have hE : 0 < ellipem1 1 := by
    unfold ellipem1 chebSum
    simp [List.range_succ]
    norm_num
  have hs : 0 < Real.sqrt (4 * 0 * 0 + 4 * (1 - 0) * 0 + (0 - 2) * (0 - 2) + (1 - 0) * (1 - 0)) := Real.sqrt_pos.2 (by norm_num)
  have hpi := Real.pi_pos
  have hc : ((0 - 2) * (0 - 2) + (1 - 0) * (1 - 0) : ℝ) / (4 * 0 * 0 + 4 * (1 - 0) * 0 + (0 - 2) * (0 - 2) + (1 - 0) * (1 - 0)) = 1 := by norm_num
  rw [hc]
  generalize Real.sqrt (4 * 0 * 0 + 4 * (1 - 0) * 0 + (0 - 2) * (0 - 2) + (1 - 0) * (1 - 0)) = S at hs ⊢
  generalize ellipem1 1 = E at hE ⊢
  have : 0 < 1 / Real.pi * (2 * E) / (5 * S) := by positivity
  have e : (0 - 1 * 1 * (1 / Real.pi * -(-(0 - 2) * (0 + (1 - 0)) * E) / (((0 - 2) * (0 - 2) + (1 - 0) * (1 - 0)) * S)) : ℝ) = 1 / Real.pi * (2 * E) / (5 * S) := by
    norm_num
    ring
  rw [e]
  exact this.ne'

/-- **C48** is false: (1) in radial symmetry the bounds in z are ignored; (2) a 3D field ignores all bounds; (3) bounds given as integers are misread, and the field is zero everywhere although the particle is within the bounds. -/
theorem C48_refuted :
    (∃ (f : FieldRadialBEM) (b : (ℝ × ℝ) × (ℝ × ℝ) × (ℝ × ℝ)) (p : Phase), ¬Within b p.pos ∧ tracerRadialForce f (some (.floats b)) p ≠ 0) ∧
    (∃ (f : Field3DBEM) (b : (ℝ × ℝ) × (ℝ × ℝ) × (ℝ × ℝ)) (p : Phase), p.pos.x ∉ Set.Icc b.1.1 b.1.2 ∧ p.pos.y ∉ Set.Icc b.2.1.1 b.2.1.2 ∧ p.pos.z ∉ Set.Icc b.2.2.1 b.2.2.2 ∧
      tracer3dForce f (some (.floats b)) p ≠ 0) ∧
    (∃ f : FieldRadialBEM, (∀ p : Phase, tracerRadialForce f (some (.ints ((-3, 3), (-3, 3), (-3, 3)))) p = 0) ∧
      ∃ p : Phase, Within ((-3, 3), (-3, 3), (-3, 3)) p.pos ∧ tracerRadialForce f none p ≠ 0) := by
  refine ⟨⟨ringField, ((-1, 1), (-1, 1), (-1, 1)), ⟨⟨0, 0, 2⟩, 0⟩, ?_, ?_⟩, ⟨pointField, ((-1, 1), (-1, 1), (-1, 1)), ⟨⟨2, 2, 2⟩, 0⟩, ?_, ?_, ?_, ?_⟩, ringField, ?_, ⟨⟨0, 0, 2⟩, 0⟩, ?_, ?_⟩
  · rintro ⟨_, _, h⟩
    have := h.2
    norm_num at this
  · intro h0; exact ringField_force (by rw [h0]; rfl)
  · simp
  · simp
  · simp
  · unfold tracer3dForce field3dTraceable
    rw [if_pos (by simp)]
    intro h0
    have hx := congrArg V3.x h0
    unfold combineElecMagneticField cross field3d at hx
    have hp : dot ((⟨0, 0, 0⟩ : V3) - ⟨2, 2, 2⟩) ((⟨0, 0, 0⟩ : V3) - ⟨2, 2, 2⟩) = 12 := by unfold dot; norm_num
    have hn : 0 < V3.norm ((⟨0, 0, 0⟩ : V3) - ⟨2, 2, 2⟩) := by unfold V3.norm; rw [hp]; exact Real.sqrt_pos.2 (by norm_num)
    simp [pointField, EffCharges.loopSub, dx1Potential3dPoint] at hx
    exact hn.ne' hx
  · intro p
    unfold tracerRadialForce fieldRadialTraceable UserBounds.toC
    rw [if_neg]
    intro hc
    obtain ⟨⟨⟨x, y, h1, _, _⟩, _⟩, _⟩ := hc _ rfl
    simp [reinterpretInt] at h1
  · refine ⟨?_, ?_, ?_⟩ <;> simp <;> norm_num
  · have := (C48_field_bounds_partial ((-3, 3), (-3, 3), (-3, 3)) ⟨⟨0, 0, 2⟩, 0⟩).2.1 ringField (by refine ⟨?_, ?_, ?_⟩ <;> simp <;> norm_num)
    rw [← this]
    intro h0
    apply ringField_force
    have e : tracerRadialForce ringField (some (.floats ((-1, 1), (-1, 1), (-1, 1)))) ⟨⟨0, 0, 2⟩, 0⟩ = tracerRadialForce ringField (some (.floats ((-3, 3), (-3, 3), (-3, 3)))) ⟨⟨0, 0, 2⟩, 0⟩ := by
      unfold tracerRadialForce fieldRadialTraceable UserBounds.toC
      rw [if_pos, if_pos]
      · rintro _ ⟨⟩; simp only [cLt_some]; norm_num
      · rintro _ ⟨⟩; simp only [cLt_some]; norm_num
    rw [e, h0]; rfl

/-! ## C49 -/

/-- The plane through `p0` with normal `n` separates `a` from `b`: exactly one of them is strictly on the side away from the normal. -/
def Spec.Separates (p0 n a b : V3) : Prop :=
  (dot n (a - p0) < 0 ∧ 0 ≤ dot n (b - p0)) ∨ (0 ≤ dot n (a - p0) ∧ dot n (b - p0) < 0)

theorem planeKappa_eq (p0 n p : V3) : planeKappa p0 n p = -dot n (p - p0) / V3.norm n := by
  unfold planeKappa dot; simp; ring

theorem planeKappa_pos (p0 n p : V3) : planeKappa p0 n p > 0 ↔ dot n (p - p0) < 0 := by
  rw [planeKappa_eq]
  by_cases hn : n = 0
  · subst hn; simp [dot]
  · have := V3.norm_pos hn
    rw [gt_iff_lt, lt_div_iff₀ this]; constructor <;> intro h <;> linarith

/-- What the loop finds; `prev :: rest` is the trajectory reversed. -/
theorem planeLoop_spec (p0 n : V3) (rest : List Phase) : ∀ prev : Phase,
    (∀ q, planeLoop p0 n prev rest = some q → ∃ (i : ℕ) (b a : Phase), (prev :: rest)[i]? = some b ∧ (prev :: rest)[i + 1]? = some a ∧ Separates p0 n a.pos b.pos ∧
      (∀ (j : ℕ) (c d : Phase), j < i → (prev :: rest)[j]? = some c → (prev :: rest)[j + 1]? = some d → ¬Separates p0 n d.pos c.pos) ∧
      dot n (q.pos - p0) = 0 ∧ ∃ s ∈ Set.Icc (0 : ℝ) 1, q = (1 - s) * a + s * b) ∧
    (planeLoop p0 n prev rest = none → ∀ (j : ℕ) (c d : Phase), (prev :: rest)[j]? = some c → (prev :: rest)[j + 1]? = some d → ¬Separates p0 n d.pos c.pos) := by
  induction rest with
  | nil =>
    intro prev
    refine ⟨fun q h => by simp [planeLoop] at h, fun _ j c d _ hd => by simp at hd⟩
  | cons p rest ih =>
    intro prev
    have hsep : ((if planeKappa p0 n p.pos > 0 then (1 : Int) else -1) ≠ (if planeKappa p0 n prev.pos > 0 then 1 else -1)) ↔ Separates p0 n p.pos prev.pos := by
      unfold Separates
      have h1 := planeKappa_pos p0 n p.pos
      have h2 := planeKappa_pos p0 n prev.pos
      by_cases a1 : dot n (p.pos - p0) < 0 <;> by_cases a2 : dot n (prev.pos - p0) < 0
      · simp [h1.2 a1, h2.2 a2, a1, a2]
      · have b2 : ¬planeKappa p0 n prev.pos > 0 := fun h => a2 (h2.1 h)
        rw [if_pos (h1.2 a1), if_neg b2]
        simp [a1, not_lt.1 a2]
      · have b1 : ¬planeKappa p0 n p.pos > 0 := fun h => a1 (h1.1 h)
        rw [if_neg b1, if_pos (h2.2 a2)]
        simp [a2, not_lt.1 a1]
      · have b1 : ¬planeKappa p0 n p.pos > 0 := fun h => a1 (h1.1 h)
        have b2 : ¬planeKappa p0 n prev.pos > 0 := fun h => a2 (h2.1 h)
        rw [if_neg b1, if_neg b2]
        simp [a1, a2]
    by_cases hs : Separates p0 n p.pos prev.pos
    · have hn : n ≠ 0 := by
        rintro rfl
        rcases hs with ⟨h, _⟩ | ⟨_, h⟩ <;> simp [dot] at h
      have hN := V3.norm_pos hn
      have e : planeLoop p0 n prev (p :: rest) = some ((planeKappa p0 n p.pos / (planeKappa p0 n p.pos - planeKappa p0 n prev.pos)) * prev +
          (-planeKappa p0 n prev.pos / (planeKappa p0 n p.pos - planeKappa p0 n prev.pos)) * p) := by
        rw [planeLoop]
        simp only
        rw [if_pos]
        convert hsep.2 hs using 2
      rw [e]
      refine ⟨?_, fun h => by cases h⟩
      rintro q hq
      obtain rfl := Option.some.inj hq
      have hd : dot n (p.pos - p0) - dot n (prev.pos - p0) ≠ 0 := by
        rcases hs with ⟨h1, h2⟩ | ⟨h1, h2⟩
        · exact (by linarith : dot n (p.pos - p0) - dot n (prev.pos - p0) < 0).ne
        · exact (by linarith : 0 < dot n (p.pos - p0) - dot n (prev.pos - p0)).ne'
      have f1 : planeKappa p0 n p.pos / (planeKappa p0 n p.pos - planeKappa p0 n prev.pos) = dot n (p.pos - p0) / (dot n (p.pos - p0) - dot n (prev.pos - p0)) := by
        rw [planeKappa_eq, planeKappa_eq]
        have : -dot n (p.pos - p0) / V3.norm n - -dot n (prev.pos - p0) / V3.norm n = -(dot n (p.pos - p0) - dot n (prev.pos - p0)) / V3.norm n := by ring
        rw [this]
        generalize dot n (p.pos - p0) - dot n (prev.pos - p0) = D at hd ⊢
        field_simp
      have f2 : -planeKappa p0 n prev.pos / (planeKappa p0 n p.pos - planeKappa p0 n prev.pos) = -dot n (prev.pos - p0) / (dot n (p.pos - p0) - dot n (prev.pos - p0)) := by
        rw [planeKappa_eq, planeKappa_eq]
        have : -dot n (p.pos - p0) / V3.norm n - -dot n (prev.pos - p0) / V3.norm n = -(dot n (p.pos - p0) - dot n (prev.pos - p0)) / V3.norm n := by ring
        rw [this]
        generalize dot n (p.pos - p0) - dot n (prev.pos - p0) = D at hd ⊢
        field_simp
      rw [f1, f2]
      have hsum : -dot n (prev.pos - p0) / (dot n (p.pos - p0) - dot n (prev.pos - p0)) = 1 - dot n (p.pos - p0) / (dot n (p.pos - p0) - dot n (prev.pos - p0)) := by
        rw [eq_sub_iff_add_eq, ← add_div, div_eq_one_iff_eq hd]; ring
      refine ⟨0, prev, p, rfl, rfl, hs, fun j c d hj => by omega, ?_, dot n (p.pos - p0) / (dot n (p.pos - p0) - dot n (prev.pos - p0)), ?_, ?_⟩
      · have key : ∀ s r : ℝ, r = 1 - s → dot n ((s * prev + r * p).pos - p0) = s * dot n (prev.pos - p0) + r * dot n (p.pos - p0) := by
          rintro s r rfl; unfold dot; simp; ring
        rw [key _ _ hsum]
        field_simp
        ring
      · rcases hs with ⟨h1, h2⟩ | ⟨h1, h2⟩
        · constructor
          · exact div_nonneg_of_nonpos h1.le (by linarith)
          · rw [div_le_one_of_neg (by linarith)]; linarith
        · constructor
          · exact div_nonneg h1 (by linarith)
          · rw [div_le_one (by linarith)]; linarith
      · rw [hsum]
        ext <;> simp <;> ring
    · have e : planeLoop p0 n prev (p :: rest) = planeLoop p0 n p rest := by
        rw [planeLoop]
        simp only
        rw [if_neg]
        intro hc
        apply hs
        apply hsep.1
        convert hc using 2
      rw [e]
      obtain ⟨ih1, ih2⟩ := ih p
      constructor
      · intro q hq
        obtain ⟨i, b, a, h1, h2, h3, h4, h5⟩ := ih1 q hq
        refine ⟨i + 1, b, a, by simpa using h1, by simpa using h2, h3, ?_, h5⟩
        intro j c d hj hc hd
        cases j with
        | zero => simp at hc hd; subst hc; subst hd; exact hs
        | succ j => exact h4 j c d (by omega) (by simpa using hc) (by simpa using hd)
      · intro hq j c d hc hd
        cases j with
        | zero => simp at hc hd; subst hc; subst hd; exact hs
        | succ j => exact ih2 hq j c d (by simpa using hc) (by simpa using hd)

/-- **C49.** For every trajectory and every plane: if a state is returned, it lies in the plane and is a point (of all six numbers) on the segment between two consecutive rows that are separated by the plane, and no later pair is; nothing is returned iff no consecutive pair is separated. -/
theorem C49_plane_intersection (positions : List Phase) (p0 n : V3) :
    (∀ q, planeIntersection positions p0 n = some q → ∃ (i : ℕ) (a b : Phase), positions[i]? = some a ∧ positions[i + 1]? = some b ∧ Separates p0 n a.pos b.pos ∧
      (∀ (j : ℕ) (c d : Phase), i < j → positions[j]? = some c → positions[j + 1]? = some d → ¬Separates p0 n c.pos d.pos) ∧
      dot n (q.pos - p0) = 0 ∧ ∃ s ∈ Set.Icc (0 : ℝ) 1, q = (1 - s) * a + s * b) ∧
    (planeIntersection positions p0 n = none ↔ ∀ (i : ℕ) (a b : Phase), positions[i]? = some a → positions[i + 1]? = some b → ¬Separates p0 n a.pos b.pos) := by
  unfold planeIntersection
  have hrev : ∀ (l : List Phase), l = positions.reverse → ∀ (i : ℕ), i < positions.length → positions[i]? = l[positions.length - 1 - i]? := by
    rintro l rfl i hi
    rw [List.getElem?_reverse (by omega)]
    congr 1; omega
  cases hr : positions.reverse with
  | nil =>
    have : positions = [] := by simpa using hr
    subst this
    simp
  | cons last rest =>
    have hlen : positions.length = rest.length + 1 := by
      rw [← List.length_reverse, hr]; simp
    simp only
    have spec := planeLoop_spec p0 n rest last
    have conv : ∀ (i : ℕ) (a : Phase), positions[i]? = some a → i < positions.length ∧ (last :: rest)[rest.length - i]? = some a := by
      intro i a ha
      have hi : i < positions.length := by
        by_contra hc; rw [List.getElem?_eq_none (by omega)] at ha; cases ha
      refine ⟨hi, ?_⟩
      rw [hrev _ hr.symm i hi] at ha
      rw [← ha]; congr 1; omega
    have conv' : ∀ (i : ℕ) (a : Phase), (last :: rest)[i]? = some a → i < positions.length ∧ positions[rest.length - i]? = some a := by
      intro i a ha
      have hi : i < positions.length := by
        by_contra hc
        rw [List.getElem?_eq_none (by simp; omega)] at ha; cases ha
      refine ⟨hi, ?_⟩
      rw [hrev _ hr.symm _ (by omega), ← ha]; congr 1; omega
    have fact2 : planeLoop p0 n last rest = none → ∀ (i : ℕ) (a b : Phase), positions[i]? = some a → positions[i + 1]? = some b → ¬Separates p0 n a.pos b.pos := by
      intro h i a b ha hb
      obtain ⟨h1, h2⟩ := conv i a ha
      obtain ⟨h3, h4⟩ := conv (i + 1) b hb
      refine spec.2 h (rest.length - (i + 1)) b a h4 ?_
      rw [← h2]; congr 1; omega
    have fact1 : ∀ q, planeLoop p0 n last rest = some q → ∃ (i : ℕ) (a b : Phase), positions[i]? = some a ∧ positions[i + 1]? = some b ∧ Separates p0 n a.pos b.pos ∧
      (∀ (j : ℕ) (c d : Phase), i < j → positions[j]? = some c → positions[j + 1]? = some d → ¬Separates p0 n c.pos d.pos) ∧
      dot n (q.pos - p0) = 0 ∧ ∃ s ∈ Set.Icc (0 : ℝ) 1, q = (1 - s) * a + s * b := by
      intro q hq
      obtain ⟨i, b, a, h1, h2, h3, h4, h5, h6⟩ := spec.1 q hq
      obtain ⟨c1, c2⟩ := conv' i b h1
      obtain ⟨c3, c4⟩ := conv' (i + 1) a h2
      refine ⟨rest.length - (i + 1), a, b, c4, ?_, h3, ?_, h5, h6⟩
      · rw [← c2]; congr 1; omega
      · intro j c d hj hc hd
        obtain ⟨d1, d2⟩ := conv j c hc
        obtain ⟨d3, d4⟩ := conv (j + 1) d hd
        refine h4 (rest.length - (j + 1)) d c (by omega) d4 ?_
        rw [← d2]; congr 1; omega
    by_cases hnil : rest = []
    · rw [if_pos hnil]
      refine ⟨fun q h => (nomatch h), fun _ i a b _ hb => ?_, fun _ => rfl⟩
      obtain ⟨h3, _⟩ := conv (i + 1) b hb
      rw [hnil] at hlen; simp at hlen; omega
    · rw [if_neg hnil]
      refine ⟨fact1, fact2, ?_⟩
      intro h
      cases hq : planeLoop p0 n last rest with
      | none => rfl
      | some q =>
        obtain ⟨i, a, b, h1, h2, h3, _⟩ := fact1 q hq
        exact absurd h3 (h i a b h1 h2)

/-- **C49**, for the coordinate planes: the returned state has the given coordinate, and `axis_intersection` is the height of a point with x = 0. -/
theorem C49_coordinate_planes (positions : List Phase) (c : ℝ) :
    (∀ q, xyPlaneIntersection positions c = some q → q.pos.z = c) ∧ (∀ q, xzPlaneIntersection positions c = some q → q.pos.y = c) ∧
    (∀ q, yzPlaneIntersection positions c = some q → q.pos.x = c) ∧
    (∀ z, axisIntersection positions = some z → ∃ q, yzPlaneIntersection positions 0 = some q ∧ q.pos.x = 0 ∧ q.pos.z = z) := by
  have hx : ∀ c q, yzPlaneIntersection positions c = some q → q.pos.x = c := by
    intro c q h
    obtain ⟨_, _, _, _, _, _, _, h5, _⟩ := (C49_plane_intersection positions _ _).1 q h
    simp [dot] at h5; linarith
  refine ⟨?_, ?_, hx c, ?_⟩
  · intro q h
    obtain ⟨_, _, _, _, _, _, _, h5, _⟩ := (C49_plane_intersection positions _ _).1 q h
    simp [dot] at h5; linarith
  · intro q h
    obtain ⟨_, _, _, _, _, _, _, h5, _⟩ := (C49_plane_intersection positions _ _).1 q h
    simp [dot] at h5; linarith
  · intro z h
    obtain ⟨q, hq, rfl⟩ := Option.map_eq_some_iff.1 h
    exact ⟨q, hq, hx 0 q hq, rfl⟩

/-- A trajectory that ends exactly in the plane is found if it comes from below the normal, and refused if it comes from above. -/
theorem C49_touching (y : Phase) :
    (∃ q, xyPlaneIntersection [⟨⟨0, 0, -1⟩, y.vel⟩, ⟨⟨0, 0, 0⟩, y.vel⟩] 0 = some q) ∧ xyPlaneIntersection [⟨⟨0, 0, 1⟩, y.vel⟩, ⟨⟨0, 0, 0⟩, y.vel⟩] 0 = none := by
  constructor
  · cases h : xyPlaneIntersection [⟨⟨0, 0, -1⟩, y.vel⟩, ⟨⟨0, 0, 0⟩, y.vel⟩] 0 with
    | some q => exact ⟨q, rfl⟩
    | none =>
      exact absurd (Or.inl ⟨by simp [dot], by simp [dot]⟩) ((C49_plane_intersection _ _ _).2.1 h 0 _ _ rfl rfl)
  · refine (C49_plane_intersection _ _ _).2.2 ?_
    intro i a b ha hb
    match i with
    | 0 =>
      simp at ha hb; subst ha; subst hb
      simp [Separates, dot]
    | 1 => simp at hb
    | i + 2 => simp at hb

/-! ## C50 -/

/-- **C50.** `velocity_vec` accepts exactly the positive energies and non-zero directions (for a zero direction the code returns NaNs), and the velocity used for tracing then has the kinetic energy eV, in electron volt, and points along the direction. -/
theorem C50_velocity (e m : ℝ) (he : 0 < e) (hm : 0 < m) (eV : ℝ) (d : V3) :
    ((velocityVec eV d).isSome ↔ 0 < eV ∧ d ≠ 0) ∧
    ∀ v, velocityVec eV d = some v →
      m / 2 * dot (convertVelocityToSI e m v) (convertVelocityToSI e m v) = eV * e ∧ ∃ s : ℝ, 0 < s ∧ convertVelocityToSI e m v = s * d := by
  constructor
  · unfold velocityVec
    split_ifs with h
    · simpa using h
    · simpa using h
  · intro v hv
    unfold velocityVec at hv
    split_ifs at hv with h
    obtain rfl := Option.some.inj hv
    obtain ⟨h1, h2⟩ := h
    have hN := V3.norm_pos h2
    have hsq := V3.norm_sq d
    have hn : V3.norm ((1 / V3.norm d) * (eV * d)) = eV := by
      unfold V3.norm at *
      have : dot ((1 / Real.sqrt (dot d d)) * (eV * d)) ((1 / Real.sqrt (dot d d)) * (eV * d)) = eV ^ 2 := by
        have : dot ((1 / Real.sqrt (dot d d)) * (eV * d)) ((1 / Real.sqrt (dot d d)) * (eV * d)) = eV ^ 2 * dot d d / (Real.sqrt (dot d d) * Real.sqrt (dot d d)) := by
          generalize Real.sqrt (dot d d) = S at hN ⊢
          unfold dot; simp; field_simp
        rw [this, hsq, mul_div_assoc, div_self (V3.dot_self_pos h2).ne', mul_one]
      rw [this, Real.sqrt_sq h1.le]
    have hpos : 0 < 2 * eV * e / m := by positivity
    have e1 : convertVelocityToSI e m ((1 / V3.norm d) * (eV * d)) = (Real.sqrt (2 * eV * e / m) / V3.norm d) * d := by
      unfold convertVelocityToSI
      simp only [hn]
      ext <;> simp <;> field_simp
    rw [e1]
    refine ⟨?_, _, div_pos (Real.sqrt_pos.2 hpos) hN, rfl⟩
    have e2 : dot ((Real.sqrt (2 * eV * e / m) / V3.norm d) * d) ((Real.sqrt (2 * eV * e / m) / V3.norm d) * d) =
        (Real.sqrt (2 * eV * e / m) * Real.sqrt (2 * eV * e / m)) / (V3.norm d * V3.norm d) * dot d d := by
      unfold dot; simp; field_simp
    rw [e2, Real.mul_self_sqrt hpos.le, hsq, div_mul_cancel₀ _ (V3.dot_self_pos h2).ne']
    field_simp

/-- **C50.** The spherical and the xz-plane variant: for every positive energy they return a vector whose length is the energy, with the advertised polar angles; `downward` points to negative z for angles below a right angle. -/
theorem C50_directions (eV : ℝ) (h : 0 < eV) (theta phi : ℝ) :
    velocityVecSpherical eV theta phi = some ⟨eV * (Real.sin theta * Real.cos phi), eV * (Real.sin theta * Real.sin phi), eV * Real.cos theta⟩ ∧
    velocityVecXzPlane eV theta = some ⟨eV * Real.sin theta, 0, -(eV * Real.cos theta)⟩ ∧
    velocityVecXzPlane eV theta false = some ⟨eV * Real.sin theta, 0, eV * Real.cos theta⟩ := by
  have unit : ∀ d : V3, dot d d = 1 → velocityVec eV d = some (eV * d) := by
    intro d hd
    have hne : d ≠ 0 := by rintro rfl; simp [dot] at hd
    unfold velocityVec
    rw [if_pos ⟨h, hne⟩]
    unfold V3.norm
    rw [hd, Real.sqrt_one]
    congr 1
    ext <;> simp
  have hs := Real.sin_sq_add_cos_sq theta
  have hp := Real.sin_sq_add_cos_sq phi
  refine ⟨?_, ?_, ?_⟩
  · unfold velocityVecSpherical
    rw [unit]
    · rfl
    · unfold dot
      simp only
      calc _ = Real.sin theta ^ 2 * (Real.sin phi ^ 2 + Real.cos phi ^ 2) + Real.cos theta ^ 2 := by ring
        _ = 1 := by rw [hp, mul_one, hs]
  · unfold velocityVecXzPlane
    rw [unit]
    · congr 1; ext <;> simp
    · unfold dot
      simp
      linarith [hs]
  · unfold velocityVecXzPlane
    rw [unit]
    · congr 1; ext <;> simp
    · unfold dot
      simp
      linarith [hs]

example : (velocityVec 1000 ⟨0, 3, 4⟩).isSome := ((C50_velocity 1 1 one_pos one_pos 1000 ⟨0, 3, 4⟩).1).2 ⟨by norm_num, by simp [V3.ext_iff]⟩

end Traceon
