import Verif.Model.Memory
import Mathlib.Tactic.Linarith

/-!
# C105: the back end uses only the memory it is given
-/
namespace Traceon.Mem

/-- All of the uses are within the given sizes. -/
def Fits (sz : Arr → Nat) (l : List Use) : Prop := ∀ u ∈ l, 0 ≤ u.2 ∧ u.2 < sz u.1

theorem fits_nil (sz : Arr → Nat) : Fits sz [] ↔ True := by simp [Fits]
theorem fits_cons (sz : Arr → Nat) (a : Arr) (i : Int) (l : List Use) : Fits sz ((a, i) :: l) ↔ (0 ≤ i ∧ i < sz a) ∧ Fits sz l := by simp [Fits]
theorem fits_append (sz : Arr → Nat) (l m : List Use) : Fits sz (l ++ m) ↔ Fits sz l ∧ Fits sz m := by
  simp only [Fits, List.mem_append]
  exact ⟨fun h => ⟨fun u hu => h u (Or.inl hu), fun u hu => h u (Or.inr hu)⟩, fun h u hu => hu.elim (h.1 u) (h.2 u)⟩

theorem fits_loop (sz : Arr → Nat) (n : Nat) (f : Int → List Use) : Fits sz (loop n f) ↔ ∀ i : Int, 0 ≤ i → i < n → Fits sz (f i) := by
  simp only [Fits, loop, List.mem_flatMap, List.mem_range]
  constructor
  · intro h i h0 h1 u hu
    exact h u ⟨i.toNat, by omega, by rwa [Int.toNat_of_nonneg h0]⟩
  · rintro h u ⟨i, hi, hu⟩
    exact h i (by omega) (by omega) u hu

theorem fits_loopTo (sz : Arr → Nat) (a b : Int) (f : Int → List Use) : Fits sz (loopTo a b f) ↔ ∀ i : Int, a ≤ i → i ≤ b → Fits sz (f i) := by
  simp only [Fits, loopTo, List.mem_flatMap, List.mem_range]
  constructor
  · intro h i h0 h1 u hu
    refine h u ⟨(i - a).toNat, by omega, ?_⟩
    rwa [Int.toNat_of_nonneg (by omega), add_sub_cancel]
  · rintro h u ⟨d, hd, hu⟩
    exact h (a + d) (by omega) (by omega) u hu

theorem fits_idx_nil (sz : Arr → Nat) (a : Arr) (b : Int) : Fits sz (idx a b []) ↔ True := by simp [idx, Fits]
theorem fits_idx_cons (sz : Arr → Nat) (a : Arr) (b i : Int) (l : List Int) : Fits sz (idx a b (i :: l)) ↔ (0 ≤ b + i ∧ b + i < sz a) ∧ Fits sz (idx a b l) := by
  simp [idx, Fits]

/-- Whatever is proved about the sizes that the uses need holds for larger sizes. -/
theorem Fits.mono {sz sz' : Arr → Nat} {l : List Use} (h : Fits sz l) (hs : ∀ a, sz a ≤ sz' a) : Fits sz' l := fun u hu => by
  have := h u hu
  have := hs u.1
  omega

theorem shape_one {a : Nd} {n : Nat} (h : a.len = some n) (h1 : a.shape.length = 1) : a.shape = [n] := by
  obtain ⟨s, r⟩ := a
  match s, h1 with
  | [m], _ => simp [Nd.len] at h; simp [h]

theorem stored_one {a : Nd} {n : Nat} (h : a.shape = [n]) (hs : a.Stored) : n ≤ a.room := by simpa [Nd.Stored, h] using hs
theorem stored_two {a : Nd} {n m : Nat} (h : a.shape = [n, m]) (hs : a.Stored) : n * m ≤ a.room := by simpa [Nd.Stored, h] using hs
theorem stored_three {a : Nd} {n m k : Nat} (h : a.shape = [n, m, k]) (hs : a.Stored) : n * (m * k) ≤ a.room := by simpa [Nd.Stored, h] using hs
theorem stored_five {a : Nd} {n m k l o : Nat} (h : a.shape = [n, m, k, l, o]) (hs : a.Stored) : n * (m * (k * (l * o))) ≤ a.room := by simpa [Nd.Stored, h] using hs

theorem guard_unit {p : Prop} [Decidable p] {x : Unit} : (guard p : Option Unit) = some x ↔ p := by
  by_cases h : p <;> simp [guard, h]

/-- The conditions under which the C function is called. -/
macro "checks" h:ident : tactic => `(tactic| (
  simp only [Option.bind_eq_bind, Option.bind_eq_some_iff, guard_unit, exists_const, Option.pure_def, Option.some.injEq] at $h:ident))

/-- Reduce to arithmetic. -/
macro "memory" : tactic => `(tactic| (
  simp only [fits_append, fits_loop, fits_loopTo, fits_idx_cons, fits_idx_nil, fits_cons, fits_nil, and_true, own, Nd.fresh, List.prod_cons, List.prod_nil, Nat.cast_ofNat];
  repeat' (first | apply And.intro | intro _)))

theorem matrix_index {i j N : Int} (hi0 : 0 ≤ i) (hi : i < N) (hj0 : 0 ≤ j) (hj : j < N) : 0 ≤ i * N + j ∧ i * N + j < N * N := by
  constructor
  · nlinarith
  · nlinarith

/-- **C105**, the potential of charged rings -/
theorem C105_potential_radial {point charges jac pos : Nd} (h0 : point.Stored) (h1 : charges.Stored) (h2 : jac.Stored) (h3 : pos.Stored) {c : Call} (h : potentialRadial point charges jac pos = some c) : Safe c := by
  unfold potentialRadial at h
  checks h
  obtain ⟨g1, N, hN, g2, g3, g4, rfl⟩ := h
  have e1 := stored_one g1 h0
  have e2 := stored_one (shape_one hN g4) h1
  have e3 := stored_two g2 h2
  have e4 := stored_three g3 h3
  change Fits _ _
  dsimp only
  unfold potentialRadialC
  memory
  all_goals omega

/-- **C105**, the field of charged rings -/
theorem C105_field_radial {point charges jac pos : Nd} (h0 : point.Stored) (h1 : charges.Stored) (h2 : jac.Stored) (h3 : pos.Stored) {c : Call} (h : fieldRadial point charges jac pos = some c) : Safe c := by
  unfold fieldRadial at h
  checks h
  obtain ⟨g1, N, hN, g2, g3, g4, rfl⟩ := h
  have e1 := stored_one g1 h0
  have e2 := stored_one g4 h1
  have e3 := stored_two g2 h2
  have e4 := stored_three g3 h3
  change Fits _ _
  dsimp only
  unfold fieldRadialC
  memory
  all_goals omega

/-- **C105**, the axial derivatives of charged rings -/
theorem C105_axial_derivatives_radial {z charges jac pos : Nd} (h0 : z.Stored) (h1 : charges.Stored) (h2 : jac.Stored) (h3 : pos.Stored) {c : Call} (h : axialDerivativesRadial z charges jac pos = some c) : Safe c := by
  unfold axialDerivativesRadial at h
  checks h
  obtain ⟨N, hN, Nz, hz, g1, g2, g3, g4, rfl⟩ := h
  have e1 := stored_one (shape_one hz g4) h0
  have e2 := stored_one g3 h1
  have e3 := stored_two g1 h2
  have e4 := stored_three g2 h3
  change Fits _ _
  dsimp only
  unfold axialDerivativesRadialC axialDerivativesRadialRingC
  memory
  all_goals omega

/-- **C105**, the axial potential of coils -/
theorem C105_current_potential_axial {currents jac pos : Nd} (h0 : currents.Stored) (h1 : jac.Stored) (h2 : pos.Stored) {c : Call} (h : currentPotentialAxial currents jac pos = some c) : Safe c := by
  unfold currentPotentialAxial at h
  checks h
  obtain ⟨N, hN, g1, g2, g3, rfl⟩ := h
  have e1 := stored_one g1 h0
  have e2 := stored_two g2 h1
  have e3 := stored_three g3 h2
  change Fits _ _
  dsimp only
  unfold currentPotentialAxialC
  memory
  all_goals omega

/-- **C105**, the field of coils -/
theorem C105_current_field {point currents jac pos : Nd} (h0 : point.Stored) (h1 : currents.Stored) (h2 : jac.Stored) (h3 : pos.Stored) {c : Call} (h : currentField point currents jac pos = some c) : Safe c := by
  unfold currentField at h
  checks h
  obtain ⟨g0, N, hN, g1, g2, g3, rfl⟩ := h
  have e0 := stored_one g0 h0
  have e1 := stored_one g1 h1
  have e2 := stored_two g2 h2
  have e3 := stored_three g3 h3
  change Fits _ _
  dsimp only
  unfold currentFieldC
  memory
  all_goals omega

/-- **C105**, the axial derivatives of coils -/
theorem C105_current_axial_derivatives_radial {z currents jac pos : Nd} (h0 : z.Stored) (h1 : currents.Stored) (h2 : jac.Stored) (h3 : pos.Stored) {c : Call} (h : currentAxialDerivativesRadial z currents jac pos = some c) : Safe c := by
  unfold currentAxialDerivativesRadial at h
  checks h
  obtain ⟨Nz, hz, N, hN, g1, g2, g3, g4, rfl⟩ := h
  have e1 := stored_one g1 h0
  have e2 := stored_one g2 h1
  have e3 := stored_two g3 h2
  have e4 := stored_three g4 h3
  change Fits _ _
  dsimp only
  unfold currentAxialDerivativesRadialC currentAxialDerivativesRadialRingC
  memory
  all_goals omega

/-- **C105**, the potential of charged triangles -/
theorem C105_potential_3d {point charges jac pos : Nd} (h0 : point.Stored) (h1 : charges.Stored) (h2 : jac.Stored) (h3 : pos.Stored) {c : Call} (h : potential3d point charges jac pos = some c) : Safe c := by
  unfold potential3d at h
  checks h
  obtain ⟨g1, N, hN, g2, g3, g4, rfl⟩ := h
  have e1 := stored_one g1 h0
  have e2 := stored_one g2 h1
  have e3 := stored_two g3 h2
  have e4 := stored_three g4 h3
  change Fits _ _
  dsimp only
  unfold potential3dC
  memory
  all_goals omega

/-- **C105**, the field of charged triangles -/
theorem C105_field_3d {point charges jac pos : Nd} (h0 : point.Stored) (h1 : charges.Stored) (h2 : jac.Stored) (h3 : pos.Stored) {c : Call} (h : field3d point charges jac pos = some c) : Safe c := by
  unfold field3d at h
  checks h
  obtain ⟨N, hN, g1, g2, g3, g4, rfl⟩ := h
  have e1 := stored_one g1 h0
  have e2 := stored_one (shape_one hN g4) h1
  have e3 := stored_two g2 h2
  have e4 := stored_three g3 h3
  change Fits _ _
  dsimp only
  unfold field3dC
  memory
  all_goals omega

/-- **C105**, the axial coefficients of charged triangles -/
theorem C105_axial_coefficients_3d {charges jac pos z : Nd} (h0 : charges.Stored) (h1 : jac.Stored) (h2 : pos.Stored) (h3 : z.Stored) {c : Call} (h : axialCoefficients3d charges jac pos z = some c) : Safe c := by
  unfold axialCoefficients3d at h
  checks h
  obtain ⟨N, hN, Nz, hz, g1, g2, g3, g4, rfl⟩ := h
  have e1 := stored_one (shape_one hN g3) h0
  have e2 := stored_two g1 h1
  have e3 := stored_three g2 h2
  have e4 := stored_one (shape_one hz g4) h3
  change Fits _ _
  dsimp only
  unfold axialCoefficients3dC
  memory
  all_goals omega

/-- **C105**, the integration points on lines -/
theorem C105_fill_jacobian_buffer_radial {vertices : Nd} (h0 : vertices.Stored) {c : Call} (h : fillJacobianBufferRadial vertices = some c) : Safe c := by
  unfold fillJacobianBufferRadial at h
  checks h
  obtain ⟨N, hN, g1, rfl⟩ := h
  have e1 := stored_three g1 h0
  change Fits _ _
  dsimp only
  unfold fillJacobianBufferRadialC positionAndJacobianRadialC
  memory
  all_goals omega

/-- **C105**, the integration points on triangles -/
theorem C105_fill_jacobian_buffer_3d {vertices : Nd} (h0 : vertices.Stored) {c : Call} (h : fillJacobianBuffer3d vertices = some c) : Safe c := by
  unfold fillJacobianBuffer3d at h
  checks h
  obtain ⟨N, hN, g1, rfl⟩ := h
  have e1 := stored_three g1 h0
  change Fits _ _
  dsimp only
  unfold fillJacobianBuffer3dC
  memory
  all_goals omega

/-- **C105**, the areas of triangles -/
theorem C105_triangle_areas {triangles : Nd} (h0 : triangles.Stored) {c : Call} (h : triangleAreas triangles = some c) : Safe c := by
  unfold triangleAreas at h
  checks h
  obtain ⟨N, hN, g1, rfl⟩ := h
  have e1 := stored_three g1 h0
  change Fits _ _
  dsimp only
  unfold triangleAreasC
  memory
  all_goals omega


/-- **C105**, the matrix of a radial problem -/
theorem C105_fill_matrix_radial {matrix lines types values jac pos : Nd} (h0 : matrix.Stored) (h1 : lines.Stored) (h2 : types.Stored) (h3 : values.Stored) (h4 : jac.Stored) (h5 : pos.Stored)
    {kind : Int → RowKind} {start stop : Int} {c : Call} (h : fillMatrixRadial matrix lines types values jac pos kind start stop = some c) : Safe c := by
  unfold fillMatrixRadial at h
  checks h
  obtain ⟨N, hN, g0, g1, g2, g3, g4, g5, g6, rfl⟩ := h
  have e0 := stored_two g0 h0
  have e1 := stored_three g1 h1
  have e2 := stored_one g2 h2
  have e3 := stored_one g3 h3
  have e4 := stored_two g4 h4
  have e5 := stored_three g5 h5
  change Fits _ _
  dsimp only
  unfold fillMatrixRadialC positionAndJacobianRadialC
  rw [fits_loopTo]
  intro i hi0 hi1
  have hm := fun j (hj0 : 0 ≤ j) (hj : j < (N : Int)) => matrix_index (i := i) (j := j) (N := N) (by omega) (by omega) hj0 hj
  have e0' : (N : Int) * N ≤ matrix.room := by exact_mod_cast e0
  rw [fits_append]
  constructor
  · memory
    all_goals omega
  · cases kind i with
    | unknown => exact (fits_nil _).2 trivial
    | potential =>
      dsimp only
      rw [fits_loop]
      intro j hj0 hj
      have hmj := hm j hj0 hj
      memory
      all_goals omega
    | interface =>
      dsimp only
      rw [fits_loop]
      intro j hj0 hj
      have hmj := hm j hj0 hj
      unfold higherOrderNormalRadialC positionAndJacobianRadialC
      memory
      all_goals omega

/-- **C105**, the matrix of a 3D problem -/
theorem C105_fill_matrix_3d {matrix vertices types values jac pos : Nd} (h0 : matrix.Stored) (h1 : vertices.Stored) (h2 : types.Stored) (h3 : values.Stored) (h4 : jac.Stored) (h5 : pos.Stored)
    {kind : Int → RowKind} {far : Int → Int → Bool} {start stop : Int} {c : Call} (h : fillMatrix3d matrix vertices types values jac pos kind far start stop = some c) : Safe c := by
  unfold fillMatrix3d at h
  checks h
  obtain ⟨N, hN, g0, g1, g2, g3, g4, g5, g6, rfl⟩ := h
  have e0 := stored_two g0 h0
  have e1 := stored_three g1 h1
  have e2 := stored_one g2 h2
  have e3 := stored_one g3 h3
  have e4 := stored_two g4 h4
  have e5 := stored_three g5 h5
  change Fits _ _
  dsimp only
  unfold fillMatrix3dC
  rw [fits_loopTo]
  intro i hi0 hi1
  have hm := fun j (hj0 : 0 ≤ j) (hj : j < (N : Int)) => matrix_index (i := i) (j := j) (N := N) (by omega) (by omega) hj0 hj
  have e0' : (N : Int) * N ≤ matrix.room := by exact_mod_cast e0
  rw [fits_append]
  constructor
  · memory
    all_goals omega
  · cases kind i with
    | unknown => exact (fits_nil _).2 trivial
    | potential =>
      dsimp only
      rw [fits_loop]
      intro j hj0 hj
      have hmj := hm j hj0 hj
      split <;> split
      all_goals memory
      all_goals omega
    | interface =>
      dsimp only
      rw [fits_append]
      constructor
      · memory
        all_goals omega
      · rw [fits_loop]
        intro j hj0 hj
        have hmj := hm j hj0 hj
        split
        · memory
          all_goals omega
        · split
          all_goals memory
          all_goals omega

/-- **C105**, the integrals over an element itself -/
theorem C105_self_radial {isField : Bool} {vertices : Nd} (h0 : vertices.Stored) {c : Call} (h : selfRadial isField vertices = some c) : Safe c := by
  unfold selfRadial at h
  checks h
  obtain ⟨g1, rfl⟩ := h
  have e1 := stored_two g1 h0
  change Fits _ _
  dsimp only
  unfold selfFieldDotNormalRadialC selfPotentialRadialC higherOrderNormalRadialC positionAndJacobianRadialC
  cases isField
  all_goals simp only [Bool.false_eq_true, if_true, if_false]
  all_goals memory
  all_goals omega

/-- **C105**, the normal of a curved line: the third numbers that are read are beyond the slices that are passed, but in the array of vertices -/
theorem C105_higher_order_normal_radial {vertices : Nd} (h0 : vertices.Stored) {c : Call} (h : higherOrderNormalRadial vertices = some c) : Safe c := by
  unfold higherOrderNormalRadial at h
  checks h
  obtain ⟨g1, rfl⟩ := h
  have e1 := stored_two g1 h0
  change Fits _ _
  dsimp only
  memory
  all_goals omega

/-- **C105**, the area or charge of a line, for an array of at least four vertices -/
theorem C105_charge_radial_partial {vertices : Nd} (h0 : vertices.Stored) {n : Nat} (hn : vertices.len = some n) (h4 : 4 ≤ n) {c : Call} (h : chargeRadial vertices = some c) : Safe c := by
  unfold chargeRadial at h
  checks h
  obtain ⟨m, hm, g1, rfl⟩ := h
  obtain rfl : m = n := by rw [hm] at hn; simpa using hn
  have e1 := stored_two g1 h0
  change Fits _ _
  dsimp only
  unfold chargeRadialC positionAndJacobianRadialC
  memory
  all_goals omega

/-- Nothing makes sure that there are four vertices: with the two ends of a line the third and fourth are read beyond the array. -/
theorem C105_charge_radial_refuted : ∃ c, chargeRadial (Nd.fresh [2, 3]) = some c ∧ ¬ Safe c := by
  refine ⟨_, rfl, fun hs => ?_⟩
  have := hs (.lines, 6) (by decide)
  revert this
  decide

/-- **C105**, the position on a curved line, for vectors of three numbers -/
theorem C105_position_and_jacobian_radial_partial {v1 v2 v3 v4 : Nd} (h1 : v1.shape = [3]) (h2 : v2.shape = [3]) (h3 : v3.shape = [3]) (h4 : v4.shape = [3])
    (s1 : v1.Stored) (s2 : v2.Stored) (s3 : v3.Stored) (s4 : v4.Stored) {c : Call} (h : positionAndJacobianRadial v1 v2 v3 v4 = some c) : Safe c := by
  unfold positionAndJacobianRadial at h
  checks h
  obtain ⟨-, rfl⟩ := h
  have e1 := stored_one h1 s1
  have e2 := stored_one h2 s2
  have e3 := stored_one h3 s3
  have e4 := stored_one h4 s4
  change Fits _ _
  dsimp only
  memory
  all_goals omega

/-- Vectors of two numbers are accepted as well, but their third number is read. -/
theorem C105_position_and_jacobian_radial_refuted : ∃ c, positionAndJacobianRadial (Nd.fresh [2]) (Nd.fresh [2]) (Nd.fresh [2]) (Nd.fresh [2]) = some c ∧ ¬ Safe c := by
  refine ⟨_, rfl, fun hs => ?_⟩
  have := hs (.v1, 2) (by decide)
  revert this
  decide

theorem planeLoop_fits {sz : Arr → Nat} (hr : 6 ≤ sz .result) (crosses : Nat → Bool) : ∀ n : Nat, (n + 1) * 6 ≤ sz .positions → Fits sz (planeLoopC crosses n)
  | 0, _ => (fits_nil _).2 trivial
  | n + 1, h => by
    unfold planeLoopC
    rw [fits_append]
    constructor
    · memory
      all_goals omega
    · split
      · memory
        all_goals omega
      · exact planeLoop_fits hr crosses n (by omega)

/-- **C105**, the crossing of a trajectory with a plane, for a trajectory with at least one row -/
theorem C105_plane_intersection_partial {positions p0 normal : Nd} (h0 : positions.Stored) (h1 : p0.Stored) (h2 : normal.Stored) {crosses : Nat → Bool} {n : Nat} (hn : positions.len = some n) (hpos : 1 ≤ n)
    {c : Call} (h : planeIntersection positions p0 normal crosses = some c) : Safe c := by
  unfold planeIntersection at h
  checks h
  obtain ⟨g1, g2, m, hm, g3, rfl⟩ := h
  obtain rfl : m = n := by rw [hm] at hn; simpa using hn
  have e0 := stored_two g3 h0
  have e1 := stored_one g1 h1
  have e2 := stored_one g2 h2
  change Fits _ _
  dsimp only
  unfold planeIntersectionC
  rw [fits_append]
  constructor
  · memory
    all_goals omega
  · refine planeLoop_fits ?_ crosses _ ?_
    · simp [Nd.fresh]
    · dsimp only; omega

/-- Of a trajectory without any row the row before the first one is read. -/
theorem C105_plane_intersection_refuted (crosses : Nat → Bool) : ∃ c, planeIntersection (Nd.fresh [0, 6]) (Nd.fresh [3]) (Nd.fresh [3]) crosses = some c ∧ ¬ Safe c := by
  refine ⟨_, rfl, fun hs => ?_⟩
  have := (hs (.positions, -6) (by simp [planeIntersectionC, idx])).1
  revert this
  decide

theorem radialDerivs_fits {sz : Arr → Nat} {pt c : Arr} {at0 : Int} {Nz : Nat} {within : Bool} {raw : Int} (h0 : 0 ≤ at0) (hp : at0 + 3 ≤ sz pt) (hz : Nz ≤ sz .z) (hc : (Nz - 1) * 54 ≤ sz c) (hd : 9 ≤ sz .localD)
    (h1 : 1 ≤ Nz) (hi : within → 2 ≤ Nz ∧ raw < (Nz : Int) - 1) : Fits sz (radialDerivsC pt at0 c Nz within raw) := by
  unfold radialDerivsC
  rw [fits_append]
  constructor
  · memory
    all_goals omega
  · split
    · next hw =>
      obtain ⟨hN, hr⟩ := hi hw
      have hg : 0 ≤ guardIndex raw Nz ∧ guardIndex raw Nz < (Nz : Int) - 1 := by unfold guardIndex; omega
      generalize guardIndex raw Nz = g at hg
      memory
      all_goals omega
    · exact (fits_nil _).2 trivial

theorem potential3dDerivs_fits {sz : Arr → Nat} {pt c : Arr} {at0 : Int} {Nz : Nat} {within : Bool} {raw : Int} (h0 : 0 ≤ at0) (hp : at0 + 3 ≤ sz pt) (hz : Nz ≤ sz .z) (hc : (Nz - 1) * 256 ≤ sz c)
    (hA : 32 ≤ sz .localA) (hB : 32 ≤ sz .localB) (h1 : 1 ≤ Nz) (hi : within → 2 ≤ Nz ∧ raw < (Nz : Int) - 1) : Fits sz (potential3dDerivsC pt at0 c Nz within raw) := by
  unfold potential3dDerivsC
  rw [fits_append]
  constructor
  · memory
    all_goals omega
  · split
    · next hw =>
      obtain ⟨hN, hr⟩ := hi hw
      have hg : 0 ≤ guardIndex raw Nz ∧ guardIndex raw Nz < (Nz : Int) - 1 := by unfold guardIndex; omega
      generalize guardIndex raw Nz = g at hg
      memory
      all_goals omega
    · exact (fits_nil _).2 trivial

theorem field3dDerivs_fits {sz : Arr → Nat} {pt out c : Arr} {at0 : Int} {Nz : Nat} {within : Bool} {raw : Int} (h0 : 0 ≤ at0) (hp : at0 + 3 ≤ sz pt) (hz : Nz ≤ sz .z) (hc : (Nz - 1) * 256 ≤ sz c) (ho : 3 ≤ sz out)
    (hA : 32 ≤ sz .localA) (hB : 32 ≤ sz .localB) (hA' : 32 ≤ sz .localAdiff) (hB' : 32 ≤ sz .localBdiff) (h1 : 1 ≤ Nz) (hi : within → 2 ≤ Nz ∧ raw < (Nz : Int) - 1) :
    Fits sz (field3dDerivsC pt at0 out c Nz within raw) := by
  unfold field3dDerivsC
  rw [fits_append, fits_append]
  refine ⟨⟨potential3dDerivs_fits h0 hp hz hc hA hB h1 hi, ?_⟩, ?_⟩
  all_goals memory
  all_goals omega

/-- **C105**, the interpolated radial potential and field: if the point is before the last of the samples (or outside of them), no memory is used that is not theirs. -/
theorem C105_radial_derivs_partial {point z coeffs : Nd} (h0 : point.Stored) (h1 : z.Stored) (h2 : coeffs.Stored) {within : Bool} {raw : Int} {Nz : Nat} (hz : z.len = some Nz) (hi : within → 2 ≤ Nz ∧ raw < (Nz : Int) - 1)
    {c : Call} (h : radialDerivs point z coeffs within raw = some c) : Safe c := by
  unfold radialDerivs at h
  checks h
  obtain ⟨g0, m, hm, g1, g2, rfl⟩ := h
  obtain rfl : m = Nz := by rw [hm] at hz; simpa using hz
  have e0 := stored_one g0 h0
  have e1 := stored_one (shape_one hm g2) h1
  have e2 := stored_three g1.2 h2
  change Fits _ _
  refine radialDerivs_fits (by omega) ?_ ?_ ?_ ?_ g1.1 hi
  all_goals dsimp only [own]
  all_goals omega

/-- **C105**, the interpolated 3D potential and field -/
theorem C105_derivs_3d_partial {isField : Bool} {point z coeffs : Nd} (h0 : point.Stored) (h1 : z.Stored) (h2 : coeffs.Stored) {within : Bool} {raw : Int} {Nz : Nat} (hz : z.len = some Nz) (hi : within → 2 ≤ Nz ∧ raw < (Nz : Int) - 1)
    {c : Call} (h : derivs3d isField point z coeffs within raw = some c) : Safe c := by
  unfold derivs3d at h
  checks h
  obtain ⟨m, hm, g1, g0, g2, rfl⟩ := h
  obtain rfl : m = Nz := by rw [hm] at hz; simpa using hz
  have e0 := stored_one g0 h0
  have e1 := stored_one (shape_one hm g2) h1
  have e2 := stored_five g1.2 h2
  change Fits _ _
  dsimp only
  cases isField
  · simp only [Bool.false_eq_true, if_false]
    refine potential3dDerivs_fits (by omega) ?_ ?_ ?_ ?_ ?_ g1.1 hi
    all_goals dsimp only [own]
    all_goals omega
  · simp only [if_true]
    refine field3dDerivs_fits (by omega) ?_ ?_ ?_ ?_ ?_ ?_ ?_ ?_ g1.1 hi
    all_goals simp only [own, Nd.fresh, List.prod_cons, List.prod_nil]
    all_goals omega

/-- At the last sample the coefficients of an interval behind the last one are read (cf. `C53_refuted`). -/
theorem C105_radial_derivs_refuted (n : Nat) : ∃ c, radialDerivs (Nd.fresh [3]) (Nd.fresh [n + 2]) (Nd.fresh [n + 1, 9, 6]) true (n + 1 : Int) = some c ∧ ¬ Safe c := by
  refine ⟨_, by simp [radialDerivs, Nd.fresh, Nd.len]; rfl, fun hs => ?_⟩
  have hg : guardIndex (n + 1 : Int) (n + 2) = n + 1 := by unfold guardIndex; omega
  change Fits _ _ at hs
  simp only [radialDerivsC, hg, if_true, fits_append] at hs
  have h1 := (fits_loop _ _ _).1 hs.2.1.2 0 (by omega) (by omega)
  have h2 := ((fits_idx_cons _ _ _ _ _).1 ((fits_append _ _ _).1 h1).2).1.2
  simp only [Nat.cast_mul, Nat.cast_add, Nat.cast_ofNat, Nat.cast_one] at h2
  omega

/-- The same in 3D. -/
theorem C105_derivs_3d_refuted (isField : Bool) (n : Nat) : ∃ c, derivs3d isField (Nd.fresh [3]) (Nd.fresh [n + 2]) (Nd.fresh [n + 1, 2, 4, 8, 4]) true (n + 1 : Int) = some c ∧ ¬ Safe c := by
  refine ⟨_, by simp [derivs3d, Nd.fresh, Nd.len]; rfl, fun hs => ?_⟩
  have hg : guardIndex (n + 1 : Int) (n + 2) = n + 1 := by unfold guardIndex; omega
  change Fits _ _ at hs
  have hs' : Fits (fun x => match x with | .point => 3 | .result => 3 | .z => n + 2 | .coeffs => (n + 1) * 256 | a => own a) (potential3dDerivsC .point 0 .coeffs (n + 2) true (n + 1)) := by
    cases isField
    · exact hs
    · simp only [if_true, field3dDerivsC, fits_append] at hs
      exact hs.1.1
  simp only [potential3dDerivsC, hg, if_true, fits_append] at hs'
  have h1 := (fits_loop _ _ _).1 ((fits_loop _ _ _).1 hs'.2.2 0 (by omega) (by omega)) 0 (by omega) (by omega)
  have h2 := ((fits_idx_cons _ _ _ _ _).1 ((fits_append _ _ _).1 ((fits_append _ _ _).1 h1).1).1).1.2
  simp only [Nat.cast_mul, Nat.cast_add, Nat.cast_ofNat, Nat.cast_one] at h2
  omega

/-- With a single sample the second one is read. -/
theorem C105_one_sample_refuted (raw : Int) : ∃ c, radialDerivs (Nd.fresh [3]) (Nd.fresh [1]) (Nd.fresh [0, 9, 6]) true raw = some c ∧ ¬ Safe c := by
  refine ⟨_, by simp [radialDerivs, Nd.fresh, Nd.len]; rfl, fun hs => ?_⟩
  have := (hs (.z, 1) (by simp [radialDerivsC])).2
  simp at this

/-! ## Tracing -/

theorem stage_fits {sz : Arr → Nat} (hY : 6 ≤ sz .localY) (hYs : 36 ≤ sz .localYs) (hK : 36 ≤ sz .localKs) (hF : 3 ≤ sz .localField) (hrk : ∀ k < 6, k ≤ sz (.rk k)) {field : List Use} (hf : Fits sz field) {k : Nat} (hk : k < 6) :
    Fits sz (stageC field k) := by
  have hk' := hrk k hk
  unfold stageC
  simp only [fits_append]
  refine ⟨⟨⟨⟨?_, hf⟩, ?_⟩, ?_⟩, ?_⟩
  all_goals memory
  all_goals omega

theorem round_fits {sz : Arr → Nat} (hY : 6 ≤ sz .localY) (hYs : 36 ≤ sz .localYs) (hK : 36 ≤ sz .localKs) (hF : 3 ≤ sz .localField) (hrk : ∀ k < 6, k ≤ sz (.rk k)) (hct : 6 ≤ sz .ct) {field : Nat → List Use} (hf : ∀ k < 6, Fits sz (field k)) :
    Fits sz (roundC field) := by
  unfold roundC
  rw [fits_append]
  constructor
  · intro u hu
    obtain ⟨k, hk, hu⟩ := List.mem_flatMap.1 hu
    rw [List.mem_range] at hk
    exact stage_fits hY hYs hK hF hrk (hf k hk) hk u hu
  · memory
    all_goals omega

theorem traceLoop_fits {sz : Arr → Nat} {B : Nat} (hY : 6 ≤ sz .localY) (hYs : 36 ≤ sz .localYs) (hK : 36 ≤ sz .localKs) (hF : 3 ≤ sz .localField) (hrk : ∀ k < 6, k ≤ sz (.rk k)) (hct : 6 ≤ sz .ct) (hch : 6 ≤ sz .ch)
    (hP : B * 6 ≤ sz .positions) (hT : B ≤ sz .times) {inside accept : Nat → Bool} {field : Nat → Nat → List Use} (hf : ∀ s, ∀ k < 6, Fits sz (field s k)) :
    ∀ fuel s N, 1 ≤ N → N < B → Fits sz (traceLoopC B inside accept field fuel s N)
  | 0, _, _, _, _ => (fits_nil _).2 trivial
  | fuel + 1, s, N, h1, hN => by
    unfold traceLoopC
    split
    · rw [fits_append]
      refine ⟨round_fits hY hYs hK hF hrk hct (hf s), ?_⟩
      split
      · rw [fits_append]
        constructor
        · memory
          all_goals omega
        · split
          · exact (fits_nil _).2 trivial
          · exact traceLoop_fits hY hYs hK hF hrk hct hch hP hT hf fuel (s + 1) (N + 1) (by omega) (by omega)
      · exact traceLoop_fits hY hYs hK hF hrk hct hch hP hT hf fuel (s + 1) N h1 hN
    · exact (fits_nil _).2 trivial

theorem traceParticle_fits {sz : Arr → Nat} {B : Nat} (hB : 2 ≤ B) (hY : 6 ≤ sz .localY) (hYs : 36 ≤ sz .localYs) (hK : 36 ≤ sz .localKs) (hF : 3 ≤ sz .localField) (hrk : ∀ k < 6, k ≤ sz (.rk k)) (hct : 6 ≤ sz .ct) (hch : 6 ≤ sz .ch)
    (hP : B * 6 ≤ sz .positions) (hT : B ≤ sz .times) (hbd : 6 ≤ sz .bounds) {inside accept : Nat → Bool} {field : Nat → Nat → List Use} (hf : ∀ s, ∀ k < 6, Fits sz (field s k)) (fuel : Nat) :
    Fits sz (traceParticleC B inside accept field fuel) := by
  unfold traceParticleC
  rw [fits_append]
  refine ⟨?_, traceLoop_fits hY hYs hK hF hrk hct hch hP hT hf fuel 0 1 (by omega) (by omega)⟩
  memory
  all_goals omega

theorem first_stage {sz : Arr → Nat} {field : Nat → List Use} (h : Fits sz (roundC field)) : Fits sz (stageC (field 0) 0) := by
  unfold roundC at h
  rw [fits_append] at h
  exact fun u hu => h.1 u (List.mem_flatMap.2 ⟨0, by simp, hu⟩)

theorem own_rk : ∀ k < 6, k ≤ own (.rk k) := by decide

/-- What `EffectivePointCharges.__init__` makes sure of. -/
theorem Eff.check_spec {e : Eff} {N Q : Nat} (h : e.check = some (N, Q)) : e.charges.shape = [N] ∧ e.jac.shape = [N, Q] ∧ (e.pos.shape = [N, Q, 3] ∨ e.pos.shape = [N, Q, 2]) := by
  unfold Eff.check at h
  simp only [Option.bind_eq_bind, Option.bind_eq_some_iff, guard_unit, exists_const, Option.pure_def, Option.some.injEq, Prod.mk.injEq] at h
  obtain ⟨N', -, Q', -, ⟨h1, h2⟩, h3, rfl, rfl⟩ := h
  exact ⟨h1, h2, h3⟩

def Eff.Stored (e : Eff) : Prop := e.charges.Stored ∧ e.jac.Stored ∧ e.pos.Stored

/-- **C105**, tracing in a radial field whose coils have integration points with three coordinates: whatever is decided on the way (`inside`, `accept`, `within`) and however many rounds are made, no other memory is used. -/
theorem C105_trace_particle_radial_partial {B : Nat} (hB : 2 ≤ B) {bounds : Nd} {fieldBounds : Option Nd} {elec mag cur : Eff} (h0 : bounds.Stored) (h1 : ∀ b ∈ fieldBounds, b.Stored) (h2 : elec.Stored) (h3 : mag.Stored) (h4 : cur.Stored)
    (hcur : cur.pos.shape.getLast? = some 3) {inside accept : Nat → Bool} {within : Nat → Nat → Bool} {fuel : Nat} {c : Call}
    (h : traceParticleRadial B bounds fieldBounds elec mag cur inside accept within fuel = some c) : Safe c := by
  unfold traceParticleRadial at h
  checks h
  obtain ⟨⟨Ne, Qe⟩, he, ⟨Nm, Qm⟩, hm, ⟨Nc, Qc⟩, hc, ⟨rfl, rfl, rfl⟩, g1, g2, rfl⟩ := h
  obtain ⟨e1, e2, e3⟩ := Eff.check_spec he
  obtain ⟨m1, m2, m3⟩ := Eff.check_spec hm
  obtain ⟨c1, c2, c3⟩ := Eff.check_spec hc
  have e1 := stored_one e1 h2.1
  have e2 := stored_two e2 h2.2.1
  have e3 : Ne * (16 * 2) ≤ elec.pos.room := by
    rcases e3 with e3 | e3 <;> have := stored_three e3 h2.2.2 <;> omega
  have m1 := stored_one m1 h3.1
  have m2 := stored_two m2 h3.2.1
  have m3 : Nm * (16 * 2) ≤ mag.pos.room := by
    rcases m3 with m3 | m3 <;> have := stored_three m3 h3.2.2 <;> omega
  have c1 := stored_one c1 h4.1
  have c2 := stored_two c2 h4.2.1
  have c3 : Nc * (12 * 3) ≤ cur.pos.room := by
    rcases c3 with c3 | c3
    · exact stored_three c3 h4.2.2
    · rw [c3] at hcur; simp at hcur
  have b0 := stored_two g1 h0
  have b1 : fieldBounds.isSome = true → 6 ≤ (fieldBounds.map Nd.room).getD 0 := by
    cases fieldBounds with
    | none => simp
    | some b => have := stored_two (g2 b rfl) (h1 b rfl); simp; omega
  change Fits _ _
  refine traceParticle_fits hB ?_ ?_ ?_ ?_ ?_ ?_ ?_ ?_ ?_ ?_ ?_ fuel
  all_goals dsimp only
  any_goals exact own_rk
  any_goals (simp only [own, Nd.fresh, List.prod_cons, List.prod_nil]; omega)
  any_goals omega
  intro s k hk
  unfold fieldRadialTraceableC
  generalize fieldBounds.isSome = hb at b1
  generalize (fieldBounds.map Nd.room).getD 0 = r at b1
  rw [fits_append]
  constructor
  · cases hb
    · exact (fits_nil _).2 trivial
    · have := b1 rfl
      simp only [if_true]
      memory
      all_goals omega
  · split
    · unfold fieldRadialC currentFieldC
      memory
      all_goals omega
    · exact (fits_nil _).2 trivial

/-- `EffectivePointCharges` admits integration points with two coordinates for coils as well; then the tracer reads beyond their array. -/
theorem C105_trace_particle_radial_refuted : ∃ (cur : Eff) (c : Call), cur.Stored ∧
    traceParticleRadial 100000 (Nd.fresh [3, 2]) none ⟨Nd.fresh [0], Nd.fresh [0, 16], Nd.fresh [0, 16, 2]⟩ ⟨Nd.fresh [0], Nd.fresh [0, 16], Nd.fresh [0, 16, 2]⟩ cur (fun _ => true) (fun _ => true) (fun _ _ => true) 1 = some c ∧ ¬ Safe c := by
  refine ⟨⟨Nd.fresh [1], Nd.fresh [1, 12], Nd.fresh [1, 12, 2]⟩, _, ?_, rfl, fun hs => ?_⟩
  · simp [Eff.Stored, Nd.Stored, Nd.fresh]
  · change Fits _ _ at hs
    dsimp only at hs
    unfold traceParticleC at hs
    rw [fits_append] at hs
    have hl := hs.2
    unfold traceLoopC at hl
    simp only [if_true, fits_append] at hl
    have hr := hl.1
    have hst := first_stage hr
    unfold stageC at hst
    simp only [fits_append] at hst
    have hf := hst.1.1.1.2
    simp only [fieldRadialTraceableC, Option.isSome_none, Bool.false_eq_true, if_false, Bool.not_false, Bool.true_or, if_true, fits_append] at hf
    have hcf := hf.2.1.1.2
    unfold currentFieldC at hcf
    simp only [fits_append] at hcf
    have h11 := (fits_loop _ _ _).1 ((fits_loop _ _ _).1 hcf.1.2 0 (by omega) (by norm_num)) 11 (by omega) (by norm_num)
    have := (h11 (.cPos, 35) (by simp)).2
    simp [Nd.fresh] at this

/-- Field bounds are handed over without looking at their type: six 32-bit integers take the memory of three numbers, but six are read. -/
theorem C105_field_bounds_refuted : ∃ c : Call,
    traceParticleRadial 100000 (Nd.fresh [3, 2]) (some ⟨[3, 2], 3⟩) ⟨Nd.fresh [0], Nd.fresh [0, 16], Nd.fresh [0, 16, 2]⟩ ⟨Nd.fresh [0], Nd.fresh [0, 16], Nd.fresh [0, 16, 2]⟩ ⟨Nd.fresh [0], Nd.fresh [0, 12], Nd.fresh [0, 12, 3]⟩
      (fun _ => true) (fun _ => true) (fun _ _ => true) 1 = some c ∧ ¬ Safe c := by
  refine ⟨_, rfl, fun hs => ?_⟩
  change Fits _ _ at hs
  dsimp only at hs
  unfold traceParticleC at hs
  rw [fits_append] at hs
  have hl := hs.2
  unfold traceLoopC at hl
  simp only [if_true, fits_append] at hl
  have hst := first_stage hl.1
  unfold stageC at hst
  simp only [fits_append] at hst
  have hf := hst.1.1.1.2
  simp only [fieldRadialTraceableC, Option.isSome_some, if_true, fits_append] at hf
  have := (hf.1 (.fieldBounds, 3) (by simp [idx])).2
  simp at this

/-- **C105**, tracing in a 3D field -/
theorem C105_trace_particle_3d {B : Nat} (hB : 2 ≤ B) {bounds : Nd} {fieldBounds : Option Nd} {elec mag : Eff} (h0 : bounds.Stored) (h1 : ∀ b ∈ fieldBounds, b.Stored) (h2 : elec.Stored) (h3 : mag.Stored)
    {inside accept : Nat → Bool} {within : Nat → Nat → Bool} {fuel : Nat} {c : Call}
    (h : traceParticle3d B bounds fieldBounds elec mag inside accept within fuel = some c) : Safe c := by
  unfold traceParticle3d at h
  checks h
  obtain ⟨⟨Ne, Qe⟩, -, ⟨Nm, Qm⟩, -, ⟨e1, e2, e3⟩, ⟨m1, m2, m3⟩, g1, g2, rfl⟩ := h
  have e1 := stored_one e1 h2.1
  have e2 := stored_two e2 h2.2.1
  have e3 := stored_three e3 h2.2.2
  have m1 := stored_one m1 h3.1
  have m2 := stored_two m2 h3.2.1
  have m3 := stored_three m3 h3.2.2
  have b0 := stored_two g1 h0
  have b1 : fieldBounds.isSome = true → 6 ≤ (fieldBounds.map Nd.room).getD 0 := by
    cases fieldBounds with
    | none => simp
    | some b => have := stored_two (g2 b rfl) (h1 b rfl); simp; omega
  change Fits _ _
  refine traceParticle_fits hB ?_ ?_ ?_ ?_ ?_ ?_ ?_ ?_ ?_ ?_ ?_ fuel
  all_goals dsimp only
  any_goals exact own_rk
  any_goals (simp only [own, Nd.fresh, List.prod_cons, List.prod_nil]; omega)
  any_goals omega
  intro s k hk
  unfold field3dTraceableC
  generalize fieldBounds.isSome = hb at b1
  generalize (fieldBounds.map Nd.room).getD 0 = r at b1
  rw [fits_append]
  constructor
  · cases hb
    · exact (fits_nil _).2 trivial
    · have := b1 rfl
      simp only [if_true]
      memory
      all_goals omega
  · split
    · unfold field3dC
      memory
      all_goals omega
    · exact (fits_nil _).2 trivial

/-- **C105**, tracing in an interpolated radial field, as long as the field is evaluated before the last sample or outside of the samples -/
theorem C105_trace_particle_radial_derivs_partial {B : Nat} (hB : 2 ≤ B) {bounds z elec mag : Nd} (h0 : bounds.Stored) (h1 : z.Stored) (h2 : elec.Stored) (h3 : mag.Stored)
    {inside accept : Nat → Bool} {within : Nat → Nat → Bool} {raw : Nat → Nat → Int} {fuel Nz : Nat} (hz : z.len = some Nz) (hi : ∀ s k, within s k → 2 ≤ Nz ∧ raw s k < (Nz : Int) - 1) {c : Call}
    (h : traceParticleRadialDerivs B bounds z elec mag inside accept within raw fuel = some c) : Safe c := by
  unfold traceParticleRadialDerivs at h
  checks h
  obtain ⟨m, hm, ⟨g0, g1, g2⟩, g3, g4, rfl⟩ := h
  obtain rfl : m = Nz := by rw [hm] at hz; simpa using hz
  have b0 := stored_two g4 h0
  have e1 := stored_one (shape_one hm g3) h1
  have e2 := stored_three g1 h2
  have e3 := stored_three g2 h3
  change Fits _ _
  refine traceParticle_fits hB ?_ ?_ ?_ ?_ ?_ ?_ ?_ ?_ ?_ ?_ ?_ fuel
  all_goals dsimp only
  any_goals exact own_rk
  any_goals (simp only [own, Nd.fresh, List.prod_cons, List.prod_nil]; omega)
  any_goals omega
  intro s k hk
  simp only [fits_append]
  refine ⟨⟨⟨radialDerivs_fits (by omega) ?_ ?_ ?_ ?_ g0 (hi s k), radialDerivs_fits (by omega) ?_ ?_ ?_ ?_ g0 (hi s k)⟩, ?_⟩, ?_⟩
  all_goals memory
  all_goals omega

/-- **C105**, tracing in an interpolated 3D field, as long as the field is evaluated before the last sample or outside of the samples -/
theorem C105_trace_particle_3d_derivs_partial {B : Nat} (hB : 2 ≤ B) {bounds z elec mag : Nd} (h0 : bounds.Stored) (h1 : z.Stored) (h2 : elec.Stored) (h3 : mag.Stored)
    {inside accept : Nat → Bool} {within : Nat → Nat → Bool} {raw : Nat → Nat → Int} {fuel Nz : Nat} (hz : z.len = some Nz) (hi : ∀ s k, within s k → 2 ≤ Nz ∧ raw s k < (Nz : Int) - 1) {c : Call}
    (h : traceParticle3dDerivs B bounds z elec mag inside accept within raw fuel = some c) : Safe c := by
  unfold traceParticle3dDerivs at h
  checks h
  obtain ⟨m, hm, ⟨g0, g1, g2⟩, g3, g4, rfl⟩ := h
  obtain rfl : m = Nz := by rw [hm] at hz; simpa using hz
  have b0 := stored_two g4 h0
  have e1 := stored_one (shape_one hm g3) h1
  have e2 := stored_five g1 h2
  have e3 := stored_five g2 h3
  change Fits _ _
  refine traceParticle_fits hB ?_ ?_ ?_ ?_ ?_ ?_ ?_ ?_ ?_ ?_ ?_ fuel
  all_goals dsimp only
  any_goals exact own_rk
  any_goals (simp only [own, Nd.fresh, List.prod_cons, List.prod_nil]; omega)
  any_goals omega
  intro s k hk
  simp only [fits_append]
  refine ⟨⟨field3dDerivs_fits (by omega) ?_ ?_ ?_ ?_ ?_ ?_ ?_ ?_ g0 (hi s k), field3dDerivs_fits (by omega) ?_ ?_ ?_ ?_ ?_ ?_ ?_ ?_ g0 (hi s k)⟩, ?_⟩
  all_goals memory
  all_goals omega

/-! ## The hypotheses are met -/

/-- Arrays as the solver makes them are accepted, by every function. -/
theorem C105_example :
    (∃ c, potentialRadial (Nd.fresh [3]) (Nd.fresh [7]) (Nd.fresh [7, 16]) (Nd.fresh [7, 16, 2]) = some c ∧ c.uses ≠ []) ∧
    (∃ c, axialDerivativesRadial (Nd.fresh [5]) (Nd.fresh [7]) (Nd.fresh [7, 16]) (Nd.fresh [7, 16, 2]) = some c) ∧
    (∃ c, currentField (Nd.fresh [3]) (Nd.fresh [7]) (Nd.fresh [7, 12]) (Nd.fresh [7, 12, 3]) = some c) ∧
    (∃ c, axialCoefficients3d (Nd.fresh [7]) (Nd.fresh [7, 12]) (Nd.fresh [7, 12, 3]) (Nd.fresh [5]) = some c) ∧
    (∃ c, fillMatrixRadial (Nd.fresh [7, 7]) (Nd.fresh [7, 4, 3]) (Nd.fresh [7]) (Nd.fresh [7]) (Nd.fresh [7, 16]) (Nd.fresh [7, 16, 2]) (fun _ => .interface) 0 6 = some c) ∧
    (∃ c, fillMatrix3d (Nd.fresh [7, 7]) (Nd.fresh [7, 3, 3]) (Nd.fresh [7]) (Nd.fresh [7]) (Nd.fresh [7, 12]) (Nd.fresh [7, 12, 3]) (fun _ => .potential) (fun _ _ => true) 0 6 = some c) ∧
    (∃ c, radialDerivs (Nd.fresh [3]) (Nd.fresh [5]) (Nd.fresh [4, 9, 6]) true 3 = some c) ∧
    (∃ c, derivs3d true (Nd.fresh [3]) (Nd.fresh [5]) (Nd.fresh [4, 2, 4, 8, 4]) true 3 = some c) ∧
    (∃ c, planeIntersection (Nd.fresh [9, 6]) (Nd.fresh [3]) (Nd.fresh [3]) (fun _ => false) = some c) ∧
    (∃ c, traceParticleRadial 100000 (Nd.fresh [3, 2]) (some (Nd.fresh [3, 2])) ⟨Nd.fresh [7], Nd.fresh [7, 16], Nd.fresh [7, 16, 2]⟩ ⟨Nd.fresh [0], Nd.fresh [0, 16], Nd.fresh [0, 16, 2]⟩ ⟨Nd.fresh [4], Nd.fresh [4, 12], Nd.fresh [4, 12, 3]⟩
      (fun _ => true) (fun _ => true) (fun _ _ => true) 1000 = some c) ∧
    (∃ c, traceParticle3d 100000 (Nd.fresh [3, 2]) none ⟨Nd.fresh [7], Nd.fresh [7, 12], Nd.fresh [7, 12, 3]⟩ ⟨Nd.fresh [0], Nd.fresh [0, 12], Nd.fresh [0, 12, 3]⟩ (fun _ => true) (fun _ => true) (fun _ _ => true) 1000 = some c) ∧
    ∀ s, (Nd.fresh s).Stored := by
  refine ⟨⟨_, rfl, ?_⟩, ⟨_, rfl⟩, ⟨_, rfl⟩, ⟨_, rfl⟩, ⟨_, rfl⟩, ⟨_, rfl⟩, ⟨_, rfl⟩, ⟨_, rfl⟩, ⟨_, rfl⟩, ⟨_, rfl⟩, ⟨_, rfl⟩, fun s => le_rfl⟩
  simp [potentialRadialC, idx]

end Traceon.Mem
