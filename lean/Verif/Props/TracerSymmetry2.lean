import Verif.Model.GetTracer
import Verif.Props.TracerSymmetry
import Verif.Props.RadialSymmetry

/-!
# C89: electrons in a plane of symmetry stay there
-/
namespace Traceon
open Spec

section
variable {W : V3 → Prop} {c : V3} {field : Phase → V3}

/-- The state is on the line or plane through `c` with directions `W`. -/
def Within (W : V3 → Prop) (c : V3) (y : Phase) : Prop := W (y.pos - c) ∧ W y.vel

/-- Both parts of a stage are directions in `W`. -/
def Along (W : V3 → Prop) (k : Phase) : Prop := W k.pos ∧ W k.vel

theorem foldl_along (hW : Directions W) (cs : List (ℝ × Phase)) (h : ∀ ck ∈ cs, Along W ck.2) (k : Phase) (hk : Along W k) :
    Along W (cs.foldl (fun acc ck => acc + ck.1 * ck.2) k) := by
  induction cs generalizing k with
  | nil => exact hk
  | cons a cs ih =>
    rw [List.foldl_cons]
    refine ih (fun ck hck => h ck (List.mem_cons_of_mem _ hck)) _ ?_
    obtain ⟨h1, h2⟩ := h a List.mem_cons_self
    exact ⟨hW.add _ _ hk.1 (hW.smul _ _ h1), hW.add _ _ hk.2 (hW.smul _ _ h2)⟩

theorem Within.add (hW : Directions W) {y k : Phase} (hy : Within W c y) (hk : Along W k) : Within W c (y + k) := by
  refine ⟨?_, hW.add _ _ hy.2 hk.2⟩
  have : (y + k).pos - c = (y.pos - c) + k.pos := by
    ext <;> simp <;> ring
  rw [this]
  exact hW.add _ _ hy.1 hk.1

theorem foldl_within (hW : Directions W) (cs : List (ℝ × Phase)) (h : ∀ ck ∈ cs, Along W ck.2) (y : Phase) (hy : Within W c y) :
    Within W c (cs.foldl (fun acc ck => acc + ck.1 * ck.2) y) := by
  induction cs generalizing y with
  | nil => exact hy
  | cons a cs ih =>
    rw [List.foldl_cons]
    refine ih (fun ck hck => h ck (List.mem_cons_of_mem _ hck)) _ (hy.add hW ?_)
    obtain ⟨h1, h2⟩ := h a List.mem_cons_self
    exact ⟨hW.smul _ _ h1, hW.smul _ _ h2⟩

theorem zip_along {cs : List ℝ} {ks : List Phase} (h : ∀ k ∈ ks, Along W k) : ∀ ck ∈ cs.zip ks, Along W ck.2 :=
  fun ck hck => h _ (List.of_mem_zip hck).2

theorem rkStages_along (hW : Directions W) (hF : ∀ y, Within W c y → W (field y)) (h : ℝ) {y : Phase} (hy : Within W c y) : ∀ k ∈ rkStages field h y, Along W k := by
  unfold rkStages
  suffices ∀ (cs : List (List ℝ)) (ks : List Phase), (∀ k ∈ ks, Along W k) →
      ∀ k ∈ cs.foldl (fun ks coeff => ks ++ [produceNewK field h (produceNewY y coeff ks)]) ks, Along W k from this _ [] (by simp)
  intro cs
  induction cs with
  | nil => exact fun ks hks => hks
  | cons co cs ih =>
    intro ks hks
    rw [List.foldl_cons]
    refine ih _ fun k hk => ?_
    rcases List.mem_append.1 hk with hk | hk
    · exact hks k hk
    · rw [List.mem_singleton] at hk
      subst hk
      have := foldl_within hW _ (zip_along (cs := co) hks) y hy
      exact ⟨hW.smul _ _ this.2, hW.smul _ _ (hF _ this)⟩

theorem traceLoop_within (hW : Directions W) (hF : ∀ y, Within W c y → W (field y)) (bounds : Bounds) (atol hmax : ℝ) (B fuel : Nat) (rows : List Row) (t : ℝ) (y : Phase) (h : ℝ)
    (hrows : ∀ r ∈ rows, Within W c r.2) (hy : Within W c y) {rows' : List Row} (hr : traceLoop field bounds atol hmax B fuel rows t y h = some rows') : ∀ r ∈ rows', Within W c r.2 := by
  induction fuel generalizing rows t y h with
  | zero => cases hr
  | succ fuel ih =>
    rw [traceLoop] at hr
    have hnew : Within W c (rkAdvance y (rkStages field h y)) := by
      refine hy.add hW (foldl_along hW _ (zip_along (rkStages_along hW hF h hy)) 0 ⟨hW.zero, hW.zero⟩)
    have hnewrows : ∀ r ∈ rows ++ [(t + h, rkAdvance y (rkStages field h y))], Within W c r.2 := by
      intro r hr
      rcases List.mem_append.1 hr with hr | hr
      · exact hrows r hr
      · rw [List.mem_singleton] at hr; subst hr; exact hnew
    by_cases c1 : inBoundsC bounds y.pos
    · rw [if_pos c1] at hr
      by_cases c2 : rkError h (rkStages field h y) ≤ atol
      · simp only [if_pos c2] at hr
        by_cases c3 : (rows ++ [(t + h, rkAdvance y (rkStages field h y))]).length = B
        · rw [if_pos c3, Option.some.injEq] at hr
          subst hr
          exact hnewrows
        · rw [if_neg c3] at hr
          exact ih _ _ _ _ hnewrows hnew hr
      · simp only [if_neg c2] at hr
        exact ih _ _ _ _ hrows hy hr
    · rw [if_neg c1, Option.some.injEq] at hr
      subst hr
      exact hrows

theorem traceParticleC_within (hW : Directions W) (hF : ∀ y, Within W c y → W (field y)) (bounds : Bounds) (atol : ℝ) (B fuel : Nat) (start : Row) (hs : Within W c start.2) {rows : List Row}
    (hr : traceParticleC field bounds atol B fuel start = some rows) : ∀ r ∈ rows, Within W c r.2 := by
  unfold traceParticleC at hr
  by_cases c1 : V3.norm start.2.vel = 0 ∧ inBoundsC bounds start.2.pos
  · simp only [if_pos c1] at hr
    cases hr
  · simp only [if_neg c1] at hr
    exact traceLoop_within hW hF bounds atol _ B fuel _ _ _ _ (fun r hr => by rw [List.mem_singleton] at hr; subst hr; exact hs) hs hr

theorem traceBlocks_all {P : Row → Prop} {fill : Row → Option (List Row)} (h : ∀ s rows, P s → fill s = some rows → ∀ r ∈ rows, P r) (B fuel : Nat) (acc : List (List Row)) (start : Row)
    (ha : ∀ b ∈ acc, ∀ r ∈ b, P r) (hs : P start) {blocks : List (List Row)} (hb : traceBlocks fill B fuel acc start = some blocks) : ∀ b ∈ blocks, ∀ r ∈ b, P r := by
  induction fuel generalizing acc start with
  | zero => cases hb
  | succ fuel ih =>
    unfold traceBlocks at hb
    cases hf : fill start with
    | none => rw [hf] at hb; cases hb
    | some rows =>
      rw [hf] at hb
      simp only [Option.bind_eq_bind, Option.bind_some] at hb
      have hrows := h start rows hs hf
      have hblock : ∀ r ∈ (if acc.length > 0 then rows.drop 1 else rows), P r := by
        intro r hr
        split_ifs at hr
        · exact hrows r (List.mem_of_mem_drop hr)
        · exact hrows r hr
      revert hb
      generalize (if acc.length > 0 then rows.drop 1 else rows) = block at hblock
      intro hb
      have hacc : ∀ b ∈ acc ++ [block], ∀ r ∈ b, P r := by
        intro b hb'
        rcases List.mem_append.1 hb' with hb' | hb'
        · exact ha b hb'
        · rw [List.mem_singleton] at hb'; subst hb'; exact hblock
      by_cases c1 : rows.length ≠ B
      · rw [if_pos c1, Option.some.injEq] at hb
        subst hb
        exact hacc
      · rw [if_neg c1] at hb
        cases hl : block.getLast? with
        | none => rw [hl] at hb; cases hb
        | some last =>
          rw [hl] at hb
          exact ih _ _ hacc (hblock _ (List.mem_of_getLast? hl)) hb

/-- **C89**, for any line or plane, given by a point `c` and its directions `W`: if the force on an electron in it that moves along it is along it too, then a traced electron that starts in it, moving along it, stays in it. -/
theorem C89_stays (hW : Directions W) (hF : ∀ x v, W (x - c) → W v → W (field ⟨x, v⟩)) (bounds : Bounds) (atol : ℝ) (B fuel : Nat) (x v : V3) (hx : W (x - c)) (hv : W v) {rows : List Row}
    (hr : traceParticle field bounds atol B fuel x v = some rows) : ∀ r ∈ rows, W (r.2.pos - c) ∧ W r.2.vel := by
  unfold traceParticle traceWrapper at hr
  have key : ∀ blocks, traceBlocks (traceParticleC field bounds atol B fuel) B fuel [] (0, ⟨x, v⟩) = some blocks → ∀ b ∈ blocks, ∀ r ∈ b, Within W c r.2 := fun blocks hb =>
    traceBlocks_all (P := fun r => Within W c r.2) (fun s rows hs hr => traceParticleC_within hW (fun y hy => hF y.pos y.vel hy.1 hy.2) bounds atol B fuel s hs hr) B fuel [] _ (by simp) ⟨hx, hv⟩ hb
  cases hb : traceBlocks (traceParticleC field bounds atol B fuel) B fuel [] (0, ⟨x, v⟩) with
  | none => rw [hb] at hr; cases hr
  | some blocks =>
    rw [hb] at hr
    simp only [Option.bind_eq_bind, Option.bind_some] at hr
    have hk := key blocks hb
    have : rows = blocks.flatten := by
      match blocks, hr with
      | [], hr => simpa using hr.symm
      | [b], hr => simpa using hr.symm
      | b :: b' :: bs, hr => simpa using hr.symm
    subst this
    intro r hr
    obtain ⟨b, hb1, hb2⟩ := List.mem_flatten.1 hr
    exact hk b hb1 r hb2

end

theorem trace_eq {f : PyObj} {fb : Option UserBounds} {e m : ℝ} {bounds : Bounds} {atol : ℝ} {B fuel : Nat} {x v : V3} {rows : List Row} (h : f.trace fb e m bounds atol B fuel x v = some rows) :
    ∃ F, f.tracerForce fb = some F ∧ traceParticle F bounds atol B fuel x (convertVelocityToSI e m v) = some rows := by
  unfold PyObj.trace at h
  cases hF : f.tracerForce fb with
  | none => rw [hF] at h; cases h
  | some F => rw [hF] at h; exact ⟨F, rfl, h⟩

/-- The z axis. -/
theorem directions_axis : Directions fun v => v.x = 0 ∧ v.y = 0 := by
  refine ⟨⟨rfl, rfl⟩, fun a b ha hb => ?_, fun k a ha => ?_⟩
  · simp [ha.1, ha.2, hb.1, hb.2]
  · simp [ha.1, ha.2]

/-- A plane through the z axis, `α x + β y = 0`. -/
theorem directions_plane (α β : ℝ) : Directions fun v => α * v.x + β * v.y = 0 := by
  refine ⟨by simp, fun a b ha hb => ?_, fun k a ha => ?_⟩
  · simp only [V3.add_x, V3.add_y]; linear_combination ha + hb
  · simp only [V3.smul_x, V3.smul_y]; linear_combination k * ha

theorem fromRadial_plane (α β : ℝ) {p : V3} (hp : α * p.x + β * p.y = 0) (a b : ℝ) : α * (fromRadial p a b).x + β * (fromRadial p a b).y = 0 := by
  unfold fromRadial
  split
  · simp only
    linear_combination (a / norm2d p.x p.y) * hp
  · simp

theorem seriesField_plane (α β : ℝ) {p : V3} (hp : α * p.x + β * p.y = 0) (u : ℝ) (d : Nat → ℝ) : α * (seriesField p u d).x + β * (seriesField p u d).y = 0 := by
  have : ∃ k, (seriesField p u d).x = p.x * k ∧ (seriesField p u d).y = p.y * k := ⟨_, rfl, rfl⟩
  obtain ⟨k, h1, h2⟩ := this
  rw [h1, h2]
  linear_combination k * hp

theorem fieldRadialDerivs_plane (α β : ℝ) {p : V3} (hp : α * p.x + β * p.y = 0) {zs : List ℝ} {coeffs : Coeffs} {E : V3} (h : fieldRadialDerivs p zs coeffs = some E) : α * E.x + β * E.y = 0 := by
  unfold fieldRadialDerivs at h
  cases hi : axialIndex zs p.z with
  | none => rw [hi] at h; cases h; simp
  | some i =>
    rw [hi] at h
    obtain ⟨d, -, rfl⟩ := Option.map_eq_some_iff.1 h
    exact seriesField_plane α β hp _ _

/-- On the axis, electrons moving along it feel a force along it. -/
theorem force_axis {f : PyObj} (hf : IsRadial f) {fb : Option UserBounds} {F : Phase → V3} (hF : f.tracerForce fb = some F) (x v : V3) (hx : x.x = 0 ∧ x.y = 0) (hv : v.x = 0 ∧ v.y = 0) :
    (F ⟨x, v⟩).x = 0 ∧ (F ⟨x, v⟩).y = 0 := by
  rcases hf with ⟨g, rfl⟩ | ⟨g, rfl⟩
  · cases hF
    unfold tracerRadialForce fieldRadialTraceable
    split
    · have h1 := fromRadial_axis hx.1 hx.2
      simp only [combineElecMagneticField, fieldRadial, currentField, V3.add_x, V3.add_y, V3.cross, (h1 _ _).1, (h1 _ _).2, hv.1, hv.2]
      simp
    · exact ⟨rfl, rfl⟩
  · cases hF
    simp only
    unfold fieldRadialDerivsTraceable
    have key : ∀ {c : Coeffs} {E : V3}, fieldRadialDerivs x g.zs c = some E → E.x = 0 ∧ E.y = 0 := by
      intro c E hE
      have a := fieldRadialDerivs_plane 1 0 (by simp [hx.1]) hE
      have b := fieldRadialDerivs_plane 0 1 (by simp [hx.2]) hE
      exact ⟨by simpa using a, by simpa using b⟩
    cases he : fieldRadialDerivs x g.zs g.elec with
    | none => simp
    | some E =>
      cases hm : fieldRadialDerivs x g.zs g.mag with
      | none => simp
      | some M =>
        obtain ⟨a, b⟩ := key he
        obtain ⟨a', b'⟩ := key hm
        simp [combineElecMagneticField, V3.cross, a, b, a', b', hv.1, hv.2]

theorem convert_direction {W : V3 → Prop} (hW : Directions W) (e m : ℝ) {v : V3} (hv : W v) : W (convertVelocityToSI e m v) := hW.smul _ _ (hW.smul _ _ hv)

/-- **C89**, the axis: in every radially symmetric field (from charges and coils or a radial series, electrostatic, magnetostatic or both, with or without field bounds) an electron that starts on the axis, moving along
the axis, stays on the axis and keeps moving along it. -/
theorem C89_axis {f : PyObj} (hf : IsRadial f) (fb : Option UserBounds) (e m : ℝ) (bounds : Bounds) (atol : ℝ) (B fuel : Nat) (x v : V3) (hx : x.x = 0 ∧ x.y = 0) (hv : v.x = 0 ∧ v.y = 0) {rows : List Row}
    (hr : f.trace fb e m bounds atol B fuel x v = some rows) : ∀ r ∈ rows, (r.2.pos.x = 0 ∧ r.2.pos.y = 0) ∧ r.2.vel.x = 0 ∧ r.2.vel.y = 0 := by
  obtain ⟨F, hF, hr⟩ := trace_eq hr
  have h0 : ∀ p : V3, (p - 0).x = 0 ∧ (p - 0).y = 0 ↔ p.x = 0 ∧ p.y = 0 := fun p => by simp
  have := C89_stays (c := 0) directions_axis (field := F) (fun x v hx hv => force_axis hf hF x v ((h0 x).1 hx) hv) bounds atol B fuel x _ ((h0 x).2 hx) (convert_direction directions_axis e m hv) hr
  exact fun r hr => ⟨(h0 _).1 (this r hr).1, (this r hr).2⟩

/-- **C89**, planes through the axis: in every radially symmetric field without magnetic field an electron that starts in the plane `α x + β y = 0`, moving in this plane, stays in this plane. -/
theorem C89_meridional (α β : ℝ) {f : PyObj} (hf : IsRadial f) (hm : ∀ p M, f.magnetostaticField p = some M → M = 0) (fb : Option UserBounds) (e m : ℝ) (bounds : Bounds) (atol : ℝ) (B fuel : Nat) (x v : V3)
    (hx : α * x.x + β * x.y = 0) (hv : α * v.x + β * v.y = 0) {rows : List Row} (hr : f.trace fb e m bounds atol B fuel x v = some rows) :
    ∀ r ∈ rows, α * r.2.pos.x + β * r.2.pos.y = 0 ∧ α * r.2.vel.x + β * r.2.vel.y = 0 := by
  obtain ⟨F, hF, hr⟩ := trace_eq hr
  have hforce : ∀ x v : V3, α * x.x + β * x.y = 0 → α * (F ⟨x, v⟩).x + β * (F ⟨x, v⟩).y = 0 := by
    intro x v hx
    rcases hf with ⟨g, rfl⟩ | ⟨g, rfl⟩
    · cases hF
      unfold tracerRadialForce fieldRadialTraceable
      split
      · have h1 := fromRadial_plane α β hx
        have h2 := hm x _ rfl
        have hx2 := congrArg V3.x h2
        have hy2 := congrArg V3.y h2
        have hz2 := congrArg V3.z h2
        simp only [V3.add_x, V3.add_y, V3.add_z, V3.zero_x, V3.zero_y, V3.zero_z] at hx2 hy2 hz2
        rw [add_comm] at hx2 hy2 hz2
        simp only [combineElecMagneticField, V3.add_x, V3.add_y, V3.cross, hx2, hy2, hz2, mul_zero, sub_zero, add_zero]
        exact h1 _ _
      · simp
    · cases hF
      simp only
      unfold fieldRadialDerivsTraceable
      cases he : fieldRadialDerivs x g.zs g.elec with
      | none => simp
      | some E =>
        cases hmm : fieldRadialDerivs x g.zs g.mag with
        | none => simp
        | some M =>
          obtain rfl := hm x M hmm
          have := fieldRadialDerivs_plane α β hx he
          simpa [combineElecMagneticField, V3.cross] using this
  have h0 : ∀ p : V3, α * (p - 0).x + β * (p - 0).y = 0 ↔ α * p.x + β * p.y = 0 := fun p => by simp
  have := C89_stays (c := 0) (directions_plane α β) (field := F) (fun x v hx hv => hforce x v ((h0 x).1 hx)) bounds atol B fuel x _ ((h0 x).2 hx) (convert_direction (directions_plane α β) e m hv) hr
  exact fun r hr => ⟨(h0 _).1 (this r hr).1, (this r hr).2⟩

end Traceon
