import Verif.Lemmas.SurfaceSections

/-!
# The mesh of a surface before the call of the constructor
-/
namespace Traceon
namespace SMesh
variable {P : Type}

theorem children_ne_nil (q : Quad) {h v : Bool} (hv : (h || v) = true) : children q h v ≠ [] := by
  unfold children
  cases h <;> cases v <;> simp_all

theorem refine_ne_nil (dec : Quad → Option (Bool × Bool)) :
    ∀ (fuel : Nat) (stack quads quads' : List Quad), (stack ≠ [] ∨ quads ≠ []) → refine dec fuel stack quads = some quads' →
      quads' ≠ []
  | fuel, [], quads, quads', hne, h => by
    have : refine dec fuel [] quads = some quads := by cases fuel <;> rfl
    rw [this] at h; cases h
    rcases hne with h | h
    · exact absurd rfl h
    · exact h
  | 0, q :: stack, quads, quads', _, h => by cases h
  | fuel + 1, q :: stack, quads, quads', _, h => by
    simp only [refine] at h
    obtain ⟨hv, _, h⟩ := Option.bind_eq_some_iff.1 h
    split at h
    · rename_i hb
      refine refine_ne_nil dec fuel _ _ _ (Or.inl ?_) h
      have := children_ne_nil q hb
      simp [this]
    · exact refine_ne_nil dec fuel _ _ _ (Or.inr (by simp)) h

theorem refineFold_ne_nil (dec : Quad → Option (Bool × Bool)) (fuel : Nat) :
    ∀ (qs quads quads' : List Quad), (qs ≠ [] ∨ quads ≠ []) →
      qs.foldlM (fun acc q => refine dec fuel [q] acc) quads = some quads' → quads' ≠ []
  | [], quads, quads', hne, h => by
    cases h
    rcases hne with h | h
    · exact absurd rfl h
    · exact h
  | q :: qs, quads, quads', _, h => by
    rw [List.foldlM_cons] at h
    obtain ⟨quads1, h1, h⟩ := Option.bind_eq_some_iff.1 h
    have := refine_ne_nil dec fuel [q] quads quads1 (Or.inl (by simp)) h1
    exact refineFold_ne_nil dec fuel qs quads1 quads' (Or.inr this) h

theorem startQuads_ne_nil (start : Nat) : startQuads start ≠ [] := by
  intro h
  have : (⟨start, 0, 1, 0, 1⟩ : Quad) ∈ startQuads start := by
    unfold startQuads
    refine List.mem_flatMap.2 ⟨0, List.mem_range.2 (Nat.two_pow_pos _), List.mem_map.2 ⟨0, List.mem_range.2 (Nat.two_pow_pos _), rfl⟩⟩
  rw [h] at this
  simp at this

theorem foldl_max_ge : ∀ (l : List Nat) (a : Nat), a ≤ l.foldl max a ∧ ∀ x ∈ l, x ≤ l.foldl max a
  | [], a => ⟨Nat.le_refl _, by simp⟩
  | y :: l, a => by
    obtain ⟨h1, h2⟩ := foldl_max_ge l (max a y)
    refine ⟨by simp only [List.foldl_cons]; omega, fun x hx => ?_⟩
    rcases List.mem_cons.1 hx with rfl | hx
    · simp only [List.foldl_cons]; omega
    · exact h2 x hx

theorem SectionDone.deep {pt : Nat → Nat → Nat → Option P} {split : P → P → P → P → Bool × Bool} {fuel start : Nat} {pts : List P}
    {r : List Quad × List IndexMap} (h : SectionDone pt split fuel start pts r) : start < r.2.length := by
  have hne := refineFold_ne_nil _ fuel _ _ _ (Or.inl (startQuads_ne_nil start)) h.quads
  obtain ⟨q, hq⟩ := List.exists_mem_of_ne_nil _ hne
  obtain ⟨m, k, hm, _⟩ := (h.defined q hq).1
  have := (List.getElem?_eq_some_iff.1 hm).1
  have := (h.grid q hq).2
  simp only at *
  omega

/-- corners of scaled quads -/
theorem normalized_defined {pt : Nat → Nat → Nat → Option P} {split : P → P → P → P → Bool × Bool} {fuel start : Nat} {pts : List P}
    {r : List Quad × List IndexMap} (h : SectionDone pt split fuel start pts r) {D : Nat} {m : IndexMap}
    (hm : ∀ (d : Nat) m0 i j, start ≤ d → r.2[d]? = some m0 → (m0 i j).isSome → (m (i * 2 ^ (D - d)) (j * 2 ^ (D - d))).isSome) :
    ∀ q ∈ r.1, MapDefined m (scaleQuad D q) := by
  intro q hq
  obtain ⟨h0, h1, h2, h3⟩ := h.defined q hq
  have hd := (h.grid q hq).2
  have key : ∀ i j, Defined (P := P) ⟨r.2, pts⟩ q.depth i j → (m (i * 2 ^ (D - q.depth)) (j * 2 ^ (D - q.depth))).isSome := by
    rintro i j ⟨m0, k, e1, e2⟩
    exact hm _ m0 i j hd e1 (by rw [e2]; rfl)
  exact ⟨key _ _ h0, key _ _ h1, key _ _ h3, key _ _ h2⟩

/-- Sections that are joined really share the edge. -/
structure AdjacentOk (secs : List (Nat → Nat → Nat → Option P)) (nx ny : Nat) : Prop where
  rows : ∀ ab ∈ rowPairs nx ny, ∀ pa pb, secs[ab.1]? = some pa → secs[ab.2]? = some pb →
    ∀ D j, j ≤ 2 ^ D → pa D (2 ^ D) j = pb D 0 j
  cols : ∀ ab ∈ colPairs nx ny, ∀ pa pb, secs[ab.1]? = some pa → secs[ab.2]? = some pb →
    ∀ D i, i ≤ 2 ^ D → pa D i (2 ^ D) = pb D i 0

theorem rowPairs_range {nx ny : Nat} {ab : Nat × Nat} (h : ab ∈ rowPairs nx ny) :
    ab.1 ≠ ab.2 ∧ ab.1 < nx * ny ∧ ab.2 < nx * ny := by
  unfold rowPairs at h
  obtain ⟨i, hi, h⟩ := List.mem_flatMap.1 h
  obtain ⟨j, hj, rfl⟩ := List.mem_map.1 h
  rw [List.mem_range] at hi hj
  have : (j + 1) * nx ≤ ny * nx := Nat.mul_le_mul_right _ hj
  rw [Nat.add_mul, Nat.one_mul, Nat.mul_comm ny] at this
  simp only
  omega

theorem colPairs_range {nx ny : Nat} {ab : Nat × Nat} (h : ab ∈ colPairs nx ny) :
    ab.1 ≠ ab.2 ∧ ab.1 < nx * ny ∧ ab.2 < nx * ny := by
  unfold colPairs at h
  obtain ⟨i, hi, h⟩ := List.mem_flatMap.1 h
  obtain ⟨j, hj, rfl⟩ := List.mem_map.1 h
  rw [List.mem_range] at hi hj
  have : (j + 1 + 1) * nx ≤ ny * nx := Nat.mul_le_mul_right _ (by omega)
  rw [Nat.add_mul, Nat.add_mul, Nat.one_mul, Nat.mul_comm ny] at this
  simp only [Nat.add_mul, Nat.one_mul]
  omega

theorem joinSections_spec {secs : List (Nat → Nat → Nat → Option P)} {pts : List P} {D nx ny : Nat} (hn : secs.length = nx * ny)
    (hadj : AdjacentOk secs nx ny) {ms : List IndexMap} (h : AllLocated secs pts D ms) :
    ∃ ms', joinSections (2 ^ D) nx ny ms = some ms' ∧ AllLocated secs pts D ms' ∧ AllDefined ms ms' := by
  obtain ⟨ms1, e1, l1, d1⟩ := joinFold_spec (joinRows_defined (2 ^ D)) (rowPairs nx ny) ms h (fun ab hab => by
    obtain ⟨h1, h2, h3⟩ := rowPairs_range hab
    exact ⟨h1, by omega, by omega, fun pa pb m1 m2 ea eb la lb => joinRows_located la lb (hadj.rows ab hab pa pb ea eb D)⟩)
  obtain ⟨ms2, e2, l2, d2⟩ := joinFold_spec (joinCols_defined (2 ^ D)) (colPairs nx ny) ms1 l1 (fun ab hab => by
    obtain ⟨h1, h2, h3⟩ := colPairs_range hab
    exact ⟨h1, by omega, by omega, fun pa pb m1 m2 ea eb la lb => joinCols_located la lb (hadj.cols ab hab pa pb ea eb D)⟩)
  exact ⟨ms2, by simp [joinSections, e1, e2], l2, d1.trans d2⟩

/-- the triangles of a section in space -/
theorem toTriangles_located {pt : Nat → Nat → Nat → Option P} {pts : List P} {D : Nat} {m : IndexMap} (h : Located pt pts D m)
    {quads : List Quad} {ts : List Elem} (ht : toTriangles m quads = some ts) :
    ts.map (fun t => t.map (fun k => pts[k]?)) = (quads.flatMap (quadTriangles m)).map (fun t => t.map (fun p => pt D p.1 p.2)) ∧
    ∀ t ∈ ts, ∀ k ∈ t, k < pts.length := by
  have tri : ∀ (t : List Pos) (e : List Nat), t.mapM (fun p => m p.1 p.2) = some e →
      e.map (fun k => pts[k]?) = t.map (fun p => pt D p.1 p.2) ∧ ∀ k ∈ e, k < pts.length := by
    intro t
    induction t with
    | nil => intro e he; cases he; simp
    | cons p t ih =>
      intro e he
      rw [List.mapM_cons] at he
      obtain ⟨k, hk, he⟩ := Option.bind_eq_some_iff.1 he
      obtain ⟨e', he', he⟩ := Option.bind_eq_some_iff.1 he
      cases he
      obtain ⟨_, _, q, hq, hq'⟩ := h _ _ _ hk
      obtain ⟨i1, i2⟩ := ih e' he'
      refine ⟨by simp [hq, hq', i1], fun k' hk' => ?_⟩
      rcases List.mem_cons.1 hk' with rfl | hk'
      · exact (List.getElem?_eq_some_iff.1 hq').1
      · exact i2 k' hk'
  unfold toTriangles at ht
  generalize quads.flatMap (quadTriangles m) = tp at ht
  induction tp generalizing ts with
  | nil => cases ht; simp
  | cons t tp ih =>
    rw [List.mapM_cons] at ht
    obtain ⟨e, he, ht⟩ := Option.bind_eq_some_iff.1 ht
    obtain ⟨ts', hts', ht⟩ := Option.bind_eq_some_iff.1 ht
    cases ht
    obtain ⟨i1, i2⟩ := ih hts'
    obtain ⟨j1, j2⟩ := tri t e he
    refine ⟨by simp only [List.map_cons, i1, j1], fun t' ht' => ?_⟩
    rcases List.mem_cons.1 ht' with rfl | ht'
    · exact j2
    · exact i2 t' ht'

/-- The list of the triangles of one section, at depth `D` with final index map `m`, as grid positions. -/
def sectionTriangles (D : Nat) (m : IndexMap) (quads : List Quad) : List (List Pos) :=
  (quads.map (scaleQuad D)).flatMap (quadTriangles m)

theorem zip_triangles {secs : List (Nat → Nat → Nat → Option P)} {pts : List P} {D : Nat} :
    ∀ (ms : List IndexMap) (rs : List (List Quad × List IndexMap)) (secs : List (Nat → Nat → Nat → Option P)),
      AllLocated secs pts D ms → rs.length = ms.length →
      (∀ (k : Nat) m r, ms[k]? = some m → rs[k]? = some r → ∀ q ∈ r.1, MapDefined m (scaleQuad D q)) →
      ∃ tss, (ms.zip rs).mapM (fun mq => toTriangles mq.1 (mq.2.1.map (scaleQuad D))) = some tss ∧
        tss.flatten.map (fun t => t.map (fun k => pts[k]?)) =
          ((ms.zip (rs.zip secs)).map (fun x => (sectionTriangles D x.1 x.2.1.1).map (fun t => t.map (fun p => x.2.2 D p.1 p.2)))).flatten ∧
        ∀ t ∈ tss.flatten, ∀ k ∈ t, k < pts.length
  | [], rs, secs, h, hl, hd => ⟨[], rfl, by simp, by simp⟩
  | m :: ms, rs, secs, h, hl, hd => by
    obtain ⟨hlen, hloc⟩ := h
    match rs, secs, hl, hlen with
    | r :: rs, pt :: secs, hl, hlen =>
      have hd0 : ∀ q ∈ r.1, MapDefined m (scaleQuad D q) := hd 0 m r rfl rfl
      obtain ⟨ts, hts⟩ := toTriangles_total (m := m) (quads := r.1.map (scaleQuad D)) (fun q hq => by
        obtain ⟨q', hq', rfl⟩ := List.mem_map.1 hq
        exact hd0 q' hq')
      obtain ⟨i1, i2⟩ := toTriangles_located (hloc 0 m pt rfl rfl) hts
      obtain ⟨tss, j1, j2, j3⟩ := zip_triangles (secs := secs) ms rs secs
        ⟨by simpa using hlen, fun k m' pt' h1 h2 => hloc (k + 1) m' pt' (by simpa using h1) (by simpa using h2)⟩ (by simpa using hl)
        (fun k m' r' h1 h2 => hd (k + 1) m' r' (by simpa using h1) (by simpa using h2))
      refine ⟨ts :: tss, by simp [hts, j1], ?_, ?_⟩
      · rw [List.flatten_cons, List.map_append, i1, j2]
        simp [sectionTriangles]
      · intro t ht
        rw [List.flatten_cons] at ht
        rcases List.mem_append.1 ht with ht | ht
        · exact i2 t ht
        · exact j3 t ht

theorem quadTriangles_length {m : IndexMap} {q : Quad} {t : List Pos} (h : t ∈ quadTriangles m q) : t.length = 3 := by
  unfold quadTriangles threeTriangles at h
  dsimp only at h
  split at h
  · simp only [List.mem_cons, List.not_mem_nil, or_false] at h
    rcases h with rfl | rfl | rfl <;> rfl
  · split at h
    · simp only [List.mem_cons, List.not_mem_nil, or_false] at h
      rcases h with rfl | rfl | rfl <;> rfl
    · split at h
      · simp only [List.mem_cons, List.not_mem_nil, or_false] at h
        rcases h with rfl | rfl | rfl <;> rfl
      · split at h
        · simp only [List.mem_cons, List.not_mem_nil, or_false] at h
          rcases h with rfl | rfl | rfl <;> rfl
        · simp only [List.mem_cons, List.not_mem_nil, or_false] at h
          rcases h with rfl | rfl <;> rfl

/-- What is known before the sections are joined. -/
theorem rawMesh_front (split : P → P → P → P → Bool × Bool) (fuel start : Nat) {secs : List (Nat → Nat → Nat → Option P)} {nx ny : Nat}
    (name : Option String) (hc : ∀ pt ∈ secs, Consistent pt)
    (hp : ∀ pt ∈ secs, ∀ d i j, i ≤ 2 ^ d → j ≤ 2 ^ d → (pt d i j).isSome)
    (hr : ∀ pt ∈ secs, ∃ quads, refineAll (decision pt split) fuel start = some quads) (hn : secs.length = nx * ny) :
    ∃ (rs : List (List Quad × List IndexMap)) (pts : List P) (D : Nat) (ms0 : List IndexMap),
      rs.length = secs.length ∧
      (∀ (k : Nat) pt r, secs[k]? = some pt → rs[k]? = some r → SectionDone pt split fuel start pts r) ∧
      (∀ r ∈ rs, r.2.length ≤ D + 1) ∧ AllLocated secs pts D ms0 ∧
      (∀ (k : Nat) m r, ms0[k]? = some m → rs[k]? = some r → ∀ q ∈ r.1, MapDefined m (scaleQuad D q)) ∧
      ∀ ms tss, joinSections (2 ^ D) nx ny ms0 = some ms →
        (ms.zip rs).mapM (fun mq => toTriangles mq.1 (mq.2.1.map (scaleQuad D))) = some tss →
        rawMesh split fuel start secs nx ny name = some
          { points := pts, lines := [], triangles := tss.flatten, physLines := [],
            physTris := name.elim [] (fun n => [(n, List.range tss.flatten.length)]) } := by
  obtain ⟨⟨rs, pts⟩, h1⟩ := meshSections_total split fuel start secs [] hc hp hr
  obtain ⟨-, hl, hdone⟩ := meshSections_spec split fuel start secs [] rs pts hc h1
  generalize hD : (rs.map (fun s => s.2.length - 1)).foldl max 0 = D
  have hmax : ∀ r ∈ rs, r.2.length ≤ D + 1 := by
    intro r hr
    have := (foldl_max_ge (rs.map (fun s => s.2.length - 1)) 0).2 (r.2.length - 1) (List.mem_map.2 ⟨r, hr, rfl⟩)
    omega
  have hsec : ∀ r ∈ rs, ∃ pt ∈ secs, SectionDone pt split fuel start pts r := by
    intro r hr
    obtain ⟨k, hk⟩ := List.getElem?_of_mem hr
    have hkl := (List.getElem?_eq_some_iff.1 hk).1
    have e : secs[k]? = some (secs[k]'(by omega)) := List.getElem?_eq_getElem (by omega)
    exact ⟨_, List.mem_of_getElem? e, hdone k _ r e hk⟩
  obtain ⟨ms0, hms0⟩ := mapM_isSome (f := fun s : List Quad × List IndexMap => normalizeMap D start s.2) (l := rs) (fun r hr => by
    obtain ⟨pt, hpt, hd⟩ := hsec r hr
    obtain ⟨m, hm, _⟩ := normalizeMap_spec (start := start) (hc pt hpt) hd.sound (hmax r hr) (by have := hd.deep; have := hmax r hr; omega)
    exact ⟨m, hm⟩)
  have hml := mapM_length hms0
  have hnorm : ∀ (k : Nat) m pt r, ms0[k]? = some m → secs[k]? = some pt → rs[k]? = some r →
      Located pt pts D m ∧ ∀ q ∈ r.1, MapDefined m (scaleQuad D q) := by
    intro k m pt r hm hpt hr
    have hd := hdone k pt r hpt hr
    have hmr := hmax r (List.mem_of_getElem? hr)
    obtain ⟨m', e1, e2, e3⟩ := normalizeMap_spec (start := start) (hc pt (List.mem_of_getElem? hpt)) hd.sound hmr (by have := hd.deep; omega)
    have := mapM_getElem? hms0 k
    rw [hm, hr] at this
    simp only [Option.bind_some] at this
    rw [e1] at this
    cases this
    exact ⟨e2, normalized_defined hd e3⟩
  have hall : AllLocated secs pts D ms0 := by
    refine ⟨by omega, fun k m pt hm hpt => ?_⟩
    have hkl := (List.getElem?_eq_some_iff.1 hm).1
    have e : rs[k]? = some (rs[k]'(by omega)) := List.getElem?_eq_getElem (by omega)
    exact (hnorm k m pt _ hm hpt e).1
  refine ⟨rs, pts, D, ms0, hl, hdone, hmax, hall, fun k m r hm hr => ?_, fun ms tss e2 h5 => ?_⟩
  · have hkl := (List.getElem?_eq_some_iff.1 hr).1
    have es : secs[k]? = some (secs[k]'(by omega)) := List.getElem?_eq_getElem (by omega)
    exact (hnorm k _ _ r hm es hr).2
  · unfold rawMesh
    rw [h1, Option.bind_some]
    simp only [hD]
    rw [hms0, Option.bind_some, if_pos (by omega), e2, Option.bind_some, h5]
    rfl

theorem definedAfterJoin {D : Nat} {ms0 ms : List IndexMap} {rs : List (List Quad × List IndexMap)} (hl : rs.length = ms0.length)
    (d2 : AllDefined ms0 ms)
    (h : ∀ (k : Nat) m r, ms0[k]? = some m → rs[k]? = some r → ∀ q ∈ r.1, MapDefined m (scaleQuad D q)) :
    ∀ (k : Nat) m r, ms[k]? = some m → rs[k]? = some r → ∀ q ∈ r.1, MapDefined m (scaleQuad D q) := by
  intro k m r hm hr q hq
  have hkl := (List.getElem?_eq_some_iff.1 hr).1
  have e0 : ms0[k]? = some (ms0[k]'(by omega)) := List.getElem?_eq_getElem (by omega)
  obtain ⟨m', h3, h4⟩ := d2.2 k _ e0
  rw [hm] at h3
  cases h3
  obtain ⟨c0, c1, c2, c3⟩ := h k _ r e0 hr q hq
  exact ⟨h4 _ _ c0, h4 _ _ c1, h4 _ _ c2, h4 _ _ c3⟩

/-- **The raw mesh of a surface exists**, whatever edges are joined. -/
theorem rawMesh_total (split : P → P → P → P → Bool × Bool) (fuel start : Nat) {secs : List (Nat → Nat → Nat → Option P)} {nx ny : Nat}
    (name : Option String) (hc : ∀ pt ∈ secs, Consistent pt)
    (hp : ∀ pt ∈ secs, ∀ d i j, i ≤ 2 ^ d → j ≤ 2 ^ d → (pt d i j).isSome)
    (hr : ∀ pt ∈ secs, ∃ quads, refineAll (decision pt split) fuel start = some quads) (hn : secs.length = nx * ny) :
    ∃ mesh : Mesh P, rawMesh split fuel start secs nx ny name = some mesh ∧
      (∀ t ∈ mesh.triangles, t.length = 3 ∧ ∀ k ∈ t, k < mesh.points.length) ∧ mesh.lines = [] ∧ mesh.physLines = [] ∧
      mesh.lineCols = 2 ∧ mesh.physTris = name.elim [] (fun n => [(n, List.range mesh.triangles.length)]) := by
  obtain ⟨rs, pts, D, ms0, hl, hdone, hmax, hall, hdef, hfin⟩ := rawMesh_front split fuel start name hc hp hr hn
  have hall' : AllLocated (secs.map (fun _ _ _ _ => some ())) (List.replicate pts.length ()) D ms0 := by
    refine ⟨by simp [hall.1], fun k m pt hm hpt => ?_⟩
    have hkl := (List.getElem?_eq_some_iff.1 hm).1
    have hml := hall.1
    have es : secs[k]? = some (secs[k]'(by omega)) := List.getElem?_eq_getElem (by omega)
    rw [List.getElem?_map, es] at hpt
    cases hpt
    intro i j x hx
    obtain ⟨h1, h2, p, _, h4⟩ := hall.2 k m _ hm es i j x hx
    exact ⟨h1, h2, (), rfl, by rw [List.getElem?_replicate, if_pos (List.getElem?_eq_some_iff.1 h4).1]⟩
  obtain ⟨ms, e2, l2, d2⟩ := joinSections_spec (nx := nx) (ny := ny) (by simp [hn])
    ⟨fun ab _ pa pb ha hb D j _ => by
      rw [List.getElem?_map] at ha hb
      obtain ⟨_, _, rfl⟩ := Option.map_eq_some_iff.1 ha
      obtain ⟨_, _, rfl⟩ := Option.map_eq_some_iff.1 hb
      rfl, fun ab _ pa pb ha hb D j _ => by
      rw [List.getElem?_map] at ha hb
      obtain ⟨_, _, rfl⟩ := Option.map_eq_some_iff.1 ha
      obtain ⟨_, _, rfl⟩ := Option.map_eq_some_iff.1 hb
      rfl⟩ hall'
  have hml := hall.1
  have hd2 := definedAfterJoin (by omega) d2 hdef
  obtain ⟨tss, h5, h6, h7⟩ := zip_triangles (secs := secs.map (fun _ _ _ _ => some ())) ms rs _ l2 (by rw [d2.1]; omega) hd2
  refine ⟨_, hfin ms tss e2 h5, fun t ht => ⟨?_, fun k hk => by simpa using h7 t ht k hk⟩, rfl, rfl, rfl, rfl⟩
  simp only at ht
  have hm := List.mem_map_of_mem (f := fun t => List.map (fun k => (List.replicate pts.length ())[k]?) t) ht
  rw [h6] at hm
  obtain ⟨l, hl1, hl2⟩ := List.mem_flatten.1 hm
  obtain ⟨x, _, rfl⟩ := List.mem_map.1 hl1
  obtain ⟨t', ht', he⟩ := List.mem_map.1 hl2
  have := congrArg List.length he
  simp only [List.length_map] at this
  rw [← this]
  unfold sectionTriangles at ht'
  obtain ⟨q, _, hq⟩ := List.mem_flatMap.1 ht'
  exact quadTriangles_length hq

/-- **The raw mesh of a surface.** If the sections are refined to quads, and the sections the mesher joins really share
their edges, then the mesh exists, all indices are in range, and its triangles are, in space, the surface points at the
grid positions of the triangles of the quads of the sections. -/
theorem rawMesh_spec (split : P → P → P → P → Bool × Bool) (fuel start : Nat) {secs : List (Nat → Nat → Nat → Option P)} {nx ny : Nat}
    (name : Option String) (hc : ∀ pt ∈ secs, Consistent pt)
    (hp : ∀ pt ∈ secs, ∀ d i j, i ≤ 2 ^ d → j ≤ 2 ^ d → (pt d i j).isSome)
    (hr : ∀ pt ∈ secs, ∃ quads, refineAll (decision pt split) fuel start = some quads) (hn : secs.length = nx * ny)
    (hadj : AdjacentOk secs nx ny) :
    ∃ (mesh : Mesh P) (D : Nat) (ms : List IndexMap) (rs : List (List Quad)), rawMesh split fuel start secs nx ny name = some mesh ∧
      ms.length = secs.length ∧ rs.length = secs.length ∧
      (∀ (k : Nat) pt r, secs[k]? = some pt → rs[k]? = some r →
        refineAll (decision pt split) fuel start = some r ∧ ∀ q ∈ r, InGrid q ∧ q.depth ≤ D) ∧
      (∀ (k : Nat) m r, ms[k]? = some m → rs[k]? = some r → ∀ q ∈ r, MapDefined m (scaleQuad D q)) ∧
      mesh.triangles.map (fun t => t.map (fun k => mesh.points[k]?)) =
        ((ms.zip (rs.zip secs)).map (fun x => (sectionTriangles D x.1 x.2.1).map (fun t => t.map (fun p => x.2.2 D p.1 p.2)))).flatten ∧
      (∀ t ∈ mesh.triangles, ∀ k ∈ t, k < mesh.points.length) ∧ mesh.lines = [] ∧ mesh.physLines = [] ∧
      mesh.physTris = name.elim [] (fun n => [(n, List.range mesh.triangles.length)]) := by
  obtain ⟨rs, pts, D, ms0, hl, hdone, hmax, hall, hdef0, hfin⟩ := rawMesh_front split fuel start name hc hp hr hn
  obtain ⟨ms, e2, l2, d2⟩ := joinSections_spec hn hadj hall
  have hml := hall.1
  have hdef := definedAfterJoin (by omega) d2 hdef0
  obtain ⟨tss, h5, h6, h7⟩ := zip_triangles (secs := secs) ms rs secs l2 (by rw [d2.1]; omega) hdef
  refine ⟨{ points := pts, lines := [], triangles := tss.flatten, physLines := [],
            physTris := name.elim [] (fun n => [(n, List.range tss.flatten.length)]) }, D, ms, rs.map (·.1), ?_, by rw [d2.1]; omega, by simp [hl], ?_, ?_, ?_, h7, rfl, rfl, rfl⟩
  · exact hfin ms tss e2 h5
  · intro k pt r hpt hr
    rw [List.getElem?_map] at hr
    obtain ⟨r', hr', rfl⟩ := Option.map_eq_some_iff.1 hr
    have hd := hdone k pt r' hpt hr'
    refine ⟨hd.quads, fun q hq => ⟨(hd.grid q hq).1, ?_⟩⟩
    obtain ⟨m, k', hm, _⟩ := (hd.defined q hq).1
    have := (List.getElem?_eq_some_iff.1 hm).1
    have := hmax r' (List.mem_of_getElem? hr')
    simp only at *
    omega
  · intro k m r hm hr
    rw [List.getElem?_map] at hr
    obtain ⟨r', hr', rfl⟩ := Option.map_eq_some_iff.1 hr
    exact hdef k m r' hm hr'
  · rw [h6]
    congr 1
    rw [List.zip_map_left, List.zip_map_right, List.map_map]
    rfl

end SMesh
end Traceon
