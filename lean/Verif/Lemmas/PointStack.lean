import Verif.Model.SurfaceMesh
import Verif.Lemmas.List

/-!
# The point table of the surface mesher
-/
namespace Traceon
namespace SMesh
variable {P : Type}

/-- `pt` at a finer depth gives the same points as at the coarser depth -/
def Consistent (pt : Nat → Nat → Nat → Option P) : Prop := ∀ d i j, pt (d + 1) (2 * i) (2 * j) = pt d i j

/-- Every entry of the index map is the number of the point at its grid position. -/
def Located (pt : Nat → Nat → Nat → Option P) (pts : List P) (d : Nat) (m : IndexMap) : Prop :=
  ∀ i j k, m i j = some k → i ≤ 2 ^ d ∧ j ≤ 2 ^ d ∧ ∃ p, pt d i j = some p ∧ pts[k]? = some p

/-- Every entry of every index map is the number of the point at its grid position. -/
def Sound (pt : Nat → Nat → Nat → Option P) (st : PState P) : Prop :=
  ∀ d m, st.levels[d]? = some m → Located pt st.points d m

/-- Nothing that was there is changed. -/
structure Ext (st st' : PState P) : Prop where
  points : ∃ t, st'.points = st.points ++ t
  levels : ∀ (d : Nat) m, st.levels[d]? = some m →
    ∃ m', st'.levels[d]? = some m' ∧ ∀ i j k, m i j = some k → m' i j = some k

theorem Ext.refl (st : PState P) : Ext st st := ⟨⟨[], by simp⟩, fun d m h => ⟨m, h, fun _ _ _ h => h⟩⟩

theorem Ext.trans {a b c : PState P} (h : Ext a b) (h' : Ext b c) : Ext a c := by
  obtain ⟨⟨t, ht⟩, hl⟩ := h
  obtain ⟨⟨t', ht'⟩, hl'⟩ := h'
  refine ⟨⟨t ++ t', by rw [ht', ht, List.append_assoc]⟩, fun d m hm => ?_⟩
  obtain ⟨m', h1, h2⟩ := hl d m hm
  obtain ⟨m'', h3, h4⟩ := hl' d m' h1
  exact ⟨m'', h3, fun i j k h => h4 i j k (h2 i j k h)⟩

theorem Located.mono {pt : Nat → Nat → Nat → Option P} {pts : List P} {d : Nat} {m : IndexMap} (h : Located pt pts d m)
    (t : List P) : Located pt (pts ++ t) d m := by
  intro i j k hk
  obtain ⟨h1, h2, p, h3, h4⟩ := h i j k hk
  refine ⟨h1, h2, p, h3, ?_⟩
  rw [List.getElem?_append_left (List.getElem?_eq_some_iff.1 h4).1]
  exact h4

theorem refineMap_located {pt : Nat → Nat → Nat → Option P} (hc : Consistent pt) {pts : List P} {d : Nat} {m : IndexMap}
    (h : Located pt pts d m) : Located pt pts (d + 1) (refineMap m) := by
  intro i j k hk
  unfold refineMap at hk
  split at hk
  · rename_i he
    obtain ⟨h1, h2, p, h3, h4⟩ := h _ _ _ hk
    refine ⟨by rw [Nat.pow_succ]; omega, by rw [Nat.pow_succ]; omega, p, ?_, h4⟩
    rw [← hc] at h3
    rw [show 2 * (i / 2) = i by omega, show 2 * (j / 2) = j by omega] at h3
    exact h3
  · cases hk

theorem addLevel_sound {pt : Nat → Nat → Nat → Option P} (hc : Consistent pt) {ls : List IndexMap} {pts : List P}
    (h : Sound pt ⟨ls, pts⟩) : Sound pt ⟨addLevel ls, pts⟩ := by
  intro d m hm
  simp only [addLevel] at hm
  rw [List.getElem?_append] at hm
  split at hm
  · exact h d m hm
  · rename_i hd
    rw [List.getElem?_cons] at hm
    split at hm
    · rename_i h0
      have hdl : d = ls.length := by omega
      cases hl : ls.getLast? with
      | none =>
        rw [hl] at hm
        cases hm
        intro i j k hk; cases hk
      | some m0 =>
        rw [hl] at hm
        cases hm
        rw [List.getLast?_eq_getElem?] at hl
        have hpos : 0 < ls.length := by
          rcases Nat.eq_zero_or_pos ls.length with h' | h'
          · rw [List.getElem?_eq_none (by omega)] at hl; cases hl
          · exact h'
        have := refineMap_located hc (h _ _ hl)
        rw [show ls.length - 1 + 1 = d by omega] at this
        exact this
    · simp at hm

theorem addLevels_sound {pt : Nat → Nat → Nat → Option P} (hc : Consistent pt) {pts : List P} :
    ∀ (n : Nat) (ls : List IndexMap), Sound pt ⟨ls, pts⟩ → Sound pt ⟨addLevels n ls, pts⟩
  | 0, _, h => h
  | n + 1, _, h => addLevels_sound hc n _ (addLevel_sound hc h)

theorem addLevel_length (ls : List IndexMap) : (addLevel ls).length = ls.length + 1 := by simp [addLevel]

theorem addLevels_length : ∀ (n : Nat) (ls : List IndexMap), (addLevels n ls).length = ls.length + n
  | 0, _ => rfl
  | n + 1, ls => by rw [addLevels, addLevels_length n, addLevel_length]; omega

theorem addLevel_get {ls : List IndexMap} {d : Nat} (h : d < ls.length) : (addLevel ls)[d]? = ls[d]? := by
  rw [addLevel, List.getElem?_append_left h]

theorem addLevels_get : ∀ (n : Nat) (ls : List IndexMap) (d : Nat), d < ls.length → (addLevels n ls)[d]? = ls[d]?
  | 0, _, _, _ => rfl
  | n + 1, ls, d, h => by
    rw [addLevels, addLevels_get n _ d (by rw [addLevel_length]; omega), addLevel_get h]

theorem setMap_self (m : IndexMap) (i j k : Nat) : setMap m i j k i j = some k := by simp [setMap]

/-- `to_point_index`: the facts. -/
theorem toPointIndex_spec {pt : Nat → Nat → Nat → Option P} (hc : Consistent pt) {st st' : PState P} {d i j k : Nat}
    (hs : Sound pt st) (h : toPointIndex pt st d i j = some (k, st')) :
    Sound pt st' ∧ Ext st st' ∧ d < st'.levels.length ∧ (∃ m, st'.levels[d]? = some m ∧ m i j = some k) ∧
      ∃ p, pt d i j = some p ∧ st'.points[k]? = some p := by
  unfold toPointIndex at h
  split at h
  · rename_i hij
    obtain ⟨m, hm, h⟩ := Option.bind_eq_some_iff.1 h
    have hs' := addLevels_sound hc (pts := st.points) (d + 1 - st.levels.length) st.levels hs
    have hext : Ext st ⟨addLevels (d + 1 - st.levels.length) st.levels, st.points⟩ :=
      ⟨⟨[], by simp⟩, fun d' m' hm' => ⟨m', by
        show (addLevels _ _)[d']? = _
        rw [addLevels_get _ _ _ (List.getElem?_eq_some_iff.1 hm').1]; exact hm', fun _ _ _ h => h⟩⟩
    have hlen := addLevels_length (d + 1 - st.levels.length) st.levels
    cases hk : m i j with
    | some k0 =>
      rw [hk] at h
      cases h
      obtain ⟨h1, h2, p, h3, h4⟩ := hs' d m hm i j k hk
      exact ⟨hs', hext, by show d < (addLevels _ _).length; omega, ⟨m, hm, hk⟩, p, h3, h4⟩
    | none =>
      rw [hk] at h
      obtain ⟨p, hp, h⟩ := Option.map_eq_some_iff.1 h
      cases h
      have hdl : d < (addLevels (d + 1 - st.levels.length) st.levels).length := by omega
      refine ⟨?_, hext.trans ⟨⟨[p], rfl⟩, ?_⟩, by simpa using hdl, ⟨setMap m i j st.points.length, by simp [hdl], setMap_self _ _ _ _⟩, p, hp, by simp⟩
      · intro d' m' hm'
        simp only [List.getElem?_set] at hm'
        split at hm'
        · rename_i hd'
          subst hd'
          simp only [hdl, if_true, Option.some.injEq] at hm'
          subst hm'
          intro a b c hab
          unfold setMap at hab
          split at hab
          · rename_i he
            obtain ⟨rfl, rfl⟩ := he
            cases hab
            exact ⟨hij.1, hij.2, p, hp, by simp⟩
          · exact (hs' d m hm).mono [p] a b c hab
        · exact (hs' d' m' hm').mono [p]
      · intro d' m' hm'
        by_cases hd' : d = d'
        · subst hd'
          have : m' = m := by
            have := hm'.symm.trans hm
            cases this; rfl
          subst this
          refine ⟨setMap m' i j st.points.length, by simp [hdl], fun a b c hab => ?_⟩
          unfold setMap
          split
          · rename_i he
            obtain ⟨rfl, rfl⟩ := he
            rw [hk] at hab; cases hab
          · exact hab
        · exact ⟨m', by simpa [List.getElem?_set, hd'] using hm', fun _ _ _ h => h⟩
  · cases h

/-- looking up a position that was looked up before gives the same number and changes nothing but adds no level -/
theorem toPointIndex_again {pt : Nat → Nat → Nat → Option P} {st : PState P} {d i j k : Nat} {m : IndexMap}
    (hi : i ≤ 2 ^ d) (hj : j ≤ 2 ^ d)
    (hm : st.levels[d]? = some m) (hk : m i j = some k) : toPointIndex pt st d i j = some (k, st) := by
  have hd := (List.getElem?_eq_some_iff.1 hm).1
  unfold toPointIndex
  rw [if_pos ⟨hi, hj⟩, show d + 1 - st.levels.length = 0 by omega]
  simp [addLevels, hm, hk]

theorem toPointIndex_total {pt : Nat → Nat → Nat → Option P} {st : PState P} {d i j : Nat}
    (hi : i ≤ 2 ^ d) (hj : j ≤ 2 ^ d) (hp : (pt d i j).isSome) : (toPointIndex pt st d i j).isSome := by
  unfold toPointIndex
  rw [if_pos ⟨hi, hj⟩]
  have hlen := addLevels_length (d + 1 - st.levels.length) st.levels
  have hdl : d < (addLevels (d + 1 - st.levels.length) st.levels).length := by omega
  simp only []
  rw [List.getElem?_eq_getElem hdl, Option.bind_some]
  cases (addLevels (d + 1 - st.levels.length) st.levels)[d] i j with
  | some k => rfl
  | none =>
    obtain ⟨p, hp⟩ := Option.isSome_iff_exists.1 hp
    simp [hp]

/-- the position is in the table of its depth -/
def Defined (st : PState P) (d i j : Nat) : Prop := ∃ m k, st.levels[d]? = some m ∧ m i j = some k

theorem Defined.mono {st st' : PState P} (h : Ext st st') {d i j : Nat} (hd : Defined st d i j) : Defined st' d i j := by
  obtain ⟨m, k, h1, h2⟩ := hd
  obtain ⟨m', h3, h4⟩ := h.levels d m h1
  exact ⟨m', k, h3, h4 _ _ _ h2⟩

theorem getPoint_spec {pt : Nat → Nat → Nat → Option P} (hc : Consistent pt) {st st' : PState P} {d i j : Nat} {p : P}
    (hs : Sound pt st) (h : getPoint pt st d i j = some (p, st')) :
    Sound pt st' ∧ Ext st st' ∧ Defined st' d i j ∧ pt d i j = some p := by
  unfold getPoint at h
  obtain ⟨⟨k, st1⟩, h1, h⟩ := Option.bind_eq_some_iff.1 h
  obtain ⟨p', hp', h⟩ := Option.map_eq_some_iff.1 h
  cases h
  obtain ⟨h2, h3, _, ⟨m, h4, h5⟩, q, h6, h7⟩ := toPointIndex_spec hc hs h1
  refine ⟨h2, h3, ⟨m, k, h4, h5⟩, ?_⟩
  rw [h6]
  simp only at hp'
  rw [h7] at hp'
  exact hp'

theorem getPoint_total {pt : Nat → Nat → Nat → Option P} (hc : Consistent pt) {st : PState P} (hs : Sound pt st) {d i j : Nat}
    (hi : i ≤ 2 ^ d) (hj : j ≤ 2 ^ d) {p : P} (hp : pt d i j = some p) : ∃ st', getPoint pt st d i j = some (p, st') := by
  obtain ⟨⟨k, st'⟩, h⟩ := Option.isSome_iff_exists.1 (toPointIndex_total (pt := pt) (st := st) hi hj (by rw [hp]; rfl))
  obtain ⟨_, _, _, _, q, h6, h7⟩ := toPointIndex_spec hc hs h
  rw [hp] at h6
  cases h6
  exact ⟨st', by simp [getPoint, h, h7]⟩

/-- all four corners of a quad are in the table -/
def QuadDefined (st : PState P) (q : Quad) : Prop :=
  Defined st q.depth q.i0 q.j0 ∧ Defined st q.depth q.i0 q.j1 ∧ Defined st q.depth q.i1 q.j0 ∧ Defined st q.depth q.i1 q.j1

theorem QuadDefined.mono {st st' : PState P} (h : Ext st st') {q : Quad} (hd : QuadDefined st q) : QuadDefined st' q :=
  ⟨hd.1.mono h, hd.2.1.mono h, hd.2.2.1.mono h, hd.2.2.2.mono h⟩

theorem corners_spec {pt : Nat → Nat → Nat → Option P} (hc : Consistent pt) {st st' : PState P} {q : Quad}
    {c : P × P × P × P} (hs : Sound pt st) (h : corners pt st q = some (c, st')) :
    Sound pt st' ∧ Ext st st' ∧ QuadDefined st' q ∧ pt q.depth q.i0 q.j0 = some c.1 ∧ pt q.depth q.i0 q.j1 = some c.2.1 ∧
      pt q.depth q.i1 q.j0 = some c.2.2.1 ∧ pt q.depth q.i1 q.j1 = some c.2.2.2 := by
  unfold corners at h
  obtain ⟨⟨p1, s1⟩, h1, h⟩ := Option.bind_eq_some_iff.1 h
  obtain ⟨⟨p2, s2⟩, h2, h⟩ := Option.bind_eq_some_iff.1 h
  obtain ⟨⟨p3, s3⟩, h3, h⟩ := Option.bind_eq_some_iff.1 h
  obtain ⟨⟨p4, s4⟩, h4, h⟩ := Option.map_eq_some_iff.1 h
  cases h
  obtain ⟨a1, b1, c1, d1⟩ := getPoint_spec hc hs h1
  obtain ⟨a2, b2, c2, d2⟩ := getPoint_spec hc a1 h2
  obtain ⟨a3, b3, c3, d3⟩ := getPoint_spec hc a2 h3
  obtain ⟨a4, b4, c4, d4⟩ := getPoint_spec hc a3 h4
  have e34 := b4
  have e24 := b3.trans b4
  have e14 := b2.trans e24
  exact ⟨a4, b1.trans e14, ⟨c1.mono e14, c2.mono e24, c3.mono e34, c4⟩, d1, d2, d3, d4⟩

theorem corners_total {pt : Nat → Nat → Nat → Option P} (hc : Consistent pt) {st : PState P} (hs : Sound pt st) {q : Quad}
    (h0 : q.i0 ≤ 2 ^ q.depth) (h1 : q.i1 ≤ 2 ^ q.depth) (h2 : q.j0 ≤ 2 ^ q.depth) (h3 : q.j1 ≤ 2 ^ q.depth)
    {p1 p2 p3 p4 : P} (e1 : pt q.depth q.i0 q.j0 = some p1) (e2 : pt q.depth q.i0 q.j1 = some p2)
    (e3 : pt q.depth q.i1 q.j0 = some p3) (e4 : pt q.depth q.i1 q.j1 = some p4) :
    ∃ st', corners pt st q = some ((p1, p2, p3, p4), st') := by
  obtain ⟨s1, g1⟩ := getPoint_total hc hs h0 h2 e1
  have a1 := (getPoint_spec hc hs g1).1
  obtain ⟨s2, g2⟩ := getPoint_total hc a1 h0 h3 e2
  have a2 := (getPoint_spec hc a1 g2).1
  obtain ⟨s3, g3⟩ := getPoint_total hc a2 h1 h2 e3
  have a3 := (getPoint_spec hc a2 g3).1
  obtain ⟨s4, g4⟩ := getPoint_total hc a3 h1 h3 e4
  exact ⟨s4, by simp [corners, g1, g2, g3, g4]⟩

/-- The split decision at a quad, from the positions of its corners (no state). -/
def decision (pt : Nat → Nat → Nat → Option P) (split : P → P → P → P → Bool × Bool) (q : Quad) : Option (Bool × Bool) :=
  (pt q.depth q.i0 q.j0).bind (fun p1 => (pt q.depth q.i0 q.j1).bind (fun p2 => (pt q.depth q.i1 q.j0).bind (fun p3 =>
    (pt q.depth q.i1 q.j1).map (fun p4 => split p1 p2 p3 p4))))

theorem corners_decision {pt : Nat → Nat → Nat → Option P} (hc : Consistent pt) (split : P → P → P → P → Bool × Bool)
    {st st' : PState P} {q : Quad} {c : P × P × P × P} (hs : Sound pt st) (h : corners pt st q = some (c, st')) :
    decision pt split q = some (split c.1 c.2.1 c.2.2.1 c.2.2.2) := by
  obtain ⟨_, _, _, h1, h2, h3, h4⟩ := corners_spec hc hs h
  simp [decision, h1, h2, h3, h4]

/-- Refinement without the point table: the quads only depend on the positions. -/
def refine (dec : Quad → Option (Bool × Bool)) : Nat → List Quad → List Quad → Option (List Quad)
  | _, [], quads => some quads
  | 0, _ :: _, _ => none
  | fuel + 1, q :: stack, quads =>
    (dec q).bind (fun hv =>
      if hv.1 || hv.2 then refine dec fuel ((children q hv.1 hv.2).reverse ++ stack) quads
      else refine dec fuel stack (quads ++ [q]))

/-- `_subdivide_quads` keeps the table sound, gives the quads of `refine`, and the corners of all the new quads are in
the table. -/
theorem subdivide_spec {pt : Nat → Nat → Nat → Option P} (hc : Consistent pt) (split : P → P → P → P → Bool × Bool) :
    ∀ (fuel : Nat) (stack quads : List Quad) (st : PState P) (quads' : List Quad) (st' : PState P), Sound pt st →
      subdivide pt split fuel stack quads st = some (quads', st') →
      Sound pt st' ∧ Ext st st' ∧ refine (decision pt split) fuel stack quads = some quads' ∧
        ((∀ q ∈ quads, QuadDefined st q) → ∀ q ∈ quads', QuadDefined st' q)
  | fuel, [], quads, st, quads', st', hs, h => by
    have : subdivide pt split fuel [] quads st = some (quads, st) := by cases fuel <;> rfl
    rw [this] at h
    cases h
    refine ⟨hs, Ext.refl _, by cases fuel <;> rfl, fun h => h⟩
  | 0, q :: stack, quads, st, quads', st', hs, h => by cases h
  | fuel + 1, q :: stack, quads, st, quads', st', hs, h => by
    simp only [subdivide] at h
    obtain ⟨⟨c, st1⟩, h1, h⟩ := Option.bind_eq_some_iff.1 h
    obtain ⟨a1, b1, c1, _⟩ := corners_spec hc hs h1
    simp only at h
    simp only [refine, corners_decision hc split hs h1, Option.bind_some]
    split at h <;> rename_i hv
    · rw [if_pos hv]
      obtain ⟨a2, b2, c2, d2⟩ := subdivide_spec hc split fuel _ _ _ _ _ a1 h
      exact ⟨a2, b1.trans b2, c2, fun hq => d2 (fun q hq' => (hq q hq').mono b1)⟩
    · rw [if_neg hv]
      obtain ⟨a2, b2, c2, d2⟩ := subdivide_spec hc split fuel _ _ _ _ _ a1 h
      refine ⟨a2, b1.trans b2, c2, fun hq => d2 (fun q' hq' => ?_)⟩
      rcases List.mem_append.1 hq' with hq' | hq'
      · exact (hq q' hq').mono b1
      · rw [List.mem_singleton.1 hq']; exact c1

/-- the quad lies in the grid of its depth -/
def InGrid (q : Quad) : Prop := q.i0 < q.i1 ∧ q.i1 ≤ 2 ^ q.depth ∧ q.j0 < q.j1 ∧ q.j1 ≤ 2 ^ q.depth

theorem children_inGrid {q : Quad} (hq : InGrid q) (h v : Bool) : ∀ c ∈ children q h v, InGrid c := by
  obtain ⟨h1, h2, h3, h4⟩ := hq
  have hp : 2 ^ (q.depth + 1) = 2 ^ q.depth * 2 := Nat.pow_succ ..
  intro c hc
  unfold children at hc
  split at hc
  · simp only [List.mem_cons, List.not_mem_nil, or_false] at hc
    rcases hc with rfl | rfl | rfl | rfl <;> exact ⟨by simp, by simp only [hp]; omega, by simp, by simp only [hp]; omega⟩
  · split at hc
    · simp only [List.mem_cons, List.not_mem_nil, or_false] at hc
      rcases hc with rfl | rfl <;>
        exact ⟨by simp only; omega, by simp only [hp]; omega, by simp, by simp only [hp]; omega⟩
    · split at hc
      · simp only [List.mem_cons, List.not_mem_nil, or_false] at hc
        rcases hc with rfl | rfl <;>
          exact ⟨by simp, by simp only [hp]; omega, by simp only; omega, by simp only [hp]; omega⟩
      · simp at hc

/-- If the refinement of the positions ends and all points are defined, then so does `_subdivide_quads`. -/
theorem subdivide_total {pt : Nat → Nat → Nat → Option P} (hc : Consistent pt) (split : P → P → P → P → Bool × Bool)
    (hp : ∀ d i j, i ≤ 2 ^ d → j ≤ 2 ^ d → (pt d i j).isSome) :
    ∀ (fuel : Nat) (stack quads : List Quad) (st : PState P) (quads' : List Quad), Sound pt st → (∀ q ∈ stack, InGrid q) →
      refine (decision pt split) fuel stack quads = some quads' →
      ∃ st', subdivide pt split fuel stack quads st = some (quads', st')
  | fuel, [], quads, st, quads', hs, hg, h => by
    have : refine (decision pt split) fuel [] quads = some quads := by cases fuel <;> rfl
    rw [this] at h
    cases h
    exact ⟨st, by cases fuel <;> rfl⟩
  | 0, q :: stack, quads, st, quads', hs, hg, h => by cases h
  | fuel + 1, q :: stack, quads, st, quads', hs, hg, h => by
    obtain ⟨g1, g2, g3, g4⟩ := hg q (List.mem_cons_self ..)
    obtain ⟨p1, e1⟩ := Option.isSome_iff_exists.1 (hp q.depth q.i0 q.j0 (by omega) (by omega))
    obtain ⟨p2, e2⟩ := Option.isSome_iff_exists.1 (hp q.depth q.i0 q.j1 (by omega) (by omega))
    obtain ⟨p3, e3⟩ := Option.isSome_iff_exists.1 (hp q.depth q.i1 q.j0 (by omega) (by omega))
    obtain ⟨p4, e4⟩ := Option.isSome_iff_exists.1 (hp q.depth q.i1 q.j1 (by omega) (by omega))
    obtain ⟨st1, h1⟩ := corners_total hc hs (by omega) (by omega) (by omega) (by omega) e1 e2 e3 e4
    have a1 := (corners_spec hc hs h1).1
    simp only [refine, corners_decision hc split hs h1, Option.bind_some] at h
    simp only [subdivide, h1, Option.bind_some]
    split at h <;> rename_i hv
    · rw [if_pos hv]
      refine subdivide_total hc split hp fuel _ _ _ _ a1 (fun q' hq' => ?_) h
      rcases List.mem_append.1 hq' with hq' | hq'
      · exact children_inGrid ⟨g1, g2, g3, g4⟩ _ _ q' (List.mem_reverse.1 hq')
      · exact hg q' (List.mem_cons_of_mem _ hq')
    · rw [if_neg hv]
      exact subdivide_total hc split hp fuel _ _ _ _ a1 (fun q' hq' => hg q' (List.mem_cons_of_mem _ hq')) h

end SMesh
end Traceon
