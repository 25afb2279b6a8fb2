import Verif.Lemmas.PointStack

/-!
# Sections of a surface: normalising the index maps, joining them, making triangles
-/
namespace Traceon
namespace SMesh
variable {P : Type}

/-! ## normalize_to_depth -/

theorem overlay_located {pt : Nat → Nat → Nat → Option P} (hc : Consistent pt) {pts : List P} {d : Nat} {prev next : IndexMap}
    (h1 : Located pt pts d prev) (h2 : Located pt pts (d + 1) next) : Located pt pts (d + 1) (overlay prev next) := by
  intro i j k hk
  unfold overlay at hk
  split at hk
  · rename_i he
    cases hp : prev (i / 2) (j / 2) with
    | none => rw [hp] at hk; exact h2 i j k (by simpa using hk)
    | some k' =>
      rw [hp] at hk
      simp only [Option.some_or, Option.some.injEq] at hk
      subst hk
      exact refineMap_located hc h1 i j k' (by unfold refineMap; rw [if_pos he]; exact hp)
  · exact h2 i j k hk

theorem overlay_prev {prev next : IndexMap} {i j k : Nat} (h : prev i j = some k) :
    overlay prev next (2 * i) (2 * j) = some k := by
  unfold overlay
  rw [if_pos (by omega), show 2 * i / 2 = i by omega, show 2 * j / 2 = j by omega, h]
  rfl

theorem overlay_next {prev next : IndexMap} {i j : Nat} (h : (next i j).isSome) : (overlay prev next i j).isSome := by
  unfold overlay
  split
  · cases prev (i / 2) (j / 2) <;> simp [h]
  · exact h

theorem foldl_overlay_located {pt : Nat → Nat → Nat → Option P} (hc : Consistent pt) {pts : List P} :
    ∀ (rest : List IndexMap) (acc : IndexMap) (d : Nat), Located pt pts d acc →
      (∀ (n : Nat) m, rest[n]? = some m → Located pt pts (d + 1 + n) m) →
      Located pt pts (d + rest.length) (rest.foldl overlay acc)
  | [], _, _, h, _ => h
  | m :: rest, acc, d, h, hr => by
    have h1 := overlay_located hc h (hr 0 m rfl)
    have := foldl_overlay_located hc rest _ (d + 1) h1 (fun n m' hm' => by
      have := hr (n + 1) m' (by simpa using hm')
      rwa [show d + 1 + (n + 1) = d + 1 + 1 + n by omega] at this)
    rw [List.length_cons, show d + (rest.length + 1) = d + 1 + rest.length by omega]
    exact this

/-- an entry that is there stays there, at the finer depth, with the same number -/
theorem foldl_overlay_acc : ∀ (rest : List IndexMap) (acc : IndexMap) (i j k : Nat), acc i j = some k →
    rest.foldl overlay acc (i * 2 ^ rest.length) (j * 2 ^ rest.length) = some k
  | [], _, i, j, k, h => by simpa using h
  | m :: rest, acc, i, j, k, h => by
    have := foldl_overlay_acc rest (overlay acc m) (2 * i) (2 * j) k (overlay_prev h)
    rw [List.length_cons, Nat.pow_succ, show i * (2 ^ rest.length * 2) = 2 * i * 2 ^ rest.length by
      rw [Nat.mul_comm 2 i, Nat.mul_assoc, Nat.mul_comm 2], show j * (2 ^ rest.length * 2) = 2 * j * 2 ^ rest.length by
      rw [Nat.mul_comm 2 j, Nat.mul_assoc, Nat.mul_comm 2]]
    exact this

theorem foldl_overlay_rest : ∀ (rest : List IndexMap) (acc : IndexMap) (n : Nat) (m : IndexMap) (i j : Nat),
    rest[n]? = some m → (m i j).isSome →
    (rest.foldl overlay acc (i * 2 ^ (rest.length - 1 - n)) (j * 2 ^ (rest.length - 1 - n))).isSome
  | [], _, n, _, _, _, h, _ => by simp at h
  | m0 :: rest, acc, 0, m, i, j, h, hk => by
    simp only [List.getElem?_cons_zero, Option.some.injEq] at h
    subst h
    obtain ⟨k, hk⟩ := Option.isSome_iff_exists.1 (overlay_next (prev := acc) hk)
    have := foldl_overlay_acc rest (overlay acc m0) i j k hk
    simp only [List.length_cons, Nat.add_sub_cancel, Nat.sub_zero, List.foldl_cons]
    rw [this]; rfl
  | m0 :: rest, acc, n + 1, m, i, j, h, hk => by
    have := foldl_overlay_rest rest (overlay acc m0) n m i j (by simpa using h) hk
    rw [show (m0 :: rest).length - 1 - (n + 1) = rest.length - 1 - n by simp; omega]
    exact this

/-- `normalize_to_depth`: the result is located, and has an entry for every entry there was. -/
theorem normalizeMap_spec {pt : Nat → Nat → Nat → Option P} (hc : Consistent pt) {ls : List IndexMap} {pts : List P}
    (hs : Sound pt ⟨ls, pts⟩) {depth start : Nat} (hl : ls.length ≤ depth + 1) (hst : start ≤ depth) :
    ∃ m, normalizeMap depth start ls = some m ∧ Located pt pts depth m ∧
      ∀ (d : Nat) m0 i j, start ≤ d → ls[d]? = some m0 → (m0 i j).isSome →
        (m (i * 2 ^ (depth - d)) (j * 2 ^ (depth - d))).isSome := by
  have hlen := addLevels_length (depth + 1 - ls.length) ls
  have hs' := addLevels_sound hc (pts := pts) (depth + 1 - ls.length) ls hs
  have hget : ∀ d, d < ls.length → (addLevels (depth + 1 - ls.length) ls)[d]? = ls[d]? := fun d hd => addLevels_get _ _ _ hd
  unfold normalizeMap
  simp only []
  rw [if_pos (by omega)]
  cases hdrop : (addLevels (depth + 1 - ls.length) ls).drop start with
  | nil =>
    have := congrArg List.length hdrop
    rw [List.length_drop] at this
    simp at this
    omega
  | cons m rest =>
    have hdl := congrArg List.length hdrop
    rw [List.length_drop, List.length_cons] at hdl
    have hr : rest.length = depth - start := by omega
    have hm : (addLevels (depth + 1 - ls.length) ls)[start]? = some m := by
      have := congrArg (fun l => l[0]?) hdrop
      simpa using this
    have hrest : ∀ n : Nat, rest[n]? = (addLevels (depth + 1 - ls.length) ls)[start + 1 + n]? := by
      intro n
      have := congrArg (fun l => l[n + 1]?) hdrop
      simp only [List.getElem?_drop, List.getElem?_cons_succ] at this
      rw [show start + 1 + n = start + (n + 1) by omega]
      exact this.symm
    refine ⟨_, rfl, ?_, ?_⟩
    · have := foldl_overlay_located hc rest m start (hs' start m hm) (fun n m' hm' => by
        rw [hrest] at hm'
        exact hs' _ _ hm')
      rwa [hr, show start + (depth - start) = depth by omega] at this
    · intro d m0 i j hd hm0 hk
      have hdl' := (List.getElem?_eq_some_iff.1 hm0).1
      rw [← hget d hdl'] at hm0
      rcases Nat.eq_or_lt_of_le hd with rfl | hlt
      · rw [hm] at hm0
        cases hm0
        obtain ⟨k, hk⟩ := Option.isSome_iff_exists.1 hk
        have := foldl_overlay_acc rest m i j k hk
        rw [hr] at this
        rw [this]; rfl
      · have h1 : rest[d - start - 1]? = some m0 := by
          rw [hrest, show start + 1 + (d - start - 1) = d by omega]; exact hm0
        have := foldl_overlay_rest rest m _ m0 i j h1 hk
        rwa [show rest.length - 1 - (d - start - 1) = depth - d by omega] at this

/-! ## Triangles -/

theorem absDiff_mid {a b : Nat} (h : absDiff a b > 1) : min a b < (a + b) / 2 ∧ (a + b) / 2 < max a b := by
  unfold absDiff at h
  omega

theorem mapM_tri {m : IndexMap} {a b c : Pos} (ha : (m a.1 a.2).isSome) (hb : (m b.1 b.2).isSome) (hc : (m c.1 c.2).isSome) :
    ∃ t, [a, b, c].mapM (fun p => m p.1 p.2) = some t := by
  refine mapM_isSome (fun p hp => ?_)
  simp only [List.mem_cons, List.not_mem_nil, or_false] at hp
  rcases hp with rfl | rfl | rfl
  · exact Option.isSome_iff_exists.1 ha
  · exact Option.isSome_iff_exists.1 hb
  · exact Option.isSome_iff_exists.1 hc

/-- The triangles of a quad only use its corners and middles of edges that exist. -/
theorem quadTriangles_defined {m : IndexMap} {q : Quad} (h0 : (m q.i0 q.j0).isSome) (h1 : (m q.i0 q.j1).isSome)
    (h2 : (m q.i1 q.j1).isSome) (h3 : (m q.i1 q.j0).isSome) :
    ∀ t ∈ quadTriangles m q, ∃ e, t.mapM (fun p => m p.1 p.2) = some e := by
  have three : ∀ p0 p1 p2 p3 : Pos, hasMid m p0 p1 = true → (m p0.1 p0.2).isSome → (m p1.1 p1.2).isSome →
      (m p2.1 p2.2).isSome → (m p3.1 p3.2).isSome → ∀ t ∈ threeTriangles p0 p1 p2 p3, ∃ e, t.mapM (fun p => m p.1 p.2) = some e := by
    intro p0 p1 p2 p3 hm a0 a1 a2 a3 t ht
    have hmid : (m (midPos p0 p1).1 (midPos p0 p1).2).isSome := by
      simp only [hasMid, Bool.and_eq_true] at hm; exact hm.2
    simp only [threeTriangles, List.mem_cons, List.not_mem_nil, or_false] at ht
    rcases ht with rfl | rfl | rfl
    · exact mapM_tri a0 hmid a3
    · exact mapM_tri hmid a2 a3
    · exact mapM_tri hmid a1 a2
  intro t ht
  unfold quadTriangles at ht
  simp only [] at ht
  split at ht
  · rename_i hm; exact three _ _ _ _ hm h0 h1 h2 h3 t ht
  split at ht
  · rename_i hm; exact three _ _ _ _ hm h1 h2 h3 h0 t ht
  split at ht
  · rename_i hm; exact three _ _ _ _ hm h2 h3 h0 h1 t ht
  split at ht
  · rename_i hm; exact three _ _ _ _ hm h3 h0 h1 h2 t ht
  · simp only [List.mem_cons, List.not_mem_nil, or_false] at ht
    rcases ht with rfl | rfl
    · exact mapM_tri h0 h1 h2
    · exact mapM_tri h0 h2 h3

/-- all four corners of a quad have an entry in the index map -/
def MapDefined (m : IndexMap) (q : Quad) : Prop :=
  (m q.i0 q.j0).isSome ∧ (m q.i0 q.j1).isSome ∧ (m q.i1 q.j1).isSome ∧ (m q.i1 q.j0).isSome

theorem toTriangles_total {m : IndexMap} {quads : List Quad} (h : ∀ q ∈ quads, MapDefined m q) :
    ∃ ts, toTriangles m quads = some ts := by
  refine mapM_isSome (fun t ht => ?_)
  obtain ⟨q, hq, ht⟩ := List.mem_flatMap.1 ht
  obtain ⟨h0, h1, h2, h3⟩ := h q hq
  exact quadTriangles_defined h0 h1 h2 h3 t ht

/-! ## Joining sections -/

theorem joinRows_located {pa pb : Nat → Nat → Nat → Option P} {pts : List P} {D : Nat} {m1 m2 : IndexMap}
    (h1 : Located pa pts D m1) (h2 : Located pb pts D m2) (hadj : ∀ j, j ≤ 2 ^ D → pa D (2 ^ D) j = pb D 0 j) :
    Located pa pts D (joinRows (2 ^ D) m1 m2).1 ∧ Located pb pts D (joinRows (2 ^ D) m1 m2).2 := by
  have key : ∀ j k, (m2 0 j).or (m1 (2 ^ D) j) = some k → j ≤ 2 ^ D ∧ ∃ p, pb D 0 j = some p ∧ pts[k]? = some p := by
    intro j k hk
    cases h : m2 0 j with
    | some k' =>
      rw [h] at hk
      simp only [Option.some_or, Option.some.injEq] at hk
      subst hk
      exact (h2 0 j k' h).2
    | none =>
      rw [h] at hk
      simp only [Option.none_or] at hk
      obtain ⟨_, hj, p, hp, hq⟩ := h1 _ j k hk
      exact ⟨hj, p, (hadj j hj).symm.trans hp, hq⟩
  constructor
  · intro i j k hk
    simp only [joinRows] at hk
    split at hk
    · rename_i hi
      subst hi
      obtain ⟨hj, p, hp, hq⟩ := key j k hk
      exact ⟨Nat.le_refl _, hj, p, (hadj j hj).trans hp, hq⟩
    · exact h1 i j k hk
  · intro i j k hk
    simp only [joinRows] at hk
    split at hk
    · rename_i hi
      subst hi
      obtain ⟨hj, p, hp, hq⟩ := key j k hk
      exact ⟨Nat.zero_le _, hj, p, hp, hq⟩
    · exact h2 i j k hk

theorem joinCols_located {pa pb : Nat → Nat → Nat → Option P} {pts : List P} {D : Nat} {m1 m2 : IndexMap}
    (h1 : Located pa pts D m1) (h2 : Located pb pts D m2) (hadj : ∀ i, i ≤ 2 ^ D → pa D i (2 ^ D) = pb D i 0) :
    Located pa pts D (joinCols (2 ^ D) m1 m2).1 ∧ Located pb pts D (joinCols (2 ^ D) m1 m2).2 := by
  have key : ∀ i k, (m2 i 0).or (m1 i (2 ^ D)) = some k → i ≤ 2 ^ D ∧ ∃ p, pb D i 0 = some p ∧ pts[k]? = some p := by
    intro i k hk
    cases h : m2 i 0 with
    | some k' =>
      rw [h] at hk
      simp only [Option.some_or, Option.some.injEq] at hk
      subst hk
      obtain ⟨ha, _, hb⟩ := h2 i 0 k' h
      exact ⟨ha, hb⟩
    | none =>
      rw [h] at hk
      simp only [Option.none_or] at hk
      obtain ⟨hi, _, p, hp, hq⟩ := h1 i _ k hk
      exact ⟨hi, p, (hadj i hi).symm.trans hp, hq⟩
  constructor
  · intro i j k hk
    simp only [joinCols] at hk
    split at hk
    · rename_i hj
      subst hj
      obtain ⟨hi, p, hp, hq⟩ := key i k hk
      exact ⟨hi, Nat.le_refl _, p, (hadj i hi).trans hp, hq⟩
    · exact h1 i j k hk
  · intro i j k hk
    simp only [joinCols] at hk
    split at hk
    · rename_i hj
      subst hj
      obtain ⟨hi, p, hp, hq⟩ := key i k hk
      exact ⟨hi, Nat.zero_le _, p, hp, hq⟩
    · exact h2 i j k hk

theorem joinRows_defined (n : Nat) (m1 m2 : IndexMap) :
    (∀ i j, (m1 i j).isSome → ((joinRows n m1 m2).1 i j).isSome) ∧ (∀ i j, (m2 i j).isSome → ((joinRows n m1 m2).2 i j).isSome) := by
  constructor <;> intro i j h <;> simp only [joinRows] <;> split <;> rename_i hi
  · subst hi; simp [h]
  · exact h
  · subst hi; simp [h]
  · exact h

theorem joinCols_defined (n : Nat) (m1 m2 : IndexMap) :
    (∀ i j, (m1 i j).isSome → ((joinCols n m1 m2).1 i j).isSome) ∧ (∀ i j, (m2 i j).isSome → ((joinCols n m1 m2).2 i j).isSome) := by
  constructor <;> intro i j h <;> simp only [joinCols] <;> split <;> rename_i hi
  · subst hi; simp [h]
  · exact h
  · subst hi; simp [h]
  · exact h

/-- all index maps located (each with respect to its own section) -/
def AllLocated (pts' : List (Nat → Nat → Nat → Option P)) (pts : List P) (D : Nat) (ms : List IndexMap) : Prop :=
  ms.length = pts'.length ∧ ∀ (k : Nat) m pt, ms[k]? = some m → pts'[k]? = some pt → Located pt pts D m

/-- entries are never lost -/
def AllDefined (ms ms' : List IndexMap) : Prop :=
  ms'.length = ms.length ∧ ∀ (k : Nat) m, ms[k]? = some m → ∃ m', ms'[k]? = some m' ∧ ∀ i j, (m i j).isSome → (m' i j).isSome

theorem AllDefined.refl (ms : List IndexMap) : AllDefined ms ms := ⟨rfl, fun _ m h => ⟨m, h, fun _ _ h => h⟩⟩

theorem AllDefined.trans {a b c : List IndexMap} (h : AllDefined a b) (h' : AllDefined b c) : AllDefined a c := by
  refine ⟨h'.1.trans h.1, fun k m hm => ?_⟩
  obtain ⟨m1, h1, h2⟩ := h.2 k m hm
  obtain ⟨m2, h3, h4⟩ := h'.2 k m1 h1
  exact ⟨m2, h3, fun i j h => h4 i j (h2 i j h)⟩

theorem joinAt_spec {f : IndexMap → IndexMap → IndexMap × IndexMap} {secs : List (Nat → Nat → Nat → Option P)} {pts : List P}
    {D : Nat} {ms : List IndexMap} (hms : AllLocated secs pts D ms) {a b : Nat} (hab : a ≠ b) (ha : a < ms.length) (hb : b < ms.length)
    (hf : ∀ m1 m2, (∀ i j, (m1 i j).isSome → ((f m1 m2).1 i j).isSome) ∧ (∀ i j, (m2 i j).isSome → ((f m1 m2).2 i j).isSome))
    (hl : ∀ pa pb m1 m2, secs[a]? = some pa → secs[b]? = some pb → Located pa pts D m1 → Located pb pts D m2 →
      Located pa pts D (f m1 m2).1 ∧ Located pb pts D (f m1 m2).2) :
    ∃ ms', joinAt f ms (a, b) = some ms' ∧ AllLocated secs pts D ms' ∧ AllDefined ms ms' := by
  have hla : a < secs.length := by rw [← hms.1]; exact ha
  have hlb : b < secs.length := by rw [← hms.1]; exact hb
  have e1 : ms[a]? = some ms[a] := List.getElem?_eq_getElem ha
  have e2 : ms[b]? = some ms[b] := List.getElem?_eq_getElem hb
  have e3 : secs[a]? = some secs[a] := List.getElem?_eq_getElem hla
  have e4 : secs[b]? = some secs[b] := List.getElem?_eq_getElem hlb
  obtain ⟨l1, l2⟩ := hl _ _ _ _ e3 e4 (hms.2 a _ _ e1 e3) (hms.2 b _ _ e2 e4)
  refine ⟨(ms.set a (f ms[a] ms[b]).1).set b (f ms[a] ms[b]).2,
    by simp only [joinAt, e1, e2, Option.bind_some, Option.map_some], ⟨by simp [hms.1], ?_⟩, ⟨by simp, ?_⟩⟩
  · intro k m pt hm hpt
    rw [List.getElem?_set, List.getElem?_set] at hm
    split at hm
    · rename_i hk
      subst hk
      rw [e4] at hpt
      cases hpt
      simp only [List.length_set, hb, if_true, Option.some.injEq] at hm
      subst hm; exact l2
    · split at hm
      · rename_i hk
        subst hk
        rw [e3] at hpt
        cases hpt
        simp only [ha, if_true, Option.some.injEq] at hm
        subst hm; exact l1
      · exact hms.2 k m pt hm hpt
  · intro k m hm
    rw [List.getElem?_set, List.getElem?_set]
    split
    · rename_i hk
      subst hk
      rw [e2] at hm
      cases hm
      exact ⟨(f ms[a] ms[b]).2, by simp [hb], (hf _ _).2⟩
    · split
      · rename_i hk
        subst hk
        rw [e1] at hm
        cases hm
        exact ⟨(f ms[a] ms[b]).1, by simp [ha], (hf _ _).1⟩
      · exact ⟨m, hm, fun _ _ h => h⟩

theorem joinFold_spec {f : IndexMap → IndexMap → IndexMap × IndexMap} {secs : List (Nat → Nat → Nat → Option P)} {pts : List P}
    {D : Nat} (hf : ∀ m1 m2, (∀ i j, (m1 i j).isSome → ((f m1 m2).1 i j).isSome) ∧ (∀ i j, (m2 i j).isSome → ((f m1 m2).2 i j).isSome)) :
    ∀ (pairs : List (Nat × Nat)) (ms : List IndexMap), AllLocated secs pts D ms →
      (∀ ab ∈ pairs, ab.1 ≠ ab.2 ∧ ab.1 < secs.length ∧ ab.2 < secs.length ∧
        ∀ pa pb m1 m2, secs[ab.1]? = some pa → secs[ab.2]? = some pb → Located pa pts D m1 → Located pb pts D m2 →
          Located pa pts D (f m1 m2).1 ∧ Located pb pts D (f m1 m2).2) →
      ∃ ms', pairs.foldlM (joinAt f) ms = some ms' ∧ AllLocated secs pts D ms' ∧ AllDefined ms ms'
  | [], ms, h, _ => ⟨ms, rfl, h, AllDefined.refl _⟩
  | ab :: pairs, ms, h, hp => by
    obtain ⟨h1, h2, h3, h4⟩ := hp ab (List.mem_cons_self ..)
    obtain ⟨ms1, e1, l1, d1⟩ := joinAt_spec h h1 (by rw [h.1]; exact h2) (by rw [h.1]; exact h3) hf h4
    obtain ⟨ms2, e2, l2, d2⟩ := joinFold_spec hf pairs ms1 l1 (fun ab' hab => hp ab' (List.mem_cons_of_mem _ hab))
    exact ⟨ms2, by simp [e1, e2], l2, d1.trans d2⟩

/-! ## One section, all sections -/

/-- the quads of one section, without the point table -/
def refineAll (dec : Quad → Option (Bool × Bool)) (fuel start : Nat) : Option (List Quad) :=
  (startQuads start).foldlM (fun acc q => refine dec fuel [q] acc) []

theorem fold_spec {pt : Nat → Nat → Nat → Option P} (hc : Consistent pt) (split : P → P → P → P → Bool × Bool) (fuel : Nat) :
    ∀ (qs : List Quad) (quads : List Quad) (st : PState P) (quads' : List Quad) (st' : PState P), Sound pt st →
      (∀ q ∈ quads, QuadDefined st q) →
      qs.foldlM (fun r q => subdivide pt split fuel [q] r.1 r.2) (quads, st) = some (quads', st') →
      Sound pt st' ∧ Ext st st' ∧ (∀ q ∈ quads', QuadDefined st' q) ∧
        qs.foldlM (fun acc q => refine (decision pt split) fuel [q] acc) quads = some quads'
  | [], quads, st, quads', st', hs, hq, h => by
    cases h
    exact ⟨hs, Ext.refl _, hq, rfl⟩
  | q :: qs, quads, st, quads', st', hs, hq, h => by
    rw [List.foldlM_cons] at h
    obtain ⟨⟨quads1, st1⟩, h1, h⟩ := Option.bind_eq_some_iff.1 h
    obtain ⟨a1, b1, c1, d1⟩ := subdivide_spec hc split _ _ _ _ _ _ hs h1
    obtain ⟨a2, b2, c2, d2⟩ := fold_spec hc split fuel qs _ _ _ _ a1 (d1 hq) h
    refine ⟨a2, b1.trans b2, c2, ?_⟩
    rw [List.foldlM_cons, c1]
    exact d2

theorem fold_total {pt : Nat → Nat → Nat → Option P} (hc : Consistent pt) (split : P → P → P → P → Bool × Bool) (fuel : Nat)
    (hp : ∀ d i j, i ≤ 2 ^ d → j ≤ 2 ^ d → (pt d i j).isSome) :
    ∀ (qs : List Quad) (quads : List Quad) (st : PState P) (quads' : List Quad), Sound pt st → (∀ q ∈ qs, InGrid q) →
      qs.foldlM (fun acc q => refine (decision pt split) fuel [q] acc) quads = some quads' →
      ∃ st', qs.foldlM (fun r q => subdivide pt split fuel [q] r.1 r.2) (quads, st) = some (quads', st')
  | [], quads, st, quads', hs, hg, h => by cases h; exact ⟨st, rfl⟩
  | q :: qs, quads, st, quads', hs, hg, h => by
    rw [List.foldlM_cons] at h
    obtain ⟨quads1, h1, h⟩ := Option.bind_eq_some_iff.1 h
    obtain ⟨st1, e1⟩ := subdivide_total hc split hp fuel [q] quads st quads1 hs
      (fun q' hq' => by rw [List.mem_singleton.1 hq']; exact hg q (List.mem_cons_self ..)) h1
    have a1 := (subdivide_spec hc split _ _ _ _ _ _ hs e1).1
    obtain ⟨st2, e2⟩ := fold_total hc split fuel hp qs quads1 st1 quads' a1 (fun q' hq' => hg q' (List.mem_cons_of_mem _ hq')) h
    exact ⟨st2, by rw [List.foldlM_cons, e1]; exact e2⟩

theorem startQuads_inGrid {start : Nat} {q : Quad} (hq : q ∈ startQuads start) : InGrid q ∧ q.depth = start := by
  unfold startQuads at hq
  obtain ⟨i, hi, hq⟩ := List.mem_flatMap.1 hq
  obtain ⟨j, hj, rfl⟩ := List.mem_map.1 hq
  rw [List.mem_range] at hi hj
  exact ⟨⟨by simp, hi, by simp, hj⟩, rfl⟩

theorem sound_init (pt : Nat → Nat → Nat → Option P) (pts : List P) : Sound pt ⟨[], pts⟩ := by
  intro d m hm; simp at hm

theorem children_depth {q c : Quad} {h v : Bool} (hc : c ∈ children q h v) : c.depth = q.depth + 1 := by
  unfold children at hc
  split at hc
  · simp only [List.mem_cons, List.not_mem_nil, or_false] at hc
    rcases hc with rfl | rfl | rfl | rfl <;> rfl
  · split at hc
    · simp only [List.mem_cons, List.not_mem_nil, or_false] at hc
      rcases hc with rfl | rfl <;> rfl
    · split at hc
      · simp only [List.mem_cons, List.not_mem_nil, or_false] at hc
        rcases hc with rfl | rfl <;> rfl
      · simp at hc

/-- every quad of the refinement is in the grid, at least as deep as the start -/
theorem refine_inGrid (dec : Quad → Option (Bool × Bool)) (start : Nat) :
    ∀ (fuel : Nat) (stack quads quads' : List Quad), (∀ q ∈ stack, InGrid q ∧ start ≤ q.depth) →
      (∀ q ∈ quads, InGrid q ∧ start ≤ q.depth) → refine dec fuel stack quads = some quads' →
      ∀ q ∈ quads', InGrid q ∧ start ≤ q.depth
  | fuel, [], quads, quads', _, hq, h => by
    have : refine dec fuel [] quads = some quads := by cases fuel <;> rfl
    rw [this] at h; cases h; exact hq
  | 0, q :: stack, quads, quads', _, _, h => by cases h
  | fuel + 1, q :: stack, quads, quads', hs, hq, h => by
    simp only [refine] at h
    obtain ⟨hv, _, h⟩ := Option.bind_eq_some_iff.1 h
    have hq0 := hs q (List.mem_cons_self ..)
    split at h
    · refine refine_inGrid dec start fuel _ _ _ (fun q' hq' => ?_) hq h
      rcases List.mem_append.1 hq' with hq' | hq'
      · have hm := List.mem_reverse.1 hq'
        exact ⟨children_inGrid hq0.1 _ _ q' hm, by rw [children_depth hm]; omega⟩
      · exact hs q' (List.mem_cons_of_mem _ hq')
    · refine refine_inGrid dec start fuel _ _ _ (fun q' hq' => hs q' (List.mem_cons_of_mem _ hq')) (fun q' hq' => ?_) h
      rcases List.mem_append.1 hq' with hq' | hq'
      · exact hq q' hq'
      · rw [List.mem_singleton.1 hq']; exact hq0

theorem refineFold_inGrid (dec : Quad → Option (Bool × Bool)) (fuel start : Nat) :
    ∀ (qs quads quads' : List Quad), (∀ q ∈ qs, InGrid q ∧ start ≤ q.depth) → (∀ q ∈ quads, InGrid q ∧ start ≤ q.depth) →
      qs.foldlM (fun acc q => refine dec fuel [q] acc) quads = some quads' → ∀ q ∈ quads', InGrid q ∧ start ≤ q.depth
  | [], quads, quads', _, hq, h => by cases h; exact hq
  | q :: qs, quads, quads', hs, hq, h => by
    rw [List.foldlM_cons] at h
    obtain ⟨quads1, h1, h⟩ := Option.bind_eq_some_iff.1 h
    have := refine_inGrid dec start fuel [q] quads quads1
      (fun q' hq' => by rw [List.mem_singleton.1 hq']; exact hs q (List.mem_cons_self ..)) hq h1
    exact refineFold_inGrid dec fuel start qs quads1 quads' (fun q' hq' => hs q' (List.mem_cons_of_mem _ hq')) this h

/-- What is known of a finished section. -/
structure SectionDone (pt : Nat → Nat → Nat → Option P) (split : P → P → P → P → Bool × Bool) (fuel start : Nat) (pts : List P)
    (r : List Quad × List IndexMap) : Prop where
  sound : Sound pt ⟨r.2, pts⟩
  defined : ∀ q ∈ r.1, QuadDefined (P := P) ⟨r.2, pts⟩ q
  quads : refineAll (decision pt split) fuel start = some r.1
  grid : ∀ q ∈ r.1, InGrid q ∧ start ≤ q.depth

theorem SectionDone.mono {pt : Nat → Nat → Nat → Option P} {split : P → P → P → P → Bool × Bool} {fuel start : Nat} {pts : List P}
    {r : List Quad × List IndexMap} (h : SectionDone pt split fuel start pts r) (t : List P) :
    SectionDone pt split fuel start (pts ++ t) r :=
  ⟨fun d m hm => (h.sound d m hm).mono t,
   fun q hq => (h.defined q hq).mono (st := ⟨r.2, pts⟩) (st' := ⟨r.2, pts ++ t⟩) ⟨⟨t, rfl⟩, fun d m hm => ⟨m, hm, fun _ _ _ h => h⟩⟩, h.quads, h.grid⟩

theorem meshSections_spec (split : P → P → P → P → Bool × Bool) (fuel start : Nat) :
    ∀ (secs : List (Nat → Nat → Nat → Option P)) (pts : List P) (rs : List (List Quad × List IndexMap)) (pts' : List P),
      (∀ pt ∈ secs, Consistent pt) → meshSections split fuel start secs pts = some (rs, pts') →
      (∃ t, pts' = pts ++ t) ∧ rs.length = secs.length ∧
        ∀ (k : Nat) pt r, secs[k]? = some pt → rs[k]? = some r → SectionDone pt split fuel start pts' r
  | [], pts, rs, pts', _, h => by
    cases h
    exact ⟨⟨[], by simp⟩, rfl, fun k pt r h => by simp at h⟩
  | pt :: secs, pts, rs, pts', hc, h => by
    simp only [meshSections] at h
    obtain ⟨⟨quads, st⟩, h1, h⟩ := Option.bind_eq_some_iff.1 h
    obtain ⟨⟨rs0, pts0⟩, h2, h⟩ := Option.map_eq_some_iff.1 h
    cases h
    obtain ⟨a, b, c, d⟩ := fold_spec (hc pt (List.mem_cons_self ..)) split fuel _ _ _ _ _ (sound_init pt pts) (by simp) h1
    obtain ⟨⟨t, ht⟩, hl, hk⟩ := meshSections_spec split fuel start secs _ _ _ (fun p hp => hc p (List.mem_cons_of_mem _ hp)) h2
    obtain ⟨t0, ht0⟩ := b.points
    refine ⟨⟨t0 ++ t, by rw [ht]; simp only at ht0 ⊢; rw [ht0, List.append_assoc]⟩, by simp [hl], fun k pt' r hp hr => ?_⟩
    match k with
    | 0 =>
      simp only [List.getElem?_cons_zero, Option.some.injEq] at hp hr
      subst hp; subst hr
      have hd : SectionDone pt split fuel start st.points (quads, st.levels) :=
        ⟨a, c, d, refineFold_inGrid _ fuel start _ _ _ (fun q hq => ⟨(startQuads_inGrid hq).1, by rw [(startQuads_inGrid hq).2]; omega⟩)
          (by simp) d⟩
      have := hd.mono t
      simp only at ht
      rwa [← ht] at this
    | k + 1 =>
      simp only [List.getElem?_cons_succ] at hp hr
      exact hk k pt' r hp hr

theorem meshSections_total (split : P → P → P → P → Bool × Bool) (fuel start : Nat) :
    ∀ (secs : List (Nat → Nat → Nat → Option P)) (pts : List P), (∀ pt ∈ secs, Consistent pt) →
      (∀ pt ∈ secs, ∀ d i j, i ≤ 2 ^ d → j ≤ 2 ^ d → (pt d i j).isSome) →
      (∀ pt ∈ secs, ∃ quads, refineAll (decision pt split) fuel start = some quads) →
      ∃ r, meshSections split fuel start secs pts = some r
  | [], pts, _, _, _ => ⟨_, rfl⟩
  | pt :: secs, pts, hc, hp, hr => by
    obtain ⟨quads, hq⟩ := hr pt (List.mem_cons_self ..)
    obtain ⟨st, h1⟩ := fold_total (hc pt (List.mem_cons_self ..)) split fuel (hp pt (List.mem_cons_self ..)) _ _ ⟨[], pts⟩ _
      (sound_init pt pts) (fun q hq => (startQuads_inGrid hq).1) hq
    obtain ⟨r, h2⟩ := meshSections_total split fuel start secs st.points (fun p hp => hc p (List.mem_cons_of_mem _ hp))
      (fun p h => hp p (List.mem_cons_of_mem _ h)) (fun p h => hr p (List.mem_cons_of_mem _ h))
    exact ⟨_, by simp only [meshSections, meshSection, h1, Option.bind_some, h2]; rfl⟩

end SMesh
end Traceon
