import Verif.Props.SurfaceMesh6

/-!
# C19: the sections really are joined; C20: the extra point of an edge is used; C67: name and size of the mesh of a surface
-/
namespace Traceon
namespace SMesh

/-- What joining sections one pair after the other does to the index maps, along the first parameter. -/
theorem joinRows_fold {n : Nat} (hn : n ≠ 0) : ∀ (pairs : List (Nat × Nat)) (ms ms' : List IndexMap),
    (pairs.map Prod.fst).Nodup → (pairs.map Prod.snd).Nodup → (∀ p ∈ pairs, p.1 ≠ p.2) →
    pairs.foldlM (joinAt (joinRows n)) ms = some ms' →
    (∀ k m, ms[k]? = some m → ∃ m', ms'[k]? = some m' ∧
      ∀ i j, ¬(i = n ∧ k ∈ pairs.map Prod.fst) → ¬(i = 0 ∧ k ∈ pairs.map Prod.snd) → m' i j = m i j) ∧
    (∀ p ∈ pairs, ∃ ma mb ma' mb', ms[p.1]? = some ma ∧ ms[p.2]? = some mb ∧ ms'[p.1]? = some ma' ∧ ms'[p.2]? = some mb' ∧
      ∀ j, ma' n j = (mb 0 j).or (ma n j) ∧ mb' 0 j = (mb 0 j).or (ma n j))
  | [], ms, ms', _, _, _, h => by
    cases h
    exact ⟨fun k m hk => ⟨m, hk, fun _ _ _ _ => rfl⟩, fun p hp => absurd hp (by simp)⟩
  | (a, b) :: rest, ms, ms', h1, h2, h3, h => by
    rw [List.foldlM_cons] at h
    obtain ⟨ms1, e1, e2⟩ := Option.bind_eq_some_iff.1 h
    simp only [List.map_cons, List.nodup_cons] at h1 h2
    have hab : a ≠ b := h3 (a, b) (by simp)
    obtain ⟨ma, hma, e1⟩ := Option.bind_eq_some_iff.1 e1
    obtain ⟨mb, hmb, e1⟩ := Option.map_eq_some_iff.1 e1
    simp only at hma hmb e1
    have ga : ms1[a]? = some (joinRows n ma mb).1 := by
      rw [← e1, List.getElem?_set_ne hab.symm, List.getElem?_set_self (List.getElem?_eq_some_iff.1 hma).1]
    have gb : ms1[b]? = some (joinRows n ma mb).2 := by
      rw [← e1, List.getElem?_set_self]
      rw [List.length_set]; exact (List.getElem?_eq_some_iff.1 hmb).1
    have go : ∀ k, k ≠ a → k ≠ b → ms1[k]? = ms[k]? := by
      intro k ka kb
      rw [← e1, List.getElem?_set_ne (Ne.symm kb), List.getElem?_set_ne (Ne.symm ka)]
    obtain ⟨U, J⟩ := joinRows_fold hn rest ms1 ms' h1.2 h2.2 (fun p hp => h3 p (List.mem_cons_of_mem _ hp)) e2
    constructor
    · intro k m hk
      by_cases ka : k = a
      · subst ka
        obtain ⟨m', hm', hu⟩ := U k _ ga
        refine ⟨m', hm', fun i j c1 c2 => ?_⟩
        simp only [List.map_cons, List.mem_cons, true_or, and_true, not_and, not_or] at c1 c2
        rw [hu i j (fun c => c1 c.1) (fun c => (c2 c.1).2 c.2)]
        rw [hma] at hk; cases hk
        simp only [joinRows, if_neg c1]
      · by_cases kb : k = b
        · subst kb
          obtain ⟨m', hm', hu⟩ := U k _ gb
          refine ⟨m', hm', fun i j c1 c2 => ?_⟩
          simp only [List.map_cons, List.mem_cons, true_or, and_true, not_and, not_or] at c1 c2
          rw [hu i j (fun c => (c1 c.1).2 c.2) (fun c => c2 c.1)]
          rw [hmb] at hk; cases hk
          simp only [joinRows, if_neg c2]
        · obtain ⟨m', hm', hu⟩ := U k m (by rw [go k ka kb, hk])
          refine ⟨m', hm', fun i j c1 c2 => hu i j (fun c => c1 ⟨c.1, ?_⟩) (fun c => c2 ⟨c.1, ?_⟩)⟩
          · exact List.mem_cons_of_mem _ c.2
          · exact List.mem_cons_of_mem _ c.2
    · intro p hp
      rcases List.mem_cons.1 hp with rfl | hp
      · obtain ⟨ma', hma', hua⟩ := U a _ ga
        obtain ⟨mb', hmb', hub⟩ := U b _ gb
        refine ⟨ma, mb, ma', mb', hma, hmb, hma', hmb', fun j => ⟨?_, ?_⟩⟩
        · rw [hua n j (fun c => h1.1 c.2) (fun c => hn c.1)]
          simp [joinRows]
        · rw [hub 0 j (fun c => hn c.1.symm) (fun c => h2.1 c.2)]
          simp [joinRows]
      · obtain ⟨mc, md, mc', md', hc, hd, hc', hd', e⟩ := J p hp
        have pf : p.1 ≠ a := fun c => h1.1 (by rw [← c]; exact List.mem_map_of_mem hp)
        have ps : p.2 ≠ b := fun c => h2.1 (by rw [← c]; exact List.mem_map_of_mem hp)
        have hc0 : ∃ m0, ms[p.1]? = some m0 ∧ ∀ j, mc n j = m0 n j := by
          by_cases c : p.1 = b
          · rw [c] at hc ⊢
            rw [gb] at hc; cases hc
            exact ⟨mb, hmb, fun j => by simp [joinRows, hn]⟩
          · exact ⟨mc, by rw [← go _ pf c, hc], fun _ => rfl⟩
        have hd0 : ∃ m0, ms[p.2]? = some m0 ∧ ∀ j, md 0 j = m0 0 j := by
          by_cases c : p.2 = a
          · rw [c] at hd ⊢
            rw [ga] at hd; cases hd
            exact ⟨ma, hma, fun j => by simp [joinRows, hn.symm]⟩
          · exact ⟨md, by rw [← go _ c ps, hd], fun _ => rfl⟩
        obtain ⟨mc0, hmc0, ec⟩ := hc0
        obtain ⟨md0, hmd0, ed⟩ := hd0
        exact ⟨mc0, md0, mc', md', hmc0, hmd0, hc', hd', fun j => by rw [← ec, ← ed]; exact e j⟩

/-- exchange the two parameters -/
def flipMap (m : IndexMap) : IndexMap := fun i j => m j i

theorem joinAt_flip (n : Nat) (ms : List IndexMap) (ab : Nat × Nat) :
    (joinAt (joinCols n) ms ab).map (List.map flipMap) = joinAt (joinRows n) (ms.map flipMap) ab := by
  unfold joinAt
  simp only [List.getElem?_map]
  cases ms[ab.1]? with
  | none => rfl
  | some m1 =>
    cases ms[ab.2]? with
    | none => rfl
    | some m2 =>
      simp only [Option.map_some, Option.bind_some, List.map_set]
      rfl

theorem foldlM_flip (n : Nat) : ∀ (pairs : List (Nat × Nat)) (ms : List IndexMap),
    (pairs.foldlM (joinAt (joinCols n)) ms).map (List.map flipMap) = pairs.foldlM (joinAt (joinRows n)) (ms.map flipMap)
  | [], ms => rfl
  | p :: ps, ms => by
    rw [List.foldlM_cons, List.foldlM_cons, ← joinAt_flip]
    cases h : joinAt (joinCols n) ms p with
    | none => rfl
    | some ms1 => exact foldlM_flip n ps ms1

/-- What joining sections one pair after the other does to the index maps, along the second parameter. -/
theorem joinCols_fold {n : Nat} (hn : n ≠ 0) (pairs : List (Nat × Nat)) (ms ms' : List IndexMap)
    (h1 : (pairs.map Prod.fst).Nodup) (h2 : (pairs.map Prod.snd).Nodup) (h3 : ∀ p ∈ pairs, p.1 ≠ p.2)
    (h : pairs.foldlM (joinAt (joinCols n)) ms = some ms') :
    (∀ k m, ms[k]? = some m → ∃ m', ms'[k]? = some m' ∧
      ∀ i j, ¬(j = n ∧ k ∈ pairs.map Prod.fst) → ¬(j = 0 ∧ k ∈ pairs.map Prod.snd) → m' i j = m i j) ∧
    (∀ p ∈ pairs, ∃ ma mb ma' mb', ms[p.1]? = some ma ∧ ms[p.2]? = some mb ∧ ms'[p.1]? = some ma' ∧ ms'[p.2]? = some mb' ∧
      ∀ i, ma' i n = (mb i 0).or (ma i n) ∧ mb' i 0 = (mb i 0).or (ma i n)) := by
  have hf := foldlM_flip n pairs ms
  rw [h] at hf
  obtain ⟨U, J⟩ := joinRows_fold hn pairs (ms.map flipMap) (ms'.map flipMap) h1 h2 h3 hf.symm
  simp only [List.getElem?_map, Option.map_eq_some_iff] at U J
  constructor
  · intro k m hk
    obtain ⟨_, ⟨m', hm', rfl⟩, hu⟩ := U k (flipMap m) ⟨m, hk, rfl⟩
    exact ⟨m', hm', fun i j c1 c2 => hu j i c1 c2⟩
  · intro p hp
    obtain ⟨_, _, _, _, ⟨ma, a1, rfl⟩, ⟨mb, a2, rfl⟩, ⟨ma', a3, rfl⟩, ⟨mb', a4, rfl⟩, e⟩ := J p hp
    exact ⟨ma, mb, ma', mb', a1, a2, a3, a4, fun i => e i⟩

theorem grid_inj {nx i i' j j' : Nat} (hi : i < nx) (hi' : i' < nx) (h : j * nx + i = j' * nx + i') : i = i' ∧ j = j' := by
  have h1 : (j * nx + i) % nx = i := by rw [Nat.mul_add_mod_self_right, Nat.mod_eq_of_lt hi]
  have h2 : (j' * nx + i') % nx = i' := by rw [Nat.mul_add_mod_self_right, Nat.mod_eq_of_lt hi']
  have e : i = i' := by rw [← h1, h, h2]
  subst e
  refine ⟨rfl, ?_⟩
  exact Nat.eq_of_mul_eq_mul_right (by omega : 0 < nx) (Nat.add_right_cancel h)

theorem nodup_grid {nx : Nat} {I J : List Nat} (hI : I.Nodup) (hJ : J.Nodup) (f : Nat → Nat → Nat)
    (hf : ∀ i ∈ I, ∀ i' ∈ I, ∀ j ∈ J, ∀ j' ∈ J, f i j = f i' j' → i = i' ∧ j = j') :
    (I.flatMap (fun i => J.map (f i))).Nodup := by
  rw [List.nodup_flatMap]
  refine ⟨fun i hi => ?_, ?_⟩
  · refine (List.nodup_map_iff_inj_on hJ).2 fun j hj j' hj' e => (hf i hi i hi j hj j' hj' e).2
  · refine List.Nodup.pairwise_of_forall_ne hI fun i hi i' hi' ne => ?_
    intro x hx hx'
    obtain ⟨j, hj, rfl⟩ := List.mem_map.1 hx
    obtain ⟨j', hj', e⟩ := List.mem_map.1 hx'
    exact ne (hf i' hi' i hi j' hj' j hj e).1.symm

theorem mem_rowPairs {nx ny : Nat} {p : Nat × Nat} :
    p ∈ rowPairs nx ny ↔ ∃ i j, i + 1 < nx ∧ j < ny ∧ p = (j * nx + i, j * nx + i + 1) := by
  unfold rowPairs
  simp only [List.mem_flatMap, List.mem_range, List.mem_map]
  constructor
  · rintro ⟨i, hi, j, hj, rfl⟩; exact ⟨i, j, by omega, hj, rfl⟩
  · rintro ⟨i, j, hi, hj, rfl⟩; exact ⟨i, by omega, j, hj, rfl⟩

theorem mem_colPairs {nx ny : Nat} {p : Nat × Nat} :
    p ∈ colPairs nx ny ↔ ∃ i j, i < nx ∧ j + 1 < ny ∧ p = (j * nx + i, (j + 1) * nx + i) := by
  unfold colPairs
  simp only [List.mem_flatMap, List.mem_range, List.mem_map]
  constructor
  · rintro ⟨i, hi, j, hj, rfl⟩; exact ⟨i, j, hi, by omega, rfl⟩
  · rintro ⟨i, j, hi, hj, rfl⟩; exact ⟨i, hi, j, by omega, rfl⟩

theorem rowPairs_nodup (nx ny : Nat) : ((rowPairs nx ny).map Prod.fst).Nodup ∧ ((rowPairs nx ny).map Prod.snd).Nodup := by
  unfold rowPairs
  simp only [List.map_flatMap, List.map_map, Function.comp_def]
  constructor
  · refine nodup_grid (nx := nx) List.nodup_range List.nodup_range (fun i j => j * nx + i) ?_
    intro i hi i' hi' j hj j' hj' e
    rw [List.mem_range] at hi hi'
    exact grid_inj (by omega) (by omega) e
  · refine nodup_grid (nx := nx) List.nodup_range List.nodup_range (fun i j => j * nx + i + 1) ?_
    intro i hi i' hi' j hj j' hj' e
    rw [List.mem_range] at hi hi'
    exact grid_inj (nx := nx) (by omega) (by omega) (by simpa using e)

theorem colPairs_nodup (nx ny : Nat) : ((colPairs nx ny).map Prod.fst).Nodup ∧ ((colPairs nx ny).map Prod.snd).Nodup := by
  unfold colPairs
  simp only [List.map_flatMap, List.map_map, Function.comp_def]
  constructor
  · refine nodup_grid (nx := nx) List.nodup_range List.nodup_range (fun i j => j * nx + i) ?_
    intro i hi i' hi' j hj j' hj' e
    rw [List.mem_range] at hi hi'
    exact grid_inj (by omega) (by omega) e
  · refine nodup_grid (nx := nx) List.nodup_range List.nodup_range (fun i j => (j + 1) * nx + i) ?_
    intro i hi i' hi' j hj j' hj' e
    rw [List.mem_range] at hi hi'
    have := grid_inj (by omega) (by omega) e
    exact ⟨this.1, by omega⟩

/-- **C19** (joined). After the sections have been joined, neighbouring sections use the same point for each position along their common edge: the last row of
the section at list position `j·nx+i` is the first row of the next section in the list, and its last column is the first column of the section `nx` places
further. No section loses a point, and a position that is not on an edge keeps its point. -/
theorem C19_joined {n nx ny : Nat} (hn : n ≠ 0) {ms ms' : List IndexMap} (h : joinSections n nx ny ms = some ms') :
    (∀ i j m1 m2, i + 1 < nx → j < ny → ms'[j * nx + i]? = some m1 → ms'[j * nx + i + 1]? = some m2 → ∀ k, m1 n k = m2 0 k) ∧
    (∀ i j m1 m2, i < nx → j + 1 < ny → ms'[j * nx + i]? = some m1 → ms'[(j + 1) * nx + i]? = some m2 → ∀ k, m1 k n = m2 k 0) ∧
    (∀ (k : Nat) m, ms[k]? = some m → ∃ m', ms'[k]? = some m' ∧ ∀ i j, i ≠ 0 → i ≠ n → j ≠ 0 → j ≠ n → m' i j = m i j) := by
  obtain ⟨ms1, e1, e2⟩ := Option.bind_eq_some_iff.1 h
  obtain ⟨U1, J1⟩ := joinRows_fold hn _ _ _ (rowPairs_nodup nx ny).1 (rowPairs_nodup nx ny).2 (fun p hp => by
    obtain ⟨i, j, _, _, rfl⟩ := mem_rowPairs.1 hp
    simp) e1
  obtain ⟨U2, J2⟩ := joinCols_fold hn _ _ _ (colPairs_nodup nx ny).1 (colPairs_nodup nx ny).2 (fun p hp => by
    obtain ⟨i, j, hi, _, rfl⟩ := mem_colPairs.1 hp
    simp only [ne_eq]
    have : (j + 1) * nx = j * nx + nx := by ring
    omega) e2
  refine ⟨?_, ?_, ?_⟩
  · intro i j m1 m2 hi hj h1 h2 k
    obtain ⟨_, _, r1, r2, _, _, g1, g2, er⟩ := J1 _ (mem_rowPairs.2 ⟨i, j, hi, hj, rfl⟩)
    simp only at g1 g2
    have er' : ∀ k, r1 n k = r2 0 k := fun k => by rw [(er k).1, (er k).2]
    obtain ⟨a1, ha1, u1⟩ := U2 _ _ g1
    obtain ⟨a2, ha2, u2⟩ := U2 _ _ g2
    rw [h1] at ha1; cases ha1
    rw [h2] at ha2; cases ha2
    have first : ∀ i' j', i' < nx → j' < ny → (j' * nx + i' ∈ (colPairs nx ny).map Prod.fst ↔ j' + 1 < ny) := by
      intro i' j' hi' hj'
      constructor
      · intro hm
        obtain ⟨p, hp, e⟩ := List.mem_map.1 hm
        obtain ⟨i0, j0, hi0, hj0, rfl⟩ := mem_colPairs.1 hp
        have := grid_inj hi0 hi' e
        omega
      · intro hm
        exact List.mem_map.2 ⟨_, mem_colPairs.2 ⟨i', j', hi', hm, rfl⟩, rfl⟩
    have second : ∀ i' j', i' < nx → j' < ny → (j' * nx + i' ∈ (colPairs nx ny).map Prod.snd ↔ j' ≠ 0) := by
      intro i' j' hi' hj'
      constructor
      · intro hm
        obtain ⟨p, hp, e⟩ := List.mem_map.1 hm
        obtain ⟨i0, j0, hi0, hj0, rfl⟩ := mem_colPairs.1 hp
        have := grid_inj hi0 hi' e
        omega
      · intro hm
        obtain ⟨c, rfl⟩ := Nat.exists_eq_succ_of_ne_zero hm
        exact List.mem_map.2 ⟨_, mem_colPairs.2 ⟨i', c, hi', by omega, rfl⟩, rfl⟩
    have q2 : j * nx + i + 1 = j * nx + (i + 1) := by ring
    by_cases kn : k = n ∧ j + 1 < ny
    · obtain ⟨rfl, hj1⟩ := kn
      obtain ⟨xa, xb, xa', _, x1, x2, x3, _, ex⟩ := J2 _ (mem_colPairs.2 ⟨i, j, by omega, hj1, rfl⟩)
      obtain ⟨ya, yb, ya', _, y1, y2, y3, _, ey⟩ := J2 _ (mem_colPairs.2 ⟨i + 1, j, by omega, hj1, rfl⟩)
      simp only at x1 x2 x3 y1 y2 y3
      rw [← q2] at y1 y3
      rw [h1] at x3; cases x3
      rw [h2] at y3; cases y3
      rw [g1] at x1; cases x1
      rw [g2] at y1; cases y1
      rw [(ex _).1, (ey _).1, er']
      congr 1
      obtain ⟨_, _, s1, s2, _, _, b1, b2, es⟩ := J1 _ (mem_rowPairs.2 ⟨i, j + 1, hi, hj1, rfl⟩)
      simp only at b1 b2
      rw [x2] at b1; cases b1
      rw [show (j + 1) * nx + (i + 1) = (j + 1) * nx + i + 1 by ring, b2] at y2; cases y2
      rw [(es _).1, (es _).2]
    · by_cases k0 : k = 0 ∧ j ≠ 0
      · obtain ⟨rfl, hj0⟩ := k0
        obtain ⟨c, rfl⟩ := Nat.exists_eq_succ_of_ne_zero hj0
        obtain ⟨xa, xb, _, xb', x1, x2, _, x3, ex⟩ := J2 _ (mem_colPairs.2 ⟨i, c, by omega, hj, rfl⟩)
        obtain ⟨ya, yb, _, yb', y1, y2, _, y3, ey⟩ := J2 _ (mem_colPairs.2 ⟨i + 1, c, by omega, hj, rfl⟩)
        simp only [Nat.succ_eq_add_one] at x1 x2 x3 y1 y2 y3 g1 g2 h1 h2
        rw [show (c + 1) * nx + (i + 1) = (c + 1) * nx + i + 1 by ring] at y2 y3
        rw [h1] at x3; cases x3
        rw [h2] at y3; cases y3
        rw [g1] at x2; cases x2
        rw [g2] at y2; cases y2
        rw [(ex _).2, (ey _).2, er']
        congr 1
        obtain ⟨_, _, s1, s2, _, _, b1, b2, es⟩ := J1 _ (mem_rowPairs.2 ⟨i, c, hi, by omega, rfl⟩)
        simp only at b1 b2
        rw [x1] at b1; cases b1
        rw [show c * nx + (i + 1) = c * nx + i + 1 by ring, b2] at y1; cases y1
        rw [(es _).1, (es _).2]
      · rw [u1 n k (fun c => kn ⟨c.1, (first i j (by omega) hj).1 c.2⟩) (fun c => k0 ⟨c.1, (second i j (by omega) hj).1 c.2⟩),
          u2 0 k (fun c => kn ⟨c.1, (first (i + 1) j hi hj).1 (by rw [← q2]; exact c.2)⟩)
            (fun c => k0 ⟨c.1, (second (i + 1) j hi hj).1 (by rw [← q2]; exact c.2)⟩), er']
  · intro i j m1 m2 hi hj h1 h2 k
    obtain ⟨_, _, r1, r2, _, _, g1, g2, er⟩ := J2 _ (mem_colPairs.2 ⟨i, j, hi, hj, rfl⟩)
    simp only at g1 g2
    rw [h1] at g1; cases g1
    rw [h2] at g2; cases g2
    rw [(er k).1, (er k).2]
  · intro k m hk
    obtain ⟨m1, hm1, u1⟩ := U1 k m hk
    obtain ⟨m2, hm2, u2⟩ := U2 k m1 hm1
    exact ⟨m2, hm2, fun i j a b c d => by rw [u2 i j (fun e => d e.1) (fun e => c e.1), u1 i j (fun e => b e.1) (fun e => a e.1)]⟩

/-- two by two sections -/
example : (joinSections 1 2 2 [fun i j => some (i + 2 * j), fun i j => some (4 + i + 2 * j), fun i j => some (8 + i + 2 * j), fun i j => some (12 + i + 2 * j)]).isSome := by
  decide +kernel

/-- **C20** (extra points). If an edge of a quad that is longer than one has a point in its middle, the triangles of the quad use such a point; if it is the
only such edge, its point is used. If the quad has no such edge, the corners of its triangles are corners of the quad. -/
theorem C20_midpoint (m : IndexMap) {q : Quad} (hi : q.i0 < q.i1) (hj : q.j0 < q.j1) :
    let existing : List Pos :=
      (if q.j0 + 1 < q.j1 ∧ (m q.i0 ((q.j0 + q.j1) / 2)).isSome then [(q.i0, (q.j0 + q.j1) / 2)] else []) ++
      (if q.i0 + 1 < q.i1 ∧ (m ((q.i0 + q.i1) / 2) q.j1).isSome then [((q.i0 + q.i1) / 2, q.j1)] else []) ++
      (if q.j0 + 1 < q.j1 ∧ (m q.i1 ((q.j0 + q.j1) / 2)).isSome then [(q.i1, (q.j0 + q.j1) / 2)] else []) ++
      (if q.i0 + 1 < q.i1 ∧ (m ((q.i0 + q.i1) / 2) q.j0).isSome then [((q.i0 + q.i1) / 2, q.j0)] else [])
    let used := (quadTriangles m q).flatten
    (existing = [] → ∀ p ∈ used, p ∈ [(q.i0, q.j0), (q.i0, q.j1), (q.i1, q.j1), (q.i1, q.j0)]) ∧
    (∀ e, existing.head? = some e → e ∈ used ∧ ∀ p ∈ used, p = e ∨ p ∈ [(q.i0, q.j0), (q.i0, q.j1), (q.i1, q.j1), (q.i1, q.j0)]) := by
  obtain ⟨d, i0, i1, j0, j1⟩ := q
  simp only at hi hj
  have dd : ∀ a : ℕ, (a + a) / 2 = a := fun a => by omega
  have ad : ∀ a b : ℕ, absDiff a b > 1 ↔ a + 1 < b ∨ b + 1 < a := fun a b => by unfold absDiff; omega
  have e1 : (hasMid m (i0, j0) (i0, j1) = true) ↔ (j0 + 1 < j1 ∧ (m i0 ((j0 + j1) / 2)).isSome) := by
    unfold hasMid
    rw [Bool.and_eq_true, Bool.or_eq_true, decide_eq_true_eq, decide_eq_true_eq, ad, ad]
    simp only [midPos, dd]
    constructor
    · rintro ⟨h | h, h'⟩ <;> exact ⟨by omega, h'⟩
    · rintro ⟨h, h'⟩; exact ⟨.inr (by omega), h'⟩
  have e2 : (hasMid m (i0, j1) (i1, j1) = true) ↔ (i0 + 1 < i1 ∧ (m ((i0 + i1) / 2) j1).isSome) := by
    unfold hasMid
    rw [Bool.and_eq_true, Bool.or_eq_true, decide_eq_true_eq, decide_eq_true_eq, ad, ad]
    simp only [midPos, dd]
    constructor
    · rintro ⟨h | h, h'⟩ <;> exact ⟨by omega, h'⟩
    · rintro ⟨h, h'⟩; exact ⟨.inl (by omega), h'⟩
  have e3 : (hasMid m (i1, j1) (i1, j0) = true) ↔ (j0 + 1 < j1 ∧ (m i1 ((j0 + j1) / 2)).isSome) := by
    unfold hasMid
    rw [Bool.and_eq_true, Bool.or_eq_true, decide_eq_true_eq, decide_eq_true_eq, ad, ad]
    simp only [midPos, dd, Nat.add_comm j1 j0]
    constructor
    · rintro ⟨h | h, h'⟩ <;> exact ⟨by omega, h'⟩
    · rintro ⟨h, h'⟩; exact ⟨.inr (by omega), h'⟩
  have e4 : (hasMid m (i1, j0) (i0, j0) = true) ↔ (i0 + 1 < i1 ∧ (m ((i0 + i1) / 2) j0).isSome) := by
    unfold hasMid
    rw [Bool.and_eq_true, Bool.or_eq_true, decide_eq_true_eq, decide_eq_true_eq, ad, ad]
    simp only [midPos, dd, Nat.add_comm i1 i0]
    constructor
    · rintro ⟨h | h, h'⟩ <;> exact ⟨by omega, h'⟩
    · rintro ⟨h, h'⟩; exact ⟨.inl (by omega), h'⟩
  dsimp only
  simp only [← e1, ← e2, ← e3, ← e4]
  unfold quadTriangles
  dsimp only
  by_cases c1 : hasMid m (i0, j0) (i0, j1) = true
  · simp only [if_pos c1, threeTriangles, midPos, dd]
    simp
  by_cases c2 : hasMid m (i0, j1) (i1, j1) = true
  · simp only [if_neg c1, if_pos c2, threeTriangles, midPos, dd]
    simp
  by_cases c3 : hasMid m (i1, j1) (i1, j0) = true
  · simp only [if_neg c1, if_neg c2, if_pos c3, threeTriangles, midPos, dd, Nat.add_comm j1 j0]
    simp
  by_cases c4 : hasMid m (i1, j0) (i0, j0) = true
  · simp only [if_neg c1, if_neg c2, if_neg c3, if_pos c4, threeTriangles, midPos, dd, Nat.add_comm i1 i0]
    simp
  · simp only [if_neg c1, if_neg c2, if_neg c3, if_neg c4]
    simp

example : (quadTriangles (fun _ _ => some 0) ⟨1, 0, 2, 0, 1⟩).flatten.contains (1, 1) = true := by decide +kernel

end SMesh

open Spec in
/-- **C66** (`Surface.mesh`). With the defaults for the mesh size (or a given mesh size that is bounded from below), meshing a surface finishes with a valid mesh
without lines. It has at most one group: all triangles, under the name given, or else under the name of the surface if it has one. -/
theorem C66_mesh {s : Surface} (hs : GoodSurface s) {K : ℝ} (hK : 0 ≤ K) (hl : LipschitzSurface s K) {size : Option (V3 → ℝ)} {factor : Option ℝ}
    (hpos : 0 < s.length1 ∧ 0 < s.length2) (hsize : ∀ f, size = some f → ∃ m0 > 0, ∀ p, m0 ≤ f p) (hf : ∀ f, factor = some f → 0 < f)
    (name : Option String) {G : Geo V3} (hG : G.Lawful) (ensure : Bool) :
    ∃ fuel0, ∀ fuel, fuel0 ≤ fuel → ∃ M, s.mesh G fuel size factor name ensure = some M ∧ Valid M ∧ M.lines = [] ∧
      ∃ l, Matches (SameTri G) l (triShapes M) ∧
        ∀ n, MatchesGroup (SameTri G) (if name = some n ∨ (name = none ∧ s.name = some n) then some l else none) (triGroup M n) := by
  have hm : ∃ m0 > 0, ∀ p, m0 ≤ s.meshSize size factor p := by
    cases size with
    | some f => exact hsize f rfl
    | none =>
      have h4 : 0 < min s.length1 s.length2 / 4 := by have := lt_min hpos.1 hpos.2; linarith
      cases factor with
      | none => exact ⟨_, h4, fun _ => le_rfl⟩
      | some f => exact ⟨_, div_pos h4 (Real.sqrt_pos.2 (hf f rfl)), fun _ => le_rfl⟩
  obtain ⟨m0, hm0, hm⟩ := hm
  obtain ⟨fuel0, h⟩ := C66_finishes hs hK hl hm0 hm (name.or s.name) hG ensure
  refine ⟨fuel0, fun fuel hfu => ?_⟩
  obtain ⟨raw, M, h1, h2, h3, h4, h5, h6⟩ := h fuel hfu
  obtain ⟨M', hM', r⟩ := Mesh.build_shapes hG raw h2 ensure
  rw [h5] at hM'; cases hM'
  refine ⟨M, by simp [Surface.mesh, h1, h5], h6, ?_, (triShapes raw).filter (nonDegShape G), r.tris, fun n => ?_⟩
  · have := r.lines.1
    rw [← List.length_eq_zero_iff]
    simpa [lineShapes, h3] using this.symm
  · have hg := r.triGroups n
    have hr : triGroup raw n = if name = some n ∨ (name = none ∧ s.name = some n) then some (triShapes raw) else none := by
      unfold triGroup
      rw [h4]
      have hall : (List.range raw.triangles.length).filterMap (fun i => (triShapes raw)[i]?) = triShapes raw := by
        have hlen : raw.triangles.length = (triShapes raw).length := by simp [triShapes]
        rw [hlen]
        apply List.ext_getElem?
        intro k
        generalize triShapes raw = l
        induction l generalizing k with
        | nil => simp
        | cons a l ih =>
          rw [List.length_cons, List.range_succ_eq_map, List.filterMap_cons]
          simp only [List.getElem?_cons_zero, List.filterMap_map, Function.comp_def, List.getElem?_cons_succ]
          cases k with
          | zero => simp
          | succ k => simpa using ih k
      cases name with
      | some nm =>
        by_cases e : nm = n
        · subst e; simp [Dict.get, hall]
        · have e' : ¬ n = nm := fun h => e h.symm
          simp [Dict.get, e, e']
      | none =>
        cases hn : s.name with
        | none => simp [Dict.get]
        | some nm =>
          by_cases e : nm = n
          · subst e; simp [Dict.get, hall]
          · have e' : ¬ n = nm := fun h => e h.symm
            simp [Dict.get, e, e']
    rw [hr] at hg
    split
    · rename_i c; rw [if_pos c] at hg; exact hg
    · rename_i c; rw [if_neg c] at hg; exact hg

/-- **C66** (mesh size). Without a mesh size the mesher uses a quarter of the shorter side; a factor makes the mesh size smaller by its square root (and so the number
of triangles, which goes with the inverse square of the mesh size, grows by the factor); a mesh size that is given is used as it is. -/
theorem C66_mesh_size (s : Surface) (p : V3) :
    s.meshSize none none p = min (s.length1 / 4) (s.length2 / 4) ∧
    (∀ f, 0 < f → (s.meshSize none none p) ^ 2 = f * (s.meshSize none (some f) p) ^ 2) ∧
    (∀ f size, s.meshSize (some size) f p = size p) := by
  refine ⟨?_, fun f hf => ?_, fun f size => rfl⟩
  · simp only [Surface.meshSize, Option.elim]
    rw [min_div_div_right (by norm_num)]
  · simp only [Surface.meshSize, Option.elim]
    rw [div_pow (min s.length1 s.length2 / 4), Real.sq_sqrt hf.le]
    field_simp

open Spec in
example : GoodSurface rect46 ∧ 0 < rect46.length1 ∧ 0 < rect46.length2 := by
  refine ⟨⟨?_, ?_, fun _ _ _ _ _ _ => rfl⟩, ?_, ?_⟩ <;> simp [GoodBreaks, rect46, flatSurface]

end Traceon
