import Verif.Model.Mesh
import Verif.Lemmas.List

/-! Lemmas about `_deduplicate_points`. -/
namespace Traceon
variable {P : Type} {G : Geo P}

theorem Geo.Lawful.eq_refl (h : G.Lawful) (a : P) : G.eq a a = true := by
  rw [h.eq_iff]; rcases h.le_total a a with h | h <;> exact ⟨h, h⟩

theorem Geo.Lawful.eq_symm (h : G.Lawful) {a b : P} (hab : G.eq a b = true) : G.eq b a = true := by
  rw [h.eq_iff] at *; exact ⟨hab.2, hab.1⟩

theorem Geo.Lawful.eq_trans (h : G.Lawful) {a b c : P} (hab : G.eq a b = true)
    (hbc : G.eq b c = true) : G.eq a c = true := by
  rw [h.eq_iff] at *
  exact ⟨h.le_trans _ _ _ hab.1 hbc.1, h.le_trans _ _ _ hbc.2 hab.2⟩

namespace Mesh

theorem keepMask_length (xs : List P) (hx : xs ≠ []) : (keepMask G xs).length = xs.length := by
  cases xs with
  | nil => simp at hx
  | cons x xs => simp [keepMask]

theorem keepMask_succ (xs : List P) (k : Nat) (x y : P) (hx : xs[k]? = some x)
    (hy : xs[k+1]? = some y) : (keepMask G xs)[k+1]? = some (!(G.eq y x)) := by
  simp only [keepMask, List.getElem?_cons_succ, List.getElem?_map]
  have : (xs.zip xs.tail)[k]? = some (x, y) := by
    rw [List.getElem?_zip_eq_some]; simp [hx, hy]
  rw [this]; rfl

/-- The point that index `k` of the sorted list is sent to equals it. -/
theorem compress_keepMask (hG : G.Lawful) (xs : List P) (hx : xs ≠ []) (k : Nat) (x : P)
    (hk : xs[k]? = some x) :
    ∃ q, (compress (keepMask G xs) xs)[((keepMask G xs).take (k+1)).count true - 1]? = some q ∧
      G.eq q x = true := by
  have hlen := keepMask_length (G := G) xs hx
  induction k generalizing x with
  | zero =>
    have h0 : (keepMask G xs)[0]? = some true := rfl
    have hr := compress_rank (keepMask G xs) xs 0 hlen h0
    have hc := count_take_succ h0
    refine ⟨x, ?_, hG.eq_refl x⟩
    rw [hc]; simpa [hk] using hr
  | succ k ih =>
    have hkl := (List.getElem?_eq_some_iff.1 hk).1
    have hk' : xs[k]? = some (xs[k]'(by omega)) := by simp
    obtain ⟨q, hq, hqe⟩ := ih _ hk'
    have hm := keepMask_succ (G := G) xs k _ _ hk' hk
    have hc := count_take_succ hm
    by_cases he : G.eq x (xs[k]'(by omega)) = true
    · refine ⟨q, ?_, hG.eq_trans hqe (hG.eq_symm he)⟩
      rw [hc]; simpa [he] using hq
    · have he' : G.eq x (xs[k]'(by omega)) = false := by simpa using he
      rw [he'] at hm hc
      have hr := compress_rank (keepMask G xs) xs (k+1) hlen hm
      refine ⟨x, ?_, hG.eq_refl x⟩
      rw [hc]; simpa [hk] using hr

theorem compress_tail_lt (hG : G.Lawful) (x : P) (l : List P)
    (hs : (x :: l).Pairwise (fun a b => G.le a b = true)) :
    (∀ z ∈ compress (((x :: l).zip l).map (fun p => !(G.eq p.2 p.1))) l,
      G.le x z = true ∧ G.le z x = false) ∧
    (compress (((x :: l).zip l).map (fun p => !(G.eq p.2 p.1))) l).Pairwise
      (fun a b => G.eq a b = false) := by
  induction l generalizing x with
  | nil => simp [compress]
  | cons y l ih =>
    have hs' := List.pairwise_cons.1 hs
    have ih' := ih y hs'.2
    have hxy := hs'.1 y (by simp)
    simp only [List.zip_cons_cons, List.map_cons]
    have tr : ∀ z, G.le y z = true ∧ G.le z y = false → G.le x z = true ∧ G.le z x = false := by
      intro z hz
      refine ⟨hG.le_trans _ _ _ hxy hz.1, ?_⟩
      cases h : G.le z x with
      | false => rfl
      | true => rw [hG.le_trans _ _ _ h hxy] at hz; simp at hz
    by_cases he : G.eq y x = true
    · simp only [he, Bool.not_true, compress]
      exact ⟨fun z hz => tr z (ih'.1 z hz), ih'.2⟩
    · have he' : G.eq y x = false := by simpa using he
      simp only [he', Bool.not_false, compress]
      have hyx : G.le y x = false := by
        cases h : G.le y x with
        | false => rfl
        | true => exact absurd ((hG.eq_iff y x).2 ⟨h, hxy⟩) he
      constructor
      · intro z hz
        rcases List.mem_cons.1 hz with rfl | hz
        · exact ⟨hxy, hyx⟩
        · exact tr z (ih'.1 z hz)
      · rw [List.pairwise_cons]
        refine ⟨fun z hz => ?_, ih'.2⟩
        cases h : G.eq y z with
        | false => rfl
        | true =>
          have := (hG.eq_iff y z).1 h
          rw [(ih'.1 z hz).2] at this
          simp at this

theorem compress_keepMask_pairwise (hG : G.Lawful) (xs : List P)
    (hs : xs.Pairwise (fun a b => G.le a b = true)) :
    (compress (keepMask G xs) xs).Pairwise (fun a b => G.eq a b = false) := by
  cases xs with
  | nil => simp [compress]
  | cons x l =>
    have h := compress_tail_lt hG x l hs
    simp only [keepMask, List.tail_cons, compress, List.pairwise_cons]
    refine ⟨fun z hz => ?_, h.2⟩
    cases he : G.eq x z with
    | false => rfl
    | true =>
      have := (hG.eq_iff x z).1 he
      rw [(h.1 z hz).2] at this
      simp at this

theorem sortedPoints_perm (pts : List P) :
    (sortedPoints G pts).Perm ((pts.map G.trunc).zipIdx) := stableSort_perm _

theorem sortedPoints_sorted (hG : G.Lawful) (pts : List P) :
    ((sortedPoints G pts).map (·.1)).Pairwise (fun a b => G.le a b = true) := by
  rw [List.pairwise_map]
  exact stableSort_pairwise (le := fun (a b : P × Nat) => G.le a.1 b.1)
    (fun a b => hG.le_total a.1 b.1) (fun a b c => hG.le_trans _ _ _) _

theorem sortedPoints_length (pts : List P) : (sortedPoints G pts).length = pts.length := by
  rw [(sortedPoints_perm pts).length_eq]; simp

theorem sortedPoints_idx_nodup (pts : List P) : ((sortedPoints G pts).map (·.2)).Nodup := by
  have h : ((sortedPoints G pts).map (·.2)).Perm (((pts.map G.trunc).zipIdx).map (·.2)) :=
    (sortedPoints_perm pts).map _
  rw [h.nodup_iff, List.zipIdx_map_snd]
  exact List.nodup_range'

theorem find?_zip_of_nodup {idx new : List Nat} (hn : idx.Nodup) (hl : new.length = idx.length)
    {k i j : Nat} (hk : idx[k]? = some i) (hj : new[k]? = some j) :
    (idx.zip new).find? (fun p => p.1 == i) = some (i, j) := by
  induction idx generalizing new k with
  | nil => simp at hk
  | cons a idx ih =>
    cases new with
    | nil => simp at hl
    | cons b new =>
      have hn' := List.nodup_cons.1 hn
      cases k with
      | zero => simp at hk hj; subst hk hj; simp
      | succ k =>
        have hk' : idx[k]? = some i := by simpa using hk
        have hai : a ≠ i := by
          rintro rfl; exact hn'.1 (List.mem_of_getElem? hk')
        have : (a == i) = false := by simpa using hai
        simp only [List.zip_cons_cons, List.find?_cons, this]
        exact ih hn'.2 (by simpa using hl) hk' (by simpa using hj)

/-- The index map and the new points computed by `_deduplicate_points`. -/
def dedupMap (G : Geo P) (pts : List P) : Nat → Option Nat :=
  oldToNew ((sortedPoints G pts).map (·.2))
    (newIndices (keepMask G ((sortedPoints G pts).map (·.1))))

/-- The new points computed by `_deduplicate_points`. -/
def dedupPoints (G : Geo P) (pts : List P) : List P :=
  compress (keepMask G ((sortedPoints G pts).map (·.1))) ((sortedPoints G pts).map (·.1))

theorem dedupMap_spec (hG : G.Lawful) (pts : List P) {i : Nat} {p : P} (hi : pts[i]? = some p) :
    ∃ j q, dedupMap G pts i = some j ∧ (dedupPoints G pts)[j]? = some q ∧
      G.eq q (G.trunc p) = true := by
  have hmem : (G.trunc p, i) ∈ sortedPoints G pts := by
    rw [(sortedPoints_perm pts).mem_iff, List.mem_zipIdx_iff_getElem?]
    simp [hi]
  obtain ⟨k, hk⟩ := List.mem_iff_getElem?.1 hmem
  have hx : ((sortedPoints G pts).map (·.1))[k]? = some (G.trunc p) := by simp [hk]
  have hix : ((sortedPoints G pts).map (·.2))[k]? = some i := by simp [hk]
  have hne : (sortedPoints G pts).map (·.1) ≠ [] := by
    intro h; rw [h] at hx; simp at hx
  have hkl : k < (keepMask G ((sortedPoints G pts).map (·.1))).length := by
    rw [keepMask_length _ hne]; exact (List.getElem?_eq_some_iff.1 hx).1
  obtain ⟨q, hq, hqe⟩ := compress_keepMask hG _ hne k _ hx
  refine ⟨_, q, ?_, hq, hqe⟩
  unfold dedupMap oldToNew
  rw [find?_zip_of_nodup (sortedPoints_idx_nodup pts) ?_ hix]
  · rfl
  · simp [newIndices, cumsum_getElem? _ _ hkl]
  · simp only [newIndices, List.length_map, cumsum_length]
    rw [keepMask_length _ hne]; simp

theorem dedupPoints_pairwise (hG : G.Lawful) (pts : List P) :
    (dedupPoints G pts).Pairwise (fun a b => G.eq a b = false) :=
  compress_keepMask_pairwise hG _ (sortedPoints_sorted hG pts)

theorem compress_sublist {α : Type _} (m : List Bool) (l : List α) : (compress m l).Sublist l := by
  induction l generalizing m with
  | nil => cases m with
    | nil => simp [compress]
    | cons b m => cases b <;> simp [compress]
  | cons a l ih => cases m with
    | nil => simp [compress]
    | cons b m =>
      cases b with
      | true => simp only [compress]; exact (ih m).cons_cons a
      | false => simp only [compress]; exact (ih m).cons a

theorem dedupPoints_sorted (hG : G.Lawful) (pts : List P) :
    (dedupPoints G pts).Pairwise (fun a b => G.le a b = true) :=
  (sortedPoints_sorted hG pts).sublist (compress_sublist _ _)

theorem dedupPoints_length_le (pts : List P) (hp : pts ≠ []) :
    (dedupPoints G pts).length ≤ pts.length := by
  have hne : (sortedPoints G pts).map (·.1) ≠ [] := by
    intro h
    have := congrArg List.length h
    simp [sortedPoints_length] at this
    exact hp this
  unfold dedupPoints
  have hl := keepMask_length (G := G) _ hne
  rw [compress_length _ _ hl]
  calc _ ≤ (keepMask G ((sortedPoints G pts).map (·.1))).length := List.count_le_length
    _ = pts.length := by rw [hl]; simp [sortedPoints_length]

theorem dedupPoints_mem (pts : List P) (hp : pts ≠ []) {q : P} (hq : q ∈ dedupPoints G pts) :
    ∃ p ∈ pts, q = G.trunc p := by
  have hne : (sortedPoints G pts).map (·.1) ≠ [] := by
    intro h
    have := congrArg List.length h
    simp [sortedPoints_length] at this
    exact hp this
  unfold dedupPoints at hq
  rw [mem_compress (keepMask_length (G := G) _ hne)] at hq
  obtain ⟨k, _, hk⟩ := hq
  have : q ∈ (sortedPoints G pts).map (·.1) := List.mem_of_getElem? hk
  have h2 : ((sortedPoints G pts).map (·.1)).Perm (((pts.map G.trunc).zipIdx).map (·.1)) :=
    (sortedPoints_perm pts).map _
  rw [h2.mem_iff, List.zipIdx_map_fst] at this
  obtain ⟨p, hp, rfl⟩ := List.mem_map.1 this
  exact ⟨p, hp, rfl⟩

theorem dedup_eq (m : Mesh P) (hp : m.points ≠ []) :
    dedup G m = (mapElems (dedupMap G m.points) m.triangles).bind (fun tris =>
      (mapElems (dedupMap G m.points) m.lines).bind (fun lines =>
        some { m with points := dedupPoints G m.points, triangles := tris, lines := lines })) := by
  unfold dedup
  have : m.points.isEmpty = false := by simpa using hp
  simp [this, dedupMap, dedupPoints, Option.bind_eq_bind]

end Mesh
end Traceon
