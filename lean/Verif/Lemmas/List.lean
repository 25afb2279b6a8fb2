import Verif.Model.Basic

/-! Helper lemmas about masks, cumulative sums, gather/scatter and dictionaries. -/
namespace Traceon

section sort
variable {α : Type _} {le : α → α → Bool}

theorem insertSorted_perm (x : α) (l : List α) : (insertSorted le x l).Perm (x :: l) := by
  induction l with
  | nil => exact List.Perm.refl _
  | cons y l ih =>
    unfold insertSorted
    split
    · exact List.Perm.refl _
    · exact (List.Perm.cons y ih).trans (List.Perm.swap x y l)

theorem stableSort_perm (l : List α) : (stableSort le l).Perm l := by
  induction l with
  | nil => exact List.Perm.refl _
  | cons x l ih => exact (insertSorted_perm x _).trans (List.Perm.cons x ih)

theorem insertSorted_pairwise (ht : ∀ a b, le a b = true ∨ le b a = true)
    (htr : ∀ a b c, le a b = true → le b c = true → le a c = true) (x : α) (l : List α)
    (hl : l.Pairwise (fun a b => le a b = true)) :
    (insertSorted le x l).Pairwise (fun a b => le a b = true) := by
  induction l with
  | nil => simp [insertSorted]
  | cons y l ih =>
    have hl' := List.pairwise_cons.1 hl
    unfold insertSorted
    split
    · rename_i h
      rw [List.pairwise_cons]
      refine ⟨fun z hz => ?_, hl⟩
      rcases List.mem_cons.1 hz with rfl | hz
      · exact h
      · exact htr _ _ _ h (hl'.1 z hz)
    · rename_i h
      rw [List.pairwise_cons]
      refine ⟨fun z hz => ?_, ih hl'.2⟩
      rw [(insertSorted_perm x l).mem_iff] at hz
      rcases List.mem_cons.1 hz with rfl | hz
      · exact (ht _ _).resolve_left h
      · exact hl'.1 z hz

theorem stableSort_pairwise (ht : ∀ a b, le a b = true ∨ le b a = true)
    (htr : ∀ a b c, le a b = true → le b c = true → le a c = true) (l : List α) :
    (stableSort le l).Pairwise (fun a b => le a b = true) := by
  induction l with
  | nil => exact List.Pairwise.nil
  | cons x l ih => exact insertSorted_pairwise ht htr x _ ih

theorem stableSort_of_pairwise (l : List α) (hl : l.Pairwise (fun a b => le a b = true)) :
    stableSort le l = l := by
  induction l with
  | nil => rfl
  | cons x l ih =>
    have hl' := List.pairwise_cons.1 hl
    show insertSorted le x (stableSort le l) = x :: l
    rw [ih hl'.2]
    cases l with
    | nil => rfl
    | cons y l => simp [insertSorted, hl'.1 y (by simp)]

end sort

section mapM
variable {α β : Type _}

theorem mapM_eq_some_iff {f : α → Option β} {l : List α} {r : List β} :
    l.mapM f = some r ↔ l.map f = r.map some := by
  induction l generalizing r with
  | nil => cases r <;> simp
  | cons a l ih =>
    rw [List.mapM_cons]
    cases r with
    | nil =>
      cases h : f a <;> simp [Option.bind_eq_bind, Option.bind_eq_some_iff]
    | cons b r =>
      cases h : f a with
      | none => simp [h]
      | some c =>
        simp only [Option.bind_eq_bind, Option.bind_some, h, List.map_cons, List.cons.injEq,
          Option.some.injEq]
        constructor
        · intro h2
          rw [Option.bind_eq_some_iff] at h2
          obtain ⟨x, hx, hy⟩ := h2
          simp at hy
          obtain ⟨rfl, rfl⟩ := hy
          exact ⟨rfl, ih.1 hx⟩
        · rintro ⟨rfl, h2⟩
          rw [ih.2 h2]; rfl

theorem mapM_isSome {f : α → Option β} {l : List α} (h : ∀ a ∈ l, ∃ b, f a = some b) :
    ∃ r, l.mapM f = some r := by
  induction l with
  | nil => exact ⟨[], rfl⟩
  | cons a l ih =>
    obtain ⟨b, hb⟩ := h a (by simp)
    obtain ⟨r, hr⟩ := ih (fun x hx => h x (by simp [hx]))
    exact ⟨b :: r, by rw [mapM_eq_some_iff] at *; simp [hb, hr]⟩

theorem mapM_length {f : α → Option β} {l : List α} {r : List β} (h : l.mapM f = some r) :
    r.length = l.length := by
  rw [mapM_eq_some_iff] at h
  have := congrArg List.length h
  simpa using this.symm

theorem mapM_getElem? {f : α → Option β} {l : List α} {r : List β} (h : l.mapM f = some r)
    (k : Nat) : r[k]? = l[k]?.bind f := by
  rw [mapM_eq_some_iff] at h
  have h2 : (l.map f)[k]? = (r.map some)[k]? := by rw [h]
  rw [List.getElem?_map, List.getElem?_map] at h2
  cases h3 : l[k]? with
  | none => rw [h3] at h2; cases h4 : r[k]? <;> simp_all
  | some a => rw [h3] at h2; cases h4 : r[k]? <;> simp_all

theorem mapM_mem {f : α → Option β} {l : List α} {r : List β} (h : l.mapM f = some r)
    {a : α} (ha : a ∈ l) : ∃ b ∈ r, f a = some b := by
  rw [mapM_eq_some_iff] at h
  have : f a ∈ r.map some := by rw [← h]; exact List.mem_map_of_mem ha
  obtain ⟨b, hb, hb2⟩ := List.mem_map.1 this
  exact ⟨b, hb, hb2.symm⟩

theorem mapM_mem' {f : α → Option β} {l : List α} {r : List β} (h : l.mapM f = some r)
    {b : β} (hb : b ∈ r) : ∃ a ∈ l, f a = some b := by
  rw [mapM_eq_some_iff] at h
  have : some b ∈ l.map f := by rw [h]; exact List.mem_map_of_mem hb
  obtain ⟨a, ha, ha2⟩ := List.mem_map.1 this
  exact ⟨a, ha, ha2⟩

end mapM

section gather
variable {α : Type _}

theorem gather_eq_some_iff {arr : List α} {idx : List Nat} {r : List α} :
    gather arr idx = some r ↔ idx.map (fun i => arr[i]?) = r.map some := mapM_eq_some_iff

theorem gather_isSome {arr : List α} {idx : List Nat} (h : ∀ i ∈ idx, i < arr.length) :
    ∃ r, gather arr idx = some r :=
  mapM_isSome (fun i hi => ⟨arr[i]'(h i hi), by simp [h i hi]⟩)

theorem gather_length {arr : List α} {idx : List Nat} {r : List α} (h : gather arr idx = some r) :
    r.length = idx.length := mapM_length h

theorem gather_getElem? {arr : List α} {idx : List Nat} {r : List α} (h : gather arr idx = some r)
    (k : Nat) : r[k]? = idx[k]?.bind (fun i => arr[i]?) := mapM_getElem? h k

theorem gather_lt {arr : List α} {idx : List Nat} {r : List α} (h : gather arr idx = some r)
    {i : Nat} (hi : i ∈ idx) : i < arr.length := by
  obtain ⟨b, _, hb⟩ := mapM_mem h hi
  exact (List.getElem?_eq_some_iff.1 hb).1

end gather

section compress
variable {α : Type _}

theorem compress_map_eq_filter (p : α → Bool) (xs : List α) :
    compress (xs.map p) xs = xs.filter p := by
  induction xs with
  | nil => rfl
  | cons x xs ih =>
    simp only [List.map_cons]
    cases h : p x <;> simp [compress, h, ih]

theorem compress_zip (m : List Bool) (xs : List α) (h : m.length = xs.length) :
    compress m xs = ((xs.zip m).filter (·.2)).map (·.1) := by
  induction m generalizing xs with
  | nil => cases xs <;> simp_all [compress]
  | cons b m ih =>
    cases xs with
    | nil => simp at h
    | cons x xs =>
      have := ih xs (by simpa using h)
      cases b <;> simp [compress, this]

theorem compress_length (m : List Bool) (xs : List α) (h : m.length = xs.length) :
    (compress m xs).length = m.count true := by
  induction m generalizing xs with
  | nil => cases xs <;> simp_all [compress]
  | cons b m ih =>
    cases xs with
    | nil => simp at h
    | cons x xs =>
      have := ih xs (by simpa using h)
      cases b <;> simp [compress, this]

/-- The rank lemma: a kept entry is found at the number of kept entries before it. -/
theorem compress_rank (m : List Bool) (xs : List α) (k : Nat) (h : m.length = xs.length)
    (hk : m[k]? = some true) :
    (compress m xs)[(m.take k).count true]? = xs[k]? := by
  induction m generalizing xs k with
  | nil => simp at hk
  | cons b m ih =>
    cases xs with
    | nil => simp at h
    | cons x xs =>
      cases k with
      | zero => simp at hk; subst hk; simp [compress]
      | succ k =>
        have := ih xs k (by simpa using h) (by simpa using hk)
        cases b <;> simp [compress, this]

theorem mem_compress {m : List Bool} {xs : List α} {a : α} (h : m.length = xs.length) :
    a ∈ compress m xs ↔ ∃ k : Nat, m[k]? = some true ∧ xs[k]? = some a := by
  induction m generalizing xs with
  | nil => cases xs <;> simp_all [compress]
  | cons b m ih =>
    cases xs with
    | nil => simp at h
    | cons x xs =>
      have := ih (xs := xs) (by simpa using h)
      cases b
      · simp only [compress, this]
        constructor
        · rintro ⟨k, hk⟩; exact ⟨k+1, by simpa using hk⟩
        · rintro ⟨k, hk⟩
          cases k with
          | zero => simp at hk
          | succ k => exact ⟨k, by simpa using hk⟩
      · simp only [compress, List.mem_cons, this]
        constructor
        · rintro (rfl | ⟨k, hk⟩)
          · exact ⟨0, by simp⟩
          · exact ⟨k+1, by simpa using hk⟩
        · rintro ⟨k, hk⟩
          cases k with
          | zero => simp at hk; exact Or.inl hk.symm
          | succ k => exact Or.inr ⟨k, by simpa using hk⟩

theorem cumsumFrom_length (acc : Nat) (m : List Bool) : (cumsumFrom acc m).length = m.length := by
  induction m generalizing acc with
  | nil => rfl
  | cons b m ih => simp [cumsumFrom, ih]

@[simp] theorem cumsum_length (m : List Bool) : (cumsum m).length = m.length :=
  cumsumFrom_length 0 m

theorem cumsumFrom_getElem? (acc : Nat) (m : List Bool) (k : Nat) (hk : k < m.length) :
    (cumsumFrom acc m)[k]? = some (acc + (m.take (k+1)).count true) := by
  induction m generalizing acc k with
  | nil => simp at hk
  | cons b m ih =>
    cases k with
    | zero => cases b <;> simp [cumsumFrom]
    | succ k =>
      have := ih (acc + b.toNat) k (by simpa using hk)
      simp only [cumsumFrom, List.getElem?_cons_succ, this, List.take_succ_cons]
      cases b <;> simp <;> omega

theorem cumsum_getElem? (m : List Bool) (k : Nat) (hk : k < m.length) :
    (cumsum m)[k]? = some ((m.take (k+1)).count true) := by
  rw [cumsum, cumsumFrom_getElem? 0 m k hk]; simp

theorem count_take_succ {m : List Bool} {k : Nat} {b : Bool} (hk : m[k]? = some b) :
    (m.take (k+1)).count true = (m.take k).count true + b.toNat := by
  rw [List.take_add_one, hk]
  cases b <;> simp

theorem count_true_add_count_false (m : List Bool) : m.count true + m.count false = m.length := by
  induction m with
  | nil => rfl
  | cons b m ih => cases b <;> simp <;> omega

theorem count_map_not (m : List Bool) : (m.map (!·)).count true = m.count false := by
  induction m with
  | nil => rfl
  | cons b m ih => cases b <;> simp_all

theorem count_true_take_lt {m : List Bool} {k : Nat} (hk : m[k]? = some true) :
    (m.take k).count true < m.count true := by
  have h := count_take_succ hk
  have h2 : (m.take (k+1)).count true ≤ m.count true := (List.take_sublist _ _).count_le true
  simp at h; omega

end compress

section scatter
variable {α : Type _}

theorem foldl_set_length (ps : List (Nat × α)) (arr : List α) :
    (ps.foldl (fun a p => a.set p.1 p.2) arr).length = arr.length := by
  induction ps generalizing arr with
  | nil => rfl
  | cons p ps ih => simp [ih]

@[simp] theorem scatter_length (arr : List α) (idx : List Nat) (vals : List α) :
    (scatter arr idx vals).length = arr.length := foldl_set_length _ _

theorem foldl_set_getElem?_of_notMem (ps : List (Nat × α)) (arr : List α) (k : Nat)
    (h : ∀ p ∈ ps, p.1 ≠ k) :
    (ps.foldl (fun a p => a.set p.1 p.2) arr)[k]? = arr[k]? := by
  induction ps generalizing arr with
  | nil => rfl
  | cons p ps ih =>
    simp only [List.foldl_cons]
    rw [ih _ (fun q hq => h q (by simp [hq]))]
    exact List.getElem?_set_ne (h p (by simp))

theorem scatter_getElem?_of_notMem (arr : List α) (idx : List Nat) (vals : List α) (k : Nat)
    (h : k ∉ idx) : (scatter arr idx vals)[k]? = arr[k]? := by
  apply foldl_set_getElem?_of_notMem
  rintro ⟨a, b⟩ hp rfl
  exact h (List.of_mem_zip hp).1

/-- Whatever is read after a scatter is either the old value or one of the written values. -/
theorem foldl_set_getElem?_cases (ps : List (Nat × α)) (arr : List α) (k : Nat) :
    (ps.foldl (fun a p => a.set p.1 p.2) arr)[k]? = arr[k]? ∨
    ∃ v, (k, v) ∈ ps ∧ (ps.foldl (fun a p => a.set p.1 p.2) arr)[k]? = some v := by
  induction ps generalizing arr with
  | nil => exact Or.inl rfl
  | cons p ps ih =>
    simp only [List.foldl_cons]
    rcases ih (arr.set p.1 p.2) with h | ⟨v, hv, h⟩
    · rw [h]
      by_cases hpk : p.1 = k
      · subst hpk
        by_cases hl : p.1 < arr.length
        · right; exact ⟨p.2, by simp, by simp [hl]⟩
        · left
          rw [List.getElem?_eq_none (by simpa using hl), List.getElem?_eq_none (by simpa using hl)]
      · left; exact List.getElem?_set_ne hpk
    · right; exact ⟨v, by simp [hv], h⟩

theorem scatter_getElem?_cases (arr : List α) (idx : List Nat) (vals : List α) (k : Nat) :
    (scatter arr idx vals)[k]? = arr[k]? ∨
    ∃ j : Nat, idx[j]? = some k ∧ vals[j]? = (scatter arr idx vals)[k]? ∧ j < vals.length := by
  rcases foldl_set_getElem?_cases (idx.zip vals) arr k with h | ⟨v, hv, h⟩
  · exact Or.inl h
  · right
    obtain ⟨j, hj⟩ := List.mem_iff_getElem?.1 hv
    rw [List.getElem?_zip_eq_some] at hj
    have h3 := (List.getElem?_eq_some_iff.1 hj.2).1
    exact ⟨j, hj.1, by rw [hj.2]; exact h.symm, h3⟩

/-- Distinct target indices: position `j` of the values is read back at `idx[j]`. -/
theorem scatter_getElem?_of_nodup (arr : List α) (idx : List Nat) (vals : List α)
    (hn : idx.Nodup) (hlen : vals.length = idx.length) (j k : Nat) (hj : idx[j]? = some k)
    (hk : k < arr.length) : (scatter arr idx vals)[k]? = vals[j]? := by
  unfold scatter
  induction idx generalizing arr vals j with
  | nil => simp at hj
  | cons i idx ih =>
    cases vals with
    | nil => simp at hlen
    | cons v vals =>
      simp only [List.zip_cons_cons, List.foldl_cons]
      have hn' := List.nodup_cons.1 hn
      cases j with
      | zero =>
        simp at hj; subst hj
        have := scatter_getElem?_of_notMem (arr.set i v) idx vals i hn'.1
        unfold scatter at this
        rw [this]; simp [hk]
      | succ j =>
        have := ih (arr.set i v) vals hn'.2 (by simpa using hlen) j (by simpa using hj) (by simpa using hk)
        rw [this]; simp

end scatter

section dict
variable {α : Type _}

theorem Dict.mem_of_get {d : Dict α} {k : String} {v : α} (h : d.get k = some v) : (k, v) ∈ d := by
  unfold Dict.get at h
  rw [Option.map_eq_some_iff] at h
  obtain ⟨⟨a, b⟩, h1, rfl⟩ := h
  have := List.find?_some h1
  simp at this
  subst this
  exact List.mem_of_find?_eq_some h1

theorem Dict.get_isSome_iff {d : Dict α} {k : String} : (d.get k).isSome ↔ k ∈ d.keys := by
  unfold Dict.get Dict.keys
  rw [Option.isSome_map, List.find?_isSome]
  simp

theorem Dict.has_iff {d : Dict α} {k : String} : d.has k = true ↔ k ∈ d.keys := by
  unfold Dict.has Dict.keys
  simp

theorem Dict.get_none_iff {d : Dict α} {k : String} : d.get k = none ↔ k ∉ d.keys := by
  rw [← Dict.get_isSome_iff]; cases d.get k <;> simp

theorem Dict.get_cons (d : Dict α) (k k' : String) (v : α) :
    Dict.get ((k', v) :: d) k = if k' = k then some v else d.get k := by
  unfold Dict.get
  simp only [List.find?_cons]
  by_cases h : k' = k
  · simp [h]
  · have : (k' == k) = false := by simpa using h
    simp [h, this]

@[simp] theorem Dict.get_nil (k : String) : Dict.get ([] : Dict α) k = none := rfl

theorem Dict.get_append (d e : Dict α) (k : String) :
    Dict.get (d ++ e) k = (d.get k).or (e.get k) := by
  induction d with
  | nil => simp
  | cons p d ih =>
    obtain ⟨k', v⟩ := p
    rw [List.cons_append, Dict.get_cons, Dict.get_cons, ih]
    by_cases h : k' = k <;> simp [h]

theorem Dict.get_map (d : Dict α) {β : Type _} (f : α → β) (k : String) :
    Dict.get (d.map (fun p => (p.1, f p.2))) k = (d.get k).map f := by
  induction d with
  | nil => rfl
  | cons p d ih =>
    obtain ⟨k', v⟩ := p
    rw [List.map_cons, Dict.get_cons, Dict.get_cons, ih]
    by_cases h : k' = k <;> simp [h]

theorem Dict.get_set (d : Dict α) (k k' : String) (v : α) :
    Dict.get (d.set k v) k' = if k = k' then some v else d.get k' := by
  unfold Dict.set
  by_cases hh : d.has k = true
  · rw [if_pos hh]
    rw [Dict.has_iff] at hh
    induction d with
    | nil => simp [Dict.keys] at hh
    | cons p d ih =>
      obtain ⟨k2, v2⟩ := p
      by_cases h2 : k2 = k
      · subst h2
        simp only [List.map_cons, beq_self_eq_true, if_true]
        rw [Dict.get_cons, Dict.get_cons]
        by_cases h3 : k2 = k'
        · simp [h3]
        · simp only [h3, if_false]
          by_cases h4 : k2 ∈ Dict.keys d
          · rw [ih h4]; simp [h3]
          · have : d.map (fun p => if p.1 == k2 then (k2, v) else p) = d := by
              rw [List.map_congr_left (g := id)]
              · simp
              · intro a ha
                have : a.1 ≠ k2 := by
                  rintro rfl; exact h4 (List.mem_map_of_mem ha)
                simp [this]
            rw [this]
      · have hk : k ∈ Dict.keys d := by
          rcases List.mem_cons.1 hh with h | h
          · exact absurd h.symm h2
          · exact h
        have h2' : (k2 == k) = false := by simpa using h2
        simp only [List.map_cons, h2', Bool.false_eq_true, if_false]
        rw [Dict.get_cons, Dict.get_cons, ih hk]
        by_cases h3 : k2 = k'
        · subst h3; simp [Ne.symm h2]
        · simp [h3]
  · rw [if_neg hh, Dict.get_append, Dict.get_cons, Dict.get_nil]
    rw [Dict.has_iff] at hh
    by_cases h : k = k'
    · subst h
      rw [Dict.get_none_iff.2 hh]; simp
    · simp [h]

theorem Dict.keys_set (d : Dict α) (k : String) (v : α) :
    (d.set k v).keys = if k ∈ d.keys then d.keys else d.keys ++ [k] := by
  unfold Dict.set
  by_cases hh : d.has k = true
  · rw [if_pos hh, if_pos (Dict.has_iff.1 hh)]
    unfold Dict.keys
    rw [List.map_map]
    apply List.map_congr_left
    intro a _
    by_cases h : a.1 = k <;> simp [h]
  · rw [if_neg hh, if_neg (fun h => hh (Dict.has_iff.2 h))]
    simp [Dict.keys]

theorem Dict.keys_set_nodup {d : Dict α} {k : String} {v : α} (h : d.keys.Nodup) :
    (d.set k v).keys.Nodup := by
  rw [Dict.keys_set]
  split
  · exact h
  · rename_i hk
    rw [List.nodup_append]
    exact ⟨h, by simp, by simp; rintro a ha rfl; exact hk ha⟩

theorem Dict.get_of_mem {d : Dict α} {k : String} {v : α} (hd : d.keys.Nodup) (h : (k, v) ∈ d) :
    d.get k = some v := by
  induction d with
  | nil => simp at h
  | cons p d ih =>
    obtain ⟨k', v'⟩ := p
    rw [Dict.get_cons]
    have hd' : k' ∉ Dict.keys d ∧ (Dict.keys d).Nodup := List.nodup_cons.1 hd
    rcases List.mem_cons.1 h with h | h
    · cases h; simp
    · have : k' ≠ k := by
        rintro rfl; exact hd'.1 (List.mem_map_of_mem h)
      rw [if_neg this]; exact ih hd'.2 h

end dict
end Traceon
