import Verif.Model.Mesh
import Verif.Lemmas.List
import Verif.Spec.Graph

/-! Lemmas about `_get_connected_elements`. -/
namespace Traceon
open Spec

theorem mem_vertexToIndices {els : List Elem} {v j : Nat} :
    j ∈ vertexToIndices els v ↔ ∃ e, els[j]? = some e ∧ v ∈ e := by
  unfold vertexToIndices
  simp only [List.mem_flatMap, List.mem_map, List.mem_filter, beq_iff_eq]
  constructor
  · rintro ⟨⟨e, i⟩, hp, v', ⟨hv, rfl⟩, rfl⟩
    exact ⟨e, List.mem_zipIdx_iff_getElem?.1 hp, hv⟩
  · rintro ⟨e, he, hv⟩
    exact ⟨(e, j), List.mem_zipIdx_iff_getElem?.2 he, v, ⟨hv, rfl⟩, rfl⟩

theorem mem_neighbours {els : List Elem} {i j : Nat} :
    j ∈ neighbours els (els.getD i []) ↔ SharesVertex els i j := by
  unfold neighbours SharesVertex
  simp only [List.mem_flatMap, mem_vertexToIndices]
  constructor
  · rintro ⟨v, hv, e, he, hve⟩
    cases h : els[i]? with
    | none => simp [List.getD, h] at hv
    | some a => exact ⟨a, e, v, rfl, he, by simpa [List.getD, h] using hv, hve⟩
  · rintro ⟨a, b, v, ha, hb, hva, hvb⟩
    exact ⟨v, by simpa [List.getD, ha] using hva, b, hb, hvb⟩

theorem Spec.SharesVertex.symm {els : List Elem} {i j : Nat} (h : SharesVertex els i j) :
    SharesVertex els j i := by
  obtain ⟨a, b, v, h1, h2, h3, h4⟩ := h
  exact ⟨b, a, v, h2, h1, h4, h3⟩

theorem Spec.SharesVertex.lt_right {els : List Elem} {i j : Nat} (h : SharesVertex els i j) :
    j < els.length := by
  obtain ⟨a, b, v, h1, h2, h3, h4⟩ := h
  exact (List.getElem?_eq_some_iff.1 h2).1

theorem Spec.Linked.lt_right {els : List Elem} {i j : Nat} (h : Linked els i j) : j < els.length := by
  cases h with
  | refl h => exact h
  | step _ h => exact h.lt_right

theorem Spec.Linked.lt_left {els : List Elem} {i j : Nat} (h : Linked els i j) : i < els.length := by
  induction h with
  | refl h => exact h
  | step _ _ ih => exact ih

theorem Spec.Linked.trans {els : List Elem} {i j k : Nat} (h : Linked els i j) (h2 : Linked els j k) :
    Linked els i k := by
  induction h2 with
  | refl _ => exact h
  | step _ hs ih => exact Linked.step ih hs

theorem Spec.Linked.symm {els : List Elem} {i j : Nat} (h : Linked els i j) : Linked els j i := by
  induction h with
  | refl h => exact Linked.refl h
  | step h1 hs ih => exact Linked.trans (Linked.step (Linked.refl hs.lt_right) hs.symm) ih

/-- Number of unlabelled elements. -/
def unlabelled (l : List (Option Nat)) : Nat := l.count none

theorem unlabelled_set {l : List (Option Nat)} {n c : Nat} (h : l[n]? = some none) :
    unlabelled (l.set n (some c)) + 1 = unlabelled l := by
  unfold unlabelled
  obtain ⟨hn, hv⟩ := List.getElem?_eq_some_iff.1 h
  rw [List.count_set hn]
  have : 0 < l.count none := List.count_pos_iff.2 (List.mem_of_getElem? h)
  simp [hv]
  omega

structure FoldLabel (cid : Nat) (ns : List Nat) (l : List (Option Nat)) (q : List Nat)
    (l' : List (Option Nat)) (q' : List Nat) : Prop where
  len : l'.length = l.length
  meas : q'.length + unlabelled l' = q.length + unlabelled l
  keep : ∀ (j x : Nat), l[j]? = some (some x) → l'[j]? = some (some x)
  new : ∀ (j x : Nat), l'[j]? = some (some x) → l[j]? = some (some x) ∨ (x = cid ∧ j ∈ ns ∧ j ∈ q')
  qsub : ∀ j ∈ q, j ∈ q'
  qnew : ∀ j ∈ q', j ∈ q ∨ (j ∈ ns ∧ l'[j]? = some (some cid))
  all : ∀ n ∈ ns, n < l.length → ∃ x, l'[n]? = some (some x)

theorem foldLabel (cid : Nat) (ns : List Nat) (l : List (Option Nat)) (q : List Nat) :
    FoldLabel cid ns l q (ns.foldl (labelStep cid) (l, q)).1 (ns.foldl (labelStep cid) (l, q)).2 := by
  induction ns generalizing l q with
  | nil => exact ⟨rfl, rfl, fun _ _ h => h, fun _ _ h => Or.inl h, fun _ h => h, fun _ h => Or.inl h, by simp⟩
  | cons n ns ih =>
    simp only [List.foldl_cons]
    by_cases hn : l[n]? = some none
    · have hstep : labelStep cid (l, q) n = (l.set n (some cid), n :: q) := by
        simp [labelStep, hn]
      rw [hstep]
      have h := ih (l.set n (some cid)) (n :: q)
      have hnl := (List.getElem?_eq_some_iff.1 hn).1
      have hset : (l.set n (some cid))[n]? = some (some cid) := by simp [hnl]
      refine ⟨by simpa using h.len, ?_, ?_, ?_, ?_, ?_, ?_⟩
      · have := h.meas
        have h2 := unlabelled_set (c := cid) hn
        simp at this; omega
      · intro j x hj
        apply h.keep
        have : n ≠ j := by rintro rfl; rw [hn] at hj; simp at hj
        rw [List.getElem?_set_ne this]; exact hj
      · intro j x hj
        rcases h.new j x hj with h1 | ⟨rfl, h1, h2⟩
        · by_cases hjn : n = j
          · subst hjn
            rw [hset] at h1; simp at h1
            exact Or.inr ⟨h1.symm, by simp, h.qsub n (by simp)⟩
          · rw [List.getElem?_set_ne hjn] at h1; exact Or.inl h1
        · exact Or.inr ⟨rfl, by simp [h1], h2⟩
      · intro j hj; exact h.qsub j (by simp [hj])
      · intro j hj
        rcases h.qnew j hj with h1 | ⟨h1, h2⟩
        · rcases List.mem_cons.1 h1 with rfl | h1
          · exact Or.inr ⟨by simp, h.keep _ _ hset⟩
          · exact Or.inl h1
        · exact Or.inr ⟨by simp [h1], h2⟩
      · intro k hk hkl
        rcases List.mem_cons.1 hk with rfl | hk
        · exact ⟨cid, h.keep _ _ hset⟩
        · exact h.all k hk (by simpa using hkl)
    · have hstep : labelStep cid (l, q) n = (l, q) := by simp [labelStep, hn]
      rw [hstep]
      have h := ih l q
      refine ⟨h.len, h.meas, h.keep, ?_, h.qsub, ?_, ?_⟩
      · intro j x hj
        rcases h.new j x hj with h1 | ⟨rfl, h1, h2⟩
        · exact Or.inl h1
        · exact Or.inr ⟨rfl, by simp [h1], h2⟩
      · intro j hj
        rcases h.qnew j hj with h1 | ⟨h1, h2⟩
        · exact Or.inl h1
        · exact Or.inr ⟨by simp [h1], h2⟩
      · intro k hk hkl
        rcases List.mem_cons.1 hk with rfl | hk
        · have : l[k]? = some l[k] := by simp [hkl]
          cases h3 : l[k] with
          | none => rw [h3] at this; exact absurd this hn
          | some x => rw [h3] at this; exact ⟨x, h.keep _ _ this⟩
        · exact h.all k hk hkl

/-- Invariant of the `while queue` loop started at element `i` with labels `l0`. -/
structure LoopInv (els : List Elem) (cid i : Nat) (l0 l : List (Option Nat)) (q : List Nat) :
    Prop where
  len : l.length = els.length
  keep : ∀ (j x : Nat), l0[j]? = some (some x) → l[j]? = some (some x)
  new : ∀ (j x : Nat), l[j]? = some (some x) → l0[j]? = some (some x) ∨ (x = cid ∧ Linked els i j)
  start : l[i]? = some (some cid)
  queue : ∀ j ∈ q, l[j]? = some (some cid)
  closed : ∀ (j : Nat), l[j]? = some (some cid) → j ∈ q ∨
    ∀ k, SharesVertex els j k → ∃ x, l[k]? = some (some x)

theorem labelLoop_spec (els : List Elem) (cid i : Nat) (l0 : List (Option Nat))
    (h0 : ∀ (j x : Nat), l0[j]? = some (some x) → x < cid) (fuel : Nat) (l : List (Option Nat))
    (q : List Nat) (hinv : LoopInv els cid i l0 l q) (hfuel : q.length + unlabelled l ≤ fuel) :
    ∃ l', labelLoop els cid fuel l q = some l' ∧ LoopInv els cid i l0 l' [] := by
  induction fuel generalizing l q with
  | zero =>
    have : q = [] := List.length_eq_zero_iff.1 (by omega)
    subst this
    exact ⟨l, rfl, hinv⟩
  | succ fuel ih =>
    cases q with
    | nil => exact ⟨l, rfl, hinv⟩
    | cons j q =>
      simp only [labelLoop]
      have hf := foldLabel cid (neighbours els (els.getD j [])) l q
      generalize (neighbours els (els.getD j [])).foldl (labelStep cid) (l, q) = st at hf
      obtain ⟨l', q'⟩ := st
      simp only at hf ⊢
      have hj := hinv.queue j (by simp)
      have hlink : Linked els i j := by
        rcases hinv.new j cid hj with h | h
        · exact absurd (h0 _ _ h) (by omega)
        · exact h.2
      apply ih
      · refine ⟨by rw [hf.len, hinv.len], fun k x h => hf.keep _ _ (hinv.keep _ _ h), ?_,
          hf.keep _ _ hinv.start, ?_, ?_⟩
        · intro k x hk
          rcases hf.new k x hk with h | ⟨rfl, h, _⟩
          · exact hinv.new k x h
          · exact Or.inr ⟨rfl, Linked.step hlink (mem_neighbours.1 h)⟩
        · intro k hk
          rcases hf.qnew k hk with h | ⟨_, h⟩
          · exact hf.keep _ _ (hinv.queue k (by simp [h]))
          · exact h
        · intro k hk
          rcases hf.new k cid hk with h | ⟨_, _, h⟩
          · rcases hinv.closed k h with h2 | h2
            · rcases List.mem_cons.1 h2 with rfl | h2
              · right
                intro w hw
                exact hf.all w (mem_neighbours.2 hw) (by rw [hinv.len]; exact hw.lt_right)
              · exact Or.inl (hf.qsub k h2)
            · right
              intro w hw
              obtain ⟨x, hx⟩ := h2 w hw
              exact ⟨x, hf.keep _ _ hx⟩
          · exact Or.inl h
      · have := hf.meas
        simp at hfuel; omega

/-- Invariant of the outer loop of `_get_connected_elements`. -/
structure CompInv (els : List Elem) (done : Nat) (l : List (Option Nat)) (cid : Nat) : Prop where
  len : l.length = els.length
  lt : ∀ (j x : Nat), l[j]? = some (some x) → x < cid
  used : ∀ x, x < cid → ∃ j : Nat, l[j]? = some (some x)
  linked : ∀ (j k x : Nat), l[j]? = some (some x) → l[k]? = some (some x) → Linked els j k
  closed : ∀ (j k x : Nat), l[j]? = some (some x) → SharesVertex els j k → l[k]? = some (some x)
  done : ∀ i, i < done → i < els.length → ∃ x, l[i]? = some (some x)

theorem componentStep_spec (els : List Elem) (i : Nat) (l : List (Option Nat)) (cid : Nat)
    (hi : i < els.length) (h : CompInv els i l cid) :
    ∃ l' cid', componentStep els (l, cid) i = some (l', cid') ∧ CompInv els (i+1) l' cid' := by
  unfold componentStep
  by_cases hn : l[i]? = some none
  · simp only [hn, if_true]
    have hset : (l.set i (some cid))[i]? = some (some cid) := by simp [h.len, hi]
    have hinv : LoopInv els cid i l (l.set i (some cid)) [i] := by
      refine ⟨by simp [h.len], ?_, ?_, hset, by simpa using hset, ?_⟩
      · intro j x hj
        have : i ≠ j := by rintro rfl; rw [hn] at hj; simp at hj
        rw [List.getElem?_set_ne this]; exact hj
      · intro j x hj
        by_cases hij : i = j
        · subst hij
          rw [hset] at hj; simp at hj
          exact Or.inr ⟨hj.symm, Linked.refl hi⟩
        · rw [List.getElem?_set_ne hij] at hj; exact Or.inl hj
      · intro j hj
        by_cases hij : i = j
        · subst hij; simp
        · rw [List.getElem?_set_ne hij] at hj
          exact absurd (h.lt _ _ hj) (by omega)
    obtain ⟨l', hl', hinv'⟩ := labelLoop_spec els cid i l h.lt els.length _ _ hinv (by
      have := unlabelled_set (c := cid) hn
      have h2 : unlabelled l ≤ l.length := List.count_le_length
      simp only [List.length_singleton]
      rw [h.len] at h2; omega)
    refine ⟨l', cid+1, by simp [hl'], ?_⟩
    refine ⟨hinv'.len, ?_, ?_, ?_, ?_, ?_⟩
    · intro j x hj
      rcases hinv'.new j x hj with h1 | h1
      · have := h.lt _ _ h1; omega
      · omega
    · intro x hx
      by_cases hxc : x = cid
      · subst hxc; exact ⟨i, hinv'.start⟩
      · obtain ⟨j, hj⟩ := h.used x (by omega)
        exact ⟨j, hinv'.keep _ _ hj⟩
    · intro j k x hj hk
      rcases hinv'.new j x hj with h1 | ⟨hx1, h1⟩
      · rcases hinv'.new k x hk with h2 | ⟨hx2, h2⟩
        · exact h.linked _ _ _ h1 h2
        · have := h.lt _ _ h1; omega
      · rcases hinv'.new k x hk with h2 | ⟨hx2, h2⟩
        · have := h.lt _ _ h2; omega
        · exact h1.symm.trans h2
    · intro j k x hj hjk
      rcases hinv'.new j x hj with h1 | ⟨rfl, h1⟩
      · exact hinv'.keep _ _ (h.closed _ _ _ h1 hjk)
      · rcases hinv'.closed j hj with h2 | h2
        · simp at h2
        · obtain ⟨y, hy⟩ := h2 k hjk
          rcases hinv'.new k y hy with h3 | ⟨rfl, _⟩
          · have h4 := h.closed _ _ _ h3 hjk.symm
            have h5 := hinv'.keep _ _ h4
            rw [hj] at h5
            have h6 : x = y := by simpa using h5
            rw [h6]; exact hy
          · exact hy
    · intro k hk hkl
      by_cases hki : k = i
      · subst hki; exact ⟨cid, hinv'.start⟩
      · obtain ⟨x, hx⟩ := h.done k (by omega) hkl
        exact ⟨x, hinv'.keep _ _ hx⟩
  · refine ⟨l, cid, by simp [hn], h.len, h.lt, h.used, h.linked, h.closed, ?_⟩
    intro k hk hkl
    by_cases hki : k = i
    · subst hki
      have hh : l[k]? = some (l[k]'(by rw [h.len]; exact hkl)) := by simp
      cases h3 : l[k]'(by rw [h.len]; exact hkl) with
      | none => rw [h3] at hh; exact absurd hh hn
      | some x => rw [h3] at hh; exact ⟨x, hh⟩
    · exact h.done k (by omega) hkl

theorem componentFold_spec (els : List Elem) (n : Nat) (hn : n ≤ els.length) :
    ∃ l cid, (List.range n).foldlM (componentStep els)
      (List.replicate els.length none, 0) = some (l, cid) ∧ CompInv els n l cid := by
  induction n with
  | zero =>
    refine ⟨_, _, rfl, by simp, ?_, ?_, ?_, ?_, by simp⟩
    · intro j x hj; simp [List.getElem?_replicate] at hj
    · intro x hx; omega
    · intro j k x hj; simp [List.getElem?_replicate] at hj
    · intro j k x hj; simp [List.getElem?_replicate] at hj
  | succ n ih =>
    obtain ⟨l, cid, h1, h2⟩ := ih (by omega)
    obtain ⟨l', cid', h3, h4⟩ := componentStep_spec els n l cid (by omega) h2
    refine ⟨l', cid', ?_, h4⟩
    rw [List.range_succ, List.foldlM_append, h1]
    simpa using h3

theorem mem_withLabel {l : List (Option Nat)} {c i : Nat} :
    i ∈ withLabel l c ↔ l[i]? = some (some c) := by
  unfold withLabel
  simp only [List.mem_filter, List.mem_range, beq_iff_eq]
  constructor
  · exact fun h => h.2
  · exact fun h => ⟨(List.getElem?_eq_some_iff.1 h).1, h⟩

theorem withLabel_nodup (l : List (Option Nat)) (c : Nat) : (withLabel l c).Nodup :=
  List.Nodup.sublist List.filter_sublist List.nodup_range

theorem withLabel_sorted (l : List (Option Nat)) (c : Nat) : (withLabel l c).Pairwise (· < ·) :=
  List.Pairwise.sublist List.filter_sublist List.pairwise_lt_range

/-- Full specification of `_get_connected_elements`. -/
theorem connectedElements_spec (els : List Elem) :
    ∃ comps, connectedElements els = some comps ∧ (∀ c ∈ comps, c ≠ []) ∧
      comps.flatten.Perm (List.range els.length) ∧
      (∀ c ∈ comps, c.Pairwise (· < ·)) ∧
      (∀ c ∈ comps, ∀ i ∈ c, ∀ j, j ∈ c ↔ Linked els i j) := by
  obtain ⟨l, cid, h1, h⟩ := componentFold_spec els els.length (Nat.le_refl _)
  refine ⟨(List.range cid).map (withLabel l), ?_, ?_, ?_, ?_, ?_⟩
  · unfold connectedElements; rw [h1]; rfl
  · intro c hc
    obtain ⟨x, hx, rfl⟩ := List.mem_map.1 hc
    obtain ⟨j, hj⟩ := h.used x (by simpa using hx)
    exact List.ne_nil_of_mem (mem_withLabel.2 hj)
  · rw [List.perm_ext_iff_of_nodup]
    · intro a
      simp only [List.mem_flatten, List.mem_map, List.mem_range]
      constructor
      · rintro ⟨_, ⟨x, _, rfl⟩, ha⟩
        have := (List.getElem?_eq_some_iff.1 (mem_withLabel.1 ha)).1
        rwa [h.len] at this
      · intro ha
        obtain ⟨x, hx⟩ := h.done a ha ha
        exact ⟨_, ⟨x, h.lt _ _ hx, rfl⟩, mem_withLabel.2 hx⟩
    · unfold List.Nodup
      rw [List.pairwise_flatten]
      constructor
      · intro c hc
        obtain ⟨x, _, rfl⟩ := List.mem_map.1 hc
        exact withLabel_nodup l x
      · rw [List.pairwise_map]
        refine List.Pairwise.imp ?_ (List.nodup_range (n := cid))
        intro x y hxy a ha b hb hab
        subst hab
        rw [mem_withLabel] at ha hb
        rw [ha] at hb; simp at hb; exact hxy hb
    · exact List.nodup_range
  · intro c hc
    obtain ⟨x, _, rfl⟩ := List.mem_map.1 hc
    exact withLabel_sorted l x
  · intro c hc i hi j
    obtain ⟨x, _, rfl⟩ := List.mem_map.1 hc
    rw [mem_withLabel] at hi ⊢
    constructor
    · intro hj; exact h.linked _ _ _ hi hj
    · intro hl
      induction hl with
      | refl _ => exact hi
      | step _ hs ih => exact h.closed _ _ _ ih hs

end Traceon
