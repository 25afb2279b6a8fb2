import Verif.Lemmas.ReorientTris
import Verif.Lemmas.MeshOps

/-! Orientation of a named group, piece by piece. -/
namespace Traceon
open Spec
variable {P : Type} {G : Geo P}

theorem gather_elemsAt {els : List Elem} {g : List Nat} (h : ∀ i ∈ g, i < els.length) :
    gather els g = some (elemsAt els g) := by
  obtain ⟨r, hr⟩ := gather_isSome h
  rw [hr]
  congr 1
  have h2 := gather_eq_some_iff.1 hr
  have h4 : elemsAt els g = (g.map (fun i => els[i]?)).filterMap id := by
    unfold elemsAt; rw [List.filterMap_map]; rfl
  rw [h4, h2, List.filterMap_map]
  exact (List.filterMap_some (l := r)).symm

theorem elemsAt_getElem? {els : List Elem} {g : List Nat} (h : ∀ i ∈ g, i < els.length) (k : Nat) :
    (elemsAt els g)[k]? = g[k]?.bind (fun i => els[i]?) :=
  gather_getElem? (gather_elemsAt h) k

theorem elemsAt_length {els : List Elem} {g : List Nat} (h : ∀ i ∈ g, i < els.length) :
    (elemsAt els g).length = g.length := gather_length (gather_elemsAt h)

/-- what the loop over the pieces does -/
theorem orientFold_pieces {flip : Elem → Elem} {orient : List Elem → Option (List Elem)}
    (ho : GoodOrient flip orient) (comps : List (List Nat)) (s0 s : List Elem)
    (hc : ∀ c ∈ comps, c ≠ [] ∧ ∀ i ∈ c, i < s.length) (hnd : comps.flatten.Nodup)
    (hlen : s.length = s0.length)
    (hsame : ∀ c ∈ comps, ∀ k ∈ c, s[k]? = s0[k]?) :
    ∃ s', comps.foldlM (fun s c => do
      let piece ← gather s c
      let piece' ← orient piece
      return scatter s c piece') s = some s' ∧ s'.length = s.length ∧
      (∀ k, k ∉ comps.flatten → s'[k]? = s[k]?) ∧
      (∀ c ∈ comps, ∃ piece', orient (elemsAt s0 c) = some piece' ∧ elemsAt s' c = piece') := by
  induction comps generalizing s with
  | nil => exact ⟨s, rfl, rfl, fun _ _ => rfl, by simp⟩
  | cons c comps ih =>
    obtain ⟨hc1, hc2⟩ := hc c (by simp)
    rw [List.flatten_cons, List.nodup_append] at hnd
    obtain ⟨hndc, hndr, hdisj⟩ := hnd
    have hg : gather s c = some (elemsAt s0 c) := by
      rw [gather_elemsAt hc2]
      congr 1
      unfold elemsAt
      exact filterMap_congr' (fun k hk => hsame c (by simp) k hk)
    have hpne : elemsAt s0 c ≠ [] := by
      intro h
      have := gather_length hg
      rw [h] at this
      simp at this
      exact hc1 (List.length_eq_zero_iff.1 this.symm)
    obtain ⟨piece', hp', hk⟩ := ho _ hpne
    have hlp : piece'.length = c.length := by rw [hk.1]; exact gather_length hg
    obtain ⟨s', h1, h2, h3, h4⟩ := ih (scatter s c piece')
      (fun d hd => by
        have := hc d (by simp [hd])
        simpa using this) hndr (by simpa using hlen)
      (fun d hd k hkd => by
        rw [scatter_getElem?_of_notMem]
        · exact hsame d (by simp [hd]) k hkd
        · intro hkc
          exact hdisj k hkc k (List.mem_flatten.2 ⟨d, hd, hkd⟩) rfl)
    refine ⟨s', ?_, by simpa using h2, ?_, ?_⟩
    · simp only [List.foldlM_cons, hg, hp', Option.bind_eq_bind, Option.bind_some]
      exact h1
    · intro k hk'
      rw [List.flatten_cons, List.mem_append, not_or] at hk'
      rw [h3 k hk'.2, scatter_getElem?_of_notMem _ _ _ _ hk'.1]
    · intro d hd
      rcases List.mem_cons.1 hd with rfl | hd
      · refine ⟨piece', hp', ?_⟩
        have hlt : ∀ i ∈ d, i < s'.length := by
          intro i hi; rw [h2]; simpa using hc2 i hi
        apply List.ext_getElem?
        intro k
        rw [elemsAt_getElem? hlt]
        cases hdk : d[k]? with
        | none =>
          have : piece'[k]? = none := by
            rw [List.getElem?_eq_none_iff] at hdk ⊢; omega
          rw [this]; rfl
        | some i =>
          have hi := List.mem_of_getElem? hdk
          simp only [Option.bind_some]
          rw [h3 i (fun hin => hdisj i hi i hin rfl)]
          exact scatter_getElem?_of_nodup s d piece' hndc hlp k i hdk (hc2 i hi)
      · exact h4 d hd

/-- Pieces are determined by one of their members. -/
theorem piece_unique {els : List Elem} {c d : List Nat} (hc : IsPiece els c) (hd : IsPiece els d)
    {i : Nat} (hic : i ∈ c) (hid : i ∈ d) : c = d := by
  apply List.Perm.eq_of_pairwise (le := (· < ·)) (fun a b _ _ h h' => absurd h' (by omega))
    hc.ascending hd.ascending
  rw [List.perm_ext_iff_of_nodup (hc.ascending.imp (fun h => by omega)) (hd.ascending.imp (fun h => by omega))]
  intro j
  rw [hc.component i hic j, hd.component i hid j]

/-- **Orientation of a group.** Every connected piece of the group is replaced by the result of
`orient`. -/
theorem orientGroup_pieces {flip : Elem → Elem}
    {orient : List Elem → Option (List Elem)} (ho : GoodOrient flip orient)
    (els : List Elem) (idx : List Nat) (hi : ∀ i ∈ idx, i < els.length) (hnd : idx.Nodup)
    {els' : List Elem} (h : orientGroup orient els idx = some els') :
    els'.length = els.length ∧
    ∀ c, IsPiece (elemsAt els idx) c →
      orient (elemsAt (elemsAt els idx) c) = some (elemsAt (elemsAt els' idx) c) := by
  unfold orientGroup at h
  rw [gather_elemsAt hi] at h
  simp only [Option.bind_eq_bind, Option.bind_some] at h
  by_cases he : (elemsAt els idx).isEmpty = true
  · rw [if_pos he] at h
    cases h
    refine ⟨rfl, ?_⟩
    intro c hc
    exfalso
    have h0 : elemsAt els idx = [] := by simpa using he
    cases c with
    | nil => exact hc.nonempty rfl
    | cons i c =>
      have := Linked.lt_right ((hc.component i (by simp) i).1 (by simp))
      rw [h0] at this; simp at this
  · rw [if_neg he] at h
    obtain ⟨comps, hc1, hc2, hc3, hc4, hc5⟩ := connectedElements_spec (elemsAt els idx)
    rw [hc1] at h
    simp only [Option.bind_some] at h
    have hmem : ∀ i, i ∈ comps.flatten ↔ i < (elemsAt els idx).length := by
      intro i; rw [hc3.mem_iff]; simp
    obtain ⟨s', h1, h2, _, h4⟩ := orientFold_pieces ho comps (elemsAt els idx) (elemsAt els idx)
      (fun c hc => ⟨hc2 c hc, fun i hi => (hmem i).1 (List.mem_flatten.2 ⟨c, hc, hi⟩)⟩)
      (hc3.nodup_iff.2 List.nodup_range) rfl (fun _ _ _ _ => rfl)
    simp only [Option.bind_eq_bind] at h1
    rw [h1] at h
    simp only [Option.bind_some] at h
    have hels : els' = scatter els idx s' := (Option.some.inj h).symm
    subst hels
    refine ⟨by simp, ?_⟩
    intro c hc
    obtain ⟨i, hic⟩ := List.exists_mem_of_ne_nil c hc.nonempty
    have hlt := Linked.lt_right ((hc.component i hic i).1 hic)
    obtain ⟨d, hd, hid⟩ := List.mem_flatten.1 ((hmem i).2 hlt)
    have hdp : IsPiece (elemsAt els idx) d := ⟨hc2 d hd, hc4 d hd, hc5 d hd⟩
    have hcd := piece_unique hc hdp hic hid
    subst hcd
    obtain ⟨piece', hp1, hp2⟩ := h4 c hd
    rw [hp1]
    congr 1
    rw [← hp2]
    congr 1
    -- reading the group back gives s'
    have hlen : s'.length = idx.length := by rw [h2, elemsAt_length hi]
    apply List.ext_getElem?
    intro k
    rw [elemsAt_getElem? (els := scatter els idx s') (by simpa using hi)]
    cases hk : idx[k]? with
    | none =>
      rw [List.getElem?_eq_none_iff] at hk
      have : s'[k]? = none := by rw [List.getElem?_eq_none_iff]; omega
      rw [this]; rfl
    | some j =>
      simp only [Option.bind_some]
      exact (scatter_getElem?_of_nodup els idx s' hnd hlen k j hk (hi j (List.mem_of_getElem? hk))).symm

/-! ### connectivity does not depend on the orientation of elements -/

/-- Same elements up to the order of their vertices. -/
def SameVerts (a b : List Elem) : Prop :=
  a.length = b.length ∧ ∀ (k : Nat) x y, a[k]? = some x → b[k]? = some y → ∀ v, v ∈ x ↔ v ∈ y

theorem SameVerts.symm {a b : List Elem} (h : SameVerts a b) : SameVerts b a :=
  ⟨h.1.symm, fun k x y hx hy v => (h.2 k y x hy hx v).symm⟩

theorem SameVerts.share {a b : List Elem} (h : SameVerts a b) {i j : Nat} (hs : SharesVertex a i j) :
    SharesVertex b i j := by
  obtain ⟨x, y, v, hx, hy, h1, h2⟩ := hs
  have hil : i < b.length := by rw [← h.1]; exact (List.getElem?_eq_some_iff.1 hx).1
  have hjl : j < b.length := by rw [← h.1]; exact (List.getElem?_eq_some_iff.1 hy).1
  have hb1 : b[i]? = some b[i] := List.getElem?_eq_getElem hil
  have hb2 : b[j]? = some b[j] := List.getElem?_eq_getElem hjl
  exact ⟨b[i], b[j], v, hb1, hb2, (h.2 i _ _ hx hb1 v).1 h1, (h.2 j _ _ hy hb2 v).1 h2⟩

theorem SameVerts.linked {a b : List Elem} (h : SameVerts a b) {i j : Nat} (hs : Linked a i j) :
    Linked b i j := by
  induction hs with
  | refl hi => exact Linked.refl (by rw [← h.1]; exact hi)
  | step _ hsv ih => exact Linked.step ih (h.share hsv)

theorem SameVerts.isPiece {a b : List Elem} (h : SameVerts a b) {c : List Nat} (hc : IsPiece a c) :
    IsPiece b c :=
  ⟨hc.nonempty, hc.ascending, fun i hi j => (hc.component i hi j).trans ⟨h.linked, h.symm.linked⟩⟩

theorem KF.sameVerts {flip : Elem → Elem} (hf : ∀ e v, v ∈ flip e ↔ v ∈ e) {a b : List Elem}
    (h : KF flip a b) : SameVerts a b := by
  refine ⟨h.1.symm, ?_⟩
  intro k x y hx hy v
  rcases h.2 k with h1 | h1
  · rw [h1, hx] at hy; cases hy; rfl
  · rw [h1, hx] at hy
    simp only [Option.map_some, Option.some.injEq] at hy
    subst hy; exact (hf x v).symm

theorem KF.elemsAt {flip : Elem → Elem} {a b : List Elem} (h : KF flip a b) {g : List Nat}
    (hg : ∀ i ∈ g, i < a.length) : KF flip (elemsAt a g) (elemsAt b g) := by
  have hg' : ∀ i ∈ g, i < b.length := fun i hi => by rw [h.1]; exact hg i hi
  refine ⟨by rw [elemsAt_length hg, elemsAt_length hg'], ?_⟩
  intro k
  rw [elemsAt_getElem? hg, elemsAt_getElem? hg']
  cases g[k]? with
  | none => left; rfl
  | some i => exact h.2 i

/-- A piece is connected in itself. -/
theorem piece_connected {els : List Elem} {c : List Nat} (hc : IsPiece els c) :
    Connected (elemsAt els c) := by
  have hlt : ∀ i ∈ c, i < els.length := fun i hi => Linked.lt_right ((hc.component i hi i).1 hi)
  have key : ∀ (a : Nat) (i : Nat), c[a]? = some i → ∀ j, Linked els i j → ∀ b, c[b]? = some j →
      Linked (elemsAt els c) a b := by
    intro a i ha j hl
    induction hl with
    | refl _ =>
      intro b hb
      have hab : a = b := by
        have hn : c.Nodup := hc.ascending.imp (fun h => by omega)
        obtain ⟨h1, h2⟩ := List.getElem?_eq_some_iff.1 ha
        obtain ⟨h3, h4⟩ := List.getElem?_eq_some_iff.1 hb
        exact (List.getElem_inj hn).1 (h2.trans h4.symm)
      subst hab
      exact Linked.refl (by rw [elemsAt_length hlt]; exact (List.getElem?_eq_some_iff.1 ha).1)
    | @step j k hl hs ih =>
      intro b hb
      have hj : j ∈ c := (hc.component i (List.mem_of_getElem? ha) j).2 hl
      obtain ⟨b', hb'⟩ := List.mem_iff_getElem?.1 hj
      apply Linked.step (ih b' hb')
      obtain ⟨x, y, v, hx, hy, h1, h2⟩ := hs
      refine ⟨x, y, v, ?_, ?_, h1, h2⟩
      · rw [elemsAt_getElem? hlt, hb']; exact hx
      · rw [elemsAt_getElem? hlt, hb]; exact hy
  intro a b ha hb
  rw [elemsAt_length hlt] at ha hb
  have h1 : c[a]? = some c[a] := List.getElem?_eq_getElem ha
  have h2 : c[b]? = some c[b] := List.getElem?_eq_getElem hb
  exact key a _ h1 _ ((hc.component _ (List.getElem_mem _) _).1 (List.getElem_mem _)) b h2

/-! ### transfer along reversal -/

theorem KF.someReversed {a b : List Elem} (h : KF flipLine a b)
    (hs : ∀ l ∈ a, l.length = 2 ∨ l.length = 4) : SomeReversed a b := by
  refine ⟨h.1.symm, ?_⟩
  intro k x y hx hy
  rcases h.2 k with h1 | h1
  · rw [h1, hx] at hy; exact Or.inl (Option.some.inj hy)
  · rw [h1, hx] at hy
    simp only [Option.map_some, Option.some.injEq] at hy
    exact Or.inr (hy ▸ reversed_flip (hs x (List.mem_of_getElem? hx)))

theorem reversed_symm {a b : List Nat} (h : Reversed a b) : Reversed b a := by
  rcases h with ⟨p, q, rfl, rfl⟩ | ⟨p, q, r, s, rfl, rfl⟩
  · exact Or.inl ⟨q, p, rfl, rfl⟩
  · exact Or.inr ⟨q, p, s, r, rfl, rfl⟩

theorem someReversed_symm {a b : List Elem} (h : SomeReversed a b) : SomeReversed b a :=
  ⟨h.1.symm, fun k x y hx hy => (h.2 k y x hy hx).imp Eq.symm reversed_symm⟩

theorem someReversed_trans {a b c : List Elem} (h1 : SomeReversed a b) (h2 : SomeReversed b c) :
    SomeReversed a c := by
  refine ⟨h1.1.trans h2.1, ?_⟩
  intro k x z hx hz
  have hk : k < b.length := by rw [← h1.1]; exact (List.getElem?_eq_some_iff.1 hx).1
  have hy : b[k]? = some b[k] := List.getElem?_eq_getElem hk
  rcases h1.2 k _ _ hx hy with h | h <;> rcases h2.2 k _ _ hy hz with h' | h'
  · exact Or.inl (h.trans h')
  · exact Or.inr (h ▸ h')
  · exact Or.inr (h' ▸ h)
  · left
    have e1 := flip_of_reversed h
    have e2 := flip_of_reversed h'
    rw [e2, e1, flipLine_flipLine]

theorem lines_of_someReversed {a b : List Elem} (h : SomeReversed a b) (hL : Lines a) : Lines b := by
  have get : ∀ (k : Nat) y, b[k]? = some y → ∃ x, a[k]? = some x ∧ (y = x ∨ y = flipLine x) := by
    intro k y hy
    have hk : k < a.length := by rw [h.1]; exact (List.getElem?_eq_some_iff.1 hy).1
    have hx : a[k]? = some a[k] := List.getElem?_eq_getElem hk
    refine ⟨_, hx, ?_⟩
    rcases h.2 k _ _ hx hy with h1 | h1
    · exact Or.inl h1.symm
    · exact Or.inr (flip_of_reversed h1)
  refine ⟨?_, ?_, ?_⟩
  · intro l hl
    obtain ⟨k, hk⟩ := List.mem_iff_getElem?.1 hl
    obtain ⟨x, hx, h1⟩ := get k l hk
    have := hL.shape x (List.mem_of_getElem? hx)
    rcases h1 with rfl | rfl
    · exact this
    · rw [flipLine_length]; exact this
  · intro l hl
    obtain ⟨k, hk⟩ := List.mem_iff_getElem?.1 hl
    obtain ⟨x, hx, h1⟩ := get k l hk
    have hm := List.mem_of_getElem? hx
    rcases h1 with rfl | rfl
    · exact hL.ends _ hm
    · exact flip_ends_ne (hL.shape _ hm) (hL.ends _ hm)
  · intro i j y z v hy hz hv
    obtain ⟨y0, hy0, h1⟩ := get i y hy
    obtain ⟨z0, hz0, h2⟩ := get j z hz
    have hv0 : v ∈ y0.drop 2 := by
      rcases h1 with rfl | rfl
      · exact hv
      · exact (drop_flip_mem v).1 hv
    have := hL.inner i j y0 z0 v hy0 hz0 hv0
    rcases h2 with rfl | rfl
    · exact this
    · refine ⟨fun hm => this.1 ((mem_endPoints_flip v).1 hm), fun hij hm => this.2 hij ((mem_flipLine v).1 hm)⟩

end Traceon
