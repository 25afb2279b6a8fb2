import Verif.Model.Mesh
import Verif.Lemmas.List
import Verif.Lemmas.Connect

/-! Lemmas about the re-orientation loops. -/
namespace Traceon

section structure_
variable (test : Elem → Elem → Option Bool) (flip : Elem → Elem)

/-- What is preserved by any run of the loop, whatever the orientation test returns. -/
structure StInv (orig : List Elem) (st : OState) : Prop where
  len : st.els.length = orig.length
  olen : st.oriented.length = orig.length
  els : ∀ n : Nat, st.els[n]? = orig[n]? ∨ st.els[n]? = orig[n]?.map flip
  un : ∀ n : Nat, st.oriented[n]? ≠ some true → st.els[n]? = orig[n]?

theorem visit_StInv {orig : List Elem} {st : OState} (h : StInv flip orig st) (ti n : Nat) :
    StInv flip orig (reorientVisit test flip ti st n) := by
  unfold reorientVisit
  split
  · exact h
  · rename_i ho
    split
    · exact h
    · rename_i eq _
      have hn := h.un n ho
      have key : ∀ k : Nat, (if eq then st.els else st.els.set n (flip (st.els.getD n [])))[k]? = st.els[k]?
          ∨ (k = n ∧ (if eq then st.els else st.els.set n (flip (st.els.getD n [])))[k]? = orig[k]?.map flip) := by
        intro k
        cases eq with
        | true => simp
        | false =>
          simp only [Bool.false_eq_true, if_false]
          by_cases hk : n = k
          · subst hk
            right
            refine ⟨rfl, ?_⟩
            by_cases hl : n < st.els.length
            · have h2 : st.els[n]? = some st.els[n] := by simp [hl]
              rw [← hn, h2]; simp [hl]
            · have : st.els[n]? = none := by simpa using hl
              rw [← hn, this]; simpa using hl
          · left; exact List.getElem?_set_ne hk
      refine ⟨?_, by simpa using h.olen, ?_, ?_⟩
      · simp only; split <;> simp [h.len]
      · intro k
        rcases key k with h1 | ⟨rfl, h1⟩
        · simp only [h1]; exact h.els k
        · exact Or.inr h1
      · intro k hk
        simp only at hk
        by_cases hkn : n = k
        · subst hkn
          by_cases hl : n < st.oriented.length
          · simp [hl] at hk
          · have hl' : ¬ n < orig.length := by rw [← h.olen]; exact hl
            have : (if eq = true then st.els else st.els.set n (flip (st.els.getD n [])))[n]? = none := by
              apply List.getElem?_eq_none
              split <;> simp [h.len] <;> omega
            simp only [this]
            symm; simpa using hl'
        · rcases key k with h1 | ⟨rfl, h1⟩
          · simp only [h1]
            apply h.un
            rwa [List.getElem?_set_ne hkn] at hk
          · exact absurd rfl hkn

/-- number of not yet oriented elements -/
def unoriented (l : List Bool) : Nat := l.count false

theorem unoriented_set {l : List Bool} {n : Nat} (hn : n < l.length) (h : l[n]? ≠ some true) :
    unoriented (l.set n true) + 1 = unoriented l := by
  unfold unoriented
  have hf : l[n] = false := by
    cases hv : l[n] with
    | false => rfl
    | true => exact absurd (by simp [hn, hv]) h
  rw [List.count_set hn]
  have : 0 < l.count false := List.count_pos_iff.2 (by rw [← hf]; exact List.getElem_mem hn)
  simp [hf]; omega

theorem visit_measure (st : OState) (ti n : Nat) (hn : n < st.oriented.length) :
    (reorientVisit test flip ti st n).active.length + unoriented (reorientVisit test flip ti st n).oriented
      = st.active.length + unoriented st.oriented := by
  unfold reorientVisit
  split
  · rfl
  · rename_i ho
    split
    · rfl
    · have := unoriented_set hn ho
      simp only [List.length_cons]; omega

theorem fold_StInv {orig : List Elem} (ti : Nat) (ns : List Nat) (st : OState)
    (h : StInv flip orig st) (hns : ∀ n ∈ ns, n < orig.length) :
    StInv flip orig (ns.foldl (reorientVisit test flip ti) st) ∧
    (ns.foldl (reorientVisit test flip ti) st).active.length +
      unoriented (ns.foldl (reorientVisit test flip ti) st).oriented
      = st.active.length + unoriented st.oriented := by
  induction ns generalizing st with
  | nil => exact ⟨h, rfl⟩
  | cons n ns ih =>
    have h1 := visit_StInv test flip h ti n
    have h2 := ih _ h1 (fun k hk => hns k (by simp [hk]))
    refine ⟨h2.1, ?_⟩
    rw [List.foldl_cons, h2.2, visit_measure]
    rw [h.olen]; exact hns n (by simp)

/-- The loop terminates within the fuel and every element is kept or flipped. -/
theorem reorientLoop_StInv {orig : List Elem} (v2i : Nat → List Nat)
    (hv : ∀ v, ∀ n ∈ v2i v, n < orig.length) (fuel : Nat) (st : OState)
    (h : StInv flip orig st) (hf : st.active.length + unoriented st.oriented ≤ fuel) :
    ∃ els, reorientLoop v2i test flip fuel st = some els ∧ els.length = orig.length ∧
      ∀ n : Nat, els[n]? = orig[n]? ∨ els[n]? = orig[n]?.map flip := by
  induction fuel generalizing st with
  | zero =>
    obtain ⟨els, ori, active⟩ := st
    have : active = [] := List.length_eq_zero_iff.1 (by have := hf; dsimp only at this; omega)
    subst this
    exact ⟨els, rfl, h.len, h.els⟩
  | succ fuel ih =>
    obtain ⟨els, ori, active⟩ := st
    cases active with
    | nil => exact ⟨els, rfl, h.len, h.els⟩
    | cons ti active =>
      simp only [reorientLoop]
      have h' : StInv flip orig ⟨els, ori, active⟩ := ⟨h.len, h.olen, h.els, h.un⟩
      have h2 := fold_StInv test flip ti ((els.getD ti []).flatMap v2i) ⟨els, ori, active⟩ h'
        (by
          intro n hn
          obtain ⟨v, _, hv2⟩ := List.mem_flatMap.1 hn
          exact hv v n hv2)
      apply ih _ h2.1
      rw [h2.2]
      simp at hf ⊢; omega

theorem StInv_init (els : List Elem) (active : List Nat) :
    StInv flip els ⟨els, List.replicate els.length false, active⟩ :=
  ⟨rfl, by simp, fun _ => Or.inl rfl, fun _ _ => rfl⟩

theorem unoriented_replicate (n : Nat) : unoriented (List.replicate n false) = n := by
  unfold unoriented; simp

end structure_

theorem reorientTriangles_some (test : Elem → Elem → Option Bool) (tris : List Elem) :
    ∃ els, reorientTriangles test tris = some els ∧ els.length = tris.length ∧
      ∀ n : Nat, els[n]? = tris[n]? ∨ els[n]? = tris[n]?.map flipTri := by
  unfold reorientTriangles
  by_cases he : tris.isEmpty = true
  · rw [if_pos he]; exact ⟨tris, rfl, rfl, fun _ => Or.inl rfl⟩
  · rw [if_neg he]
    apply reorientLoop_StInv test flipTri _ _ _ _ (StInv_init _ _ _)
    · simp only [unoriented_replicate, List.length_singleton]; omega
    · intro v n hn
      obtain ⟨e, he, _⟩ := mem_vertexToIndices.1 hn
      exact (List.getElem?_eq_some_iff.1 he).1

theorem reorientLines_some (lines : List Elem) (hne : lines ≠ []) :
    ∃ els, reorientLines lines = some els ∧ els.length = lines.length ∧
      ∀ n : Nat, els[n]? = lines[n]? ∨ els[n]? = lines[n]?.map flipLine := by
  unfold reorientLines
  have he : ¬ lines.isEmpty = true := by simpa using hne
  rw [if_neg he]
  apply reorientLoop_StInv _ flipLine _ _ _ _ (StInv_init _ _ _)
  · simp only [unoriented_replicate, List.length_singleton]; omega
  · intro v n hn
    obtain ⟨e, he, _⟩ := mem_vertexToIndices.1 hn
    have := (List.getElem?_eq_some_iff.1 he).1
    simpa using this

section consistent
variable {N : Nat} {pol : Bool → Nat → Elem} {M Eadj : Nat → Nat → Prop}
  {test : Elem → Elem → Option Bool} {flip : Elem → Elem}

/-- The abstract situation in which the walk succeeds: `pol true`/`pol false` are two opposite
orientations of all elements, the test recognises equal polarity for adjacent elements. -/
structure Walk (N : Nat) (pol : Bool → Nat → Elem) (M Eadj : Nat → Nat → Prop)
    (test : Elem → Elem → Option Bool) (flip : Elem → Elem) : Prop where
  flip_pol : ∀ b i, i < N → flip (pol b i) = pol (!b) i
  test_adj : ∀ i j b c, i < N → j < N → i ≠ j → M i j → Eadj i j → test (pol b i) (pol c j) = some (b == c)
  test_not : ∀ i j b c, i < N → j < N → i ≠ j → M i j → ¬ Eadj i j → test (pol b i) (pol c j) = none
  test_self : ∀ i b, i < N → test (pol b i) (pol b i) = some false
  adj_M : ∀ i j, i < N → Eadj i j → M i j ∧ j < N

structure RInv (N : Nat) (pol : Bool → Nat → Elem) (s : Bool) (st : OState) : Prop where
  len : st.els.length = N
  olen : st.oriented.length = N
  pol : ∀ n, n < N → ∃ b, st.els[n]? = some (pol b n) ∧ (st.oriented[n]? = some true → b = s)
  active : ∀ n ∈ st.active, n < N ∧ st.oriented[n]? = some true

structure Ext (st st' : OState) : Prop where
  ori : ∀ n : Nat, st.oriented[n]? = some true → st'.oriented[n]? = some true
  act : ∀ n ∈ st.active, n ∈ st'.active
  new : ∀ n : Nat, st'.oriented[n]? = some true → st.oriented[n]? = some true ∨ n ∈ st'.active

theorem Ext.refl (st : OState) : Ext st st := ⟨fun _ h => h, fun _ h => h, fun _ h => Or.inl h⟩

theorem Ext.trans {a b c : OState} (h1 : Ext a b) (h2 : Ext b c) : Ext a c :=
  ⟨fun n h => h2.ori n (h1.ori n h), fun n h => h2.act n (h1.act n h), fun n h => by
    rcases h2.new n h with h | h
    · rcases h1.new n h with h | h
      · exact Or.inl h
      · exact Or.inr (h2.act n h)
    · exact Or.inr h⟩

theorem getD_of_getElem? {α : Type _} {l : List α} {n : Nat} {a d : α} (h : l[n]? = some a) :
    l.getD n d = a := by simp [List.getD, h]

theorem Walk.visit (W : Walk N pol M Eadj test flip) {s : Bool} {st : OState}
    (h : RInv N pol s st) {ti n : Nat} (hti : ti < N) (hto : st.oriented[ti]? = some true)
    (hn : n < N) (hM : M ti n) :
    RInv N pol s (reorientVisit test flip ti st n) ∧ Ext st (reorientVisit test flip ti st n) ∧
    (Eadj ti n → (reorientVisit test flip ti st n).oriented[n]? = some true) := by
  unfold reorientVisit
  by_cases ho : st.oriented[n]? = some true
  · rw [if_pos ho]; exact ⟨h, Ext.refl st, fun _ => ho⟩
  · rw [if_neg ho]
    have hne : ti ≠ n := by rintro rfl; exact ho hto
    obtain ⟨b, hb, hbs⟩ := h.pol ti hti
    obtain ⟨c, hc, hcs⟩ := h.pol n hn
    rw [getD_of_getElem? hb, getD_of_getElem? hc]
    have hb' := hbs hto
    by_cases hE : Eadj ti n
    · rw [W.test_adj ti n b c hti hn hne hM hE]
      have hnl : n < st.oriented.length := by rw [h.olen]; exact hn
      have hon : (st.oriented.set n true)[n]? = some true := by simp [hnl]
      simp only
      refine ⟨⟨?_, by simpa using h.olen, ?_, ?_⟩, ⟨?_, ?_, ?_⟩, fun _ => hon⟩
      · split <;> simp [h.len]
      · intro k hk
        by_cases hkn : n = k
        · subst hkn
          refine ⟨s, ?_, fun _ => rfl⟩
          subst hb'
          cases hbc : (b == c) with
          | true =>
            have : b = c := by simpa using hbc
            subst this; simpa using hc
          | false =>
            have : c = !b := by cases b <;> cases c <;> simp_all
            subst this
            have hl : n < st.els.length := by rw [h.len]; exact hn
            simp only [Bool.false_eq_true, if_false, List.getElem?_set_self hl,
              W.flip_pol _ _ hn, Bool.not_not]
        · obtain ⟨d, hd, hds⟩ := h.pol k hk
          refine ⟨d, ?_, ?_⟩
          · rw [← hd]
            split
            · rfl
            · exact List.getElem?_set_ne hkn
          · rw [List.getElem?_set_ne hkn]; exact hds
      · intro k hk
        rcases List.mem_cons.1 hk with rfl | hk
        · exact ⟨hn, hon⟩
        · have := h.active k hk
          refine ⟨this.1, ?_⟩
          by_cases hkn : n = k
          · subst hkn; exact hon
          · rw [List.getElem?_set_ne hkn]; exact this.2
      · intro k hk
        by_cases hkn : n = k
        · subst hkn; exact hon
        · simp only; rw [List.getElem?_set_ne hkn]; exact hk
      · intro k hk; simp [hk]
      · intro k hk
        by_cases hkn : n = k
        · subst hkn; right; simp
        · left; simp only at hk; rwa [List.getElem?_set_ne hkn] at hk
    · rw [W.test_not ti n b c hti hn hne hM hE]
      exact ⟨h, Ext.refl st, fun h => absurd h hE⟩

theorem Walk.fold (W : Walk N pol M Eadj test flip) {s : Bool} {ti : Nat} (hti : ti < N)
    (ns : List Nat) (hns : ∀ n ∈ ns, n < N ∧ M ti n) (st : OState) (h : RInv N pol s st)
    (hto : st.oriented[ti]? = some true) :
    RInv N pol s (ns.foldl (reorientVisit test flip ti) st) ∧
    Ext st (ns.foldl (reorientVisit test flip ti) st) ∧
    (∀ n ∈ ns, Eadj ti n → (ns.foldl (reorientVisit test flip ti) st).oriented[n]? = some true) := by
  induction ns generalizing st with
  | nil => exact ⟨h, Ext.refl st, by simp⟩
  | cons n ns ih =>
    have hn := hns n (by simp)
    obtain ⟨h1, h2, h3⟩ := W.visit h hti hto hn.1 hn.2
    obtain ⟨h4, h5, h6⟩ := ih (fun k hk => hns k (by simp [hk])) _ h1 (h2.ori _ hto)
    refine ⟨h4, h2.trans h5, ?_⟩
    intro k hk hE
    rcases List.mem_cons.1 hk with rfl | hk
    · exact h5.ori _ (h3 hE)
    · exact h6 k hk hE

/-- Closure: every oriented element is waiting or has only oriented neighbours. -/
def Closed (N : Nat) (Eadj : Nat → Nat → Prop) (st : OState) : Prop :=
  ∀ i, i < N → st.oriented[i]? = some true → i ∈ st.active ∨ ∀ j, Eadj i j → st.oriented[j]? = some true

theorem Walk.loop (W : Walk N pol M Eadj test flip) {s : Bool} (v2i : Nat → List Nat)
    (hM : ∀ b i, i < N → ∀ j, j ∈ (pol b i).flatMap v2i ↔ (M i j ∧ j < N))
    (fuel : Nat) (st : OState) (h : RInv N pol s st) (hc : Closed N Eadj st)
    (h0 : st.oriented[0]? = some true) {out : List Elem}
    (hout : reorientLoop v2i test flip fuel st = some out) :
    ∃ st' : OState, st'.els = out ∧ st'.active = [] ∧ RInv N pol s st' ∧ Closed N Eadj st' ∧
      st'.oriented[0]? = some true := by
  induction fuel generalizing st with
  | zero =>
    obtain ⟨els, ori, active⟩ := st
    cases active with
    | nil => simp only [reorientLoop, Option.some.injEq] at hout; exact ⟨_, hout, rfl, h, hc, h0⟩
    | cons _ _ => simp [reorientLoop] at hout
  | succ fuel ih =>
    obtain ⟨els, ori, active⟩ := st
    cases active with
    | nil => simp only [reorientLoop, Option.some.injEq] at hout; exact ⟨_, hout, rfl, h, hc, h0⟩
    | cons ti active =>
      simp only [reorientLoop] at hout
      have hti := h.active ti (by simp)
      have h' : RInv N pol s ⟨els, ori, active⟩ :=
        ⟨h.len, h.olen, h.pol, fun n hn => h.active n (by simp only at hn; simp [hn])⟩
      obtain ⟨b, hb, _⟩ := h.pol ti hti.1
      simp only at hb
      rw [getD_of_getElem? hb] at hout
      obtain ⟨h1, h2, h3⟩ := W.fold hti.1 ((pol b ti).flatMap v2i) (by
        intro n hn
        have := (hM b ti hti.1 n).1 hn
        exact ⟨this.2, this.1⟩) ⟨els, ori, active⟩ h' hti.2
      apply ih _ h1 _ (h2.ori _ h0) hout
      intro i hi hio
      rcases h2.new i hio with h4 | h4
      · rcases hc i hi h4 with h5 | h5
        · simp only [List.mem_cons] at h5
          rcases h5 with rfl | h5
          · right
            intro j hj
            exact h3 j ((hM b i hi j).2 (W.adj_M i j hi hj)) hj
          · left; exact h2.act i h5
        · right; intro j hj; exact h2.ori _ (h5 j hj)
      · exact Or.inl h4

/-- If everything can be reached from element 0, the walk gives all elements one polarity. -/
theorem Walk.main (W : Walk N pol M Eadj test flip) (v2i : Nat → List Nat)
    (hM : ∀ b i, i < N → ∀ j, j ∈ (pol b i).flatMap v2i ↔ (M i j ∧ j < N))
    (hfirst : ∀ b, ∃ rest, (pol b 0).flatMap v2i = 0 :: rest)
    (hN : 0 < N) (els : List Elem) (hlen : els.length = N)
    (hpol : ∀ n, n < N → ∃ b, els[n]? = some (pol b n))
    (hconn : ∀ S : Nat → Prop, S 0 → (∀ i j, i < N → S i → Eadj i j → S j) → ∀ n, n < N → S n)
    (fuel : Nat) (out : List Elem)
    (hout : reorientLoop v2i test flip fuel ⟨els, List.replicate els.length false, [0]⟩ = some out) :
    ∃ s, ∀ n, n < N → out[n]? = some (pol s n) := by
  cases fuel with
  | zero => simp [reorientLoop] at hout
  | succ fuel =>
    simp only [reorientLoop] at hout
    obtain ⟨b, hb⟩ := hpol 0 hN
    rw [getD_of_getElem? hb] at hout
    obtain ⟨rest, hrest⟩ := hfirst b
    rw [hrest, List.foldl_cons] at hout
    have hv : reorientVisit test flip 0 ⟨els, List.replicate els.length false, []⟩ 0
        = ⟨els.set 0 (pol (!b) 0), (List.replicate els.length false).set 0 true, [0]⟩ := by
      unfold reorientVisit
      have : ¬ (List.replicate els.length false)[0]? = some true := by
        rw [List.getElem?_replicate]; split <;> simp
      rw [if_neg this]
      simp only [getD_of_getElem? hb, W.test_self 0 b hN, Bool.false_eq_true, if_false,
        W.flip_pol b 0 hN]
    rw [hv] at hout
    have hR : RInv N pol (!b) ⟨els.set 0 (pol (!b) 0), (List.replicate els.length false).set 0 true, [0]⟩ := by
      refine ⟨by simp [hlen], by simp [hlen], ?_, ?_⟩
      · intro n hn
        by_cases h0 : 0 = n
        · subst h0; exact ⟨!b, by simp [hlen, hN], fun _ => rfl⟩
        · obtain ⟨c, hc⟩ := hpol n hn
          refine ⟨c, by simp only; rw [List.getElem?_set_ne h0]; exact hc, ?_⟩
          simp only; rw [List.getElem?_set_ne h0, List.getElem?_replicate]
          split <;> simp
      · intro n hn
        simp at hn; subst hn
        exact ⟨hN, by simp [hlen, hN]⟩
    have h0 : ((List.replicate els.length false).set 0 true)[0]? = some true := by
      simp [hlen, hN]
    obtain ⟨h1, h2, h3⟩ := W.fold hN rest (by
      intro n hn
      have : n ∈ (pol b 0).flatMap v2i := by rw [hrest]; simp [hn]
      have := (hM b 0 hN n).1 this
      exact ⟨this.2, this.1⟩) _ hR h0
    obtain ⟨st', h4, h5, h6, h7, h8⟩ := W.loop v2i hM fuel _ h1 (by
      intro i hi hio
      rcases h2.new i hio with h4 | h4
      · by_cases hi0 : 0 = i
        · subst hi0; exact Or.inl (h2.act 0 (by simp))
        · simp only at h4
          rw [List.getElem?_set_ne hi0, List.getElem?_replicate] at h4
          split at h4 <;> simp at h4
      · exact Or.inl h4) (h2.ori _ h0) hout
    have hall := hconn (fun n => st'.oriented[n]? = some true) h8 (by
      intro i j hi hio hij
      rcases h7 i hi hio with h | h
      · rw [h5] at h; simp at h
      · exact h j hij)
    refine ⟨!b, fun n hn => ?_⟩
    obtain ⟨c, hc, hcs⟩ := h6.pol n hn
    rw [hcs (hall n hn), h4] at hc
    exact hc

end consistent
end Traceon
