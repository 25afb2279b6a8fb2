import Verif.Lemmas.Reorient
import Verif.Lemmas.Connect
import Verif.Lemmas.Build
import Verif.Spec.Orient

/-! C07: the walk along lines gives a consistent orientation if there is one. -/
namespace Traceon
open Spec

theorem Spec.Lines.cases {l : List Nat} (h : l.length = 2 ∨ l.length = 4) :
    (∃ p q, l = [p, q]) ∨ (∃ p q r s, l = [p, q, r, s]) := by
  match l with
  | [] => simp at h
  | [_] => simp at h
  | [p, q] => exact Or.inl ⟨p, q, rfl⟩
  | [_, _, _] => simp at h
  | [p, q, r, s] => exact Or.inr ⟨p, q, r, s, rfl⟩
  | _ :: _ :: _ :: _ :: _ :: _ => simp at h

theorem reversed_flip {l : List Nat} (h : l.length = 2 ∨ l.length = 4) : Reversed l (flipLine l) := by
  rcases Lines.cases h with ⟨p, q, rfl⟩ | ⟨p, q, r, s, rfl⟩
  · exact Or.inl ⟨p, q, rfl, rfl⟩
  · exact Or.inr ⟨p, q, r, s, rfl, rfl⟩

theorem flip_of_reversed {a b : List Nat} (h : Reversed a b) : b = flipLine a := by
  rcases h with ⟨p, q, rfl, rfl⟩ | ⟨p, q, r, s, rfl, rfl⟩ <;> rfl

theorem mem_endPoints_flip {l : List Nat} (v : Nat) :
    v ∈ endPoints (flipLine l) ↔ v ∈ endPoints l := by
  unfold flipLine
  split <;> simp [endPoints, or_comm]

theorem drop_flip_mem {l : List Nat} (v : Nat) : v ∈ (flipLine l).drop 2 ↔ v ∈ l.drop 2 := by
  unfold flipLine
  split <;> simp [or_comm]

theorem mem_flipLine {l : List Nat} (v : Nat) : v ∈ flipLine l ↔ v ∈ l :=
  (flipLine_perm l).mem_iff

theorem mem_take_drop {α : Type _} (l : List α) (n : Nat) (v : α) : v ∈ l ↔ v ∈ l.take n ∨ v ∈ l.drop n := by
  conv => lhs; rw [← List.take_append_drop n l]
  exact List.mem_append

/-- consistently oriented lines that do not have equal end points are never head to head -/
theorem lineTest {a b : List Nat} (ha : a.length = 2 ∨ a.length = 4) (hb : b.length = 2 ∨ b.length = 4)
    (hae : a[0]? ≠ a[1]?) (hbe : b[0]? ≠ b[1]?) (h : EndsAtStart a b ∨ EndsAtStart b a) :
    lineOrientationEqual a b = true ∧ lineOrientationEqual (flipLine a) (flipLine b) = true ∧
    lineOrientationEqual (flipLine a) b = false ∧ lineOrientationEqual a (flipLine b) = false := by
  unfold EndsAtStart at h
  rcases Lines.cases ha with ⟨p, q, rfl⟩ | ⟨p, q, r, s, rfl⟩ <;>
  rcases Lines.cases hb with ⟨p', q', rfl⟩ | ⟨p', q', r', s', rfl⟩ <;>
  · simp [lineOrientationEqual, flipLine] at h hae hbe ⊢
    grind

theorem lineTest_self {a : List Nat} (ha : a.length = 2 ∨ a.length = 4)
    (hae : a[0]? ≠ a[1]?) : lineOrientationEqual a a = false := by
  rcases Lines.cases ha with ⟨p, q, rfl⟩ | ⟨p, q, r, s, rfl⟩ <;>
  · simp [lineOrientationEqual] at hae ⊢
    grind

theorem flipLine_length (e : Elem) : (flipLine e).length = e.length := (flipLine_perm e).length_eq

theorem flip_ends_ne {a : List Nat} (ha : a.length = 2 ∨ a.length = 4) (hae : a[0]? ≠ a[1]?) :
    (flipLine a)[0]? ≠ (flipLine a)[1]? := by
  rcases Lines.cases ha with ⟨p, q, rfl⟩ | ⟨p, q, r, s, rfl⟩ <;>
  · simp [flipLine] at hae ⊢
    grind

theorem headToTail_flip {ls : List (List Nat)} (hs : ∀ l ∈ ls, l.length = 2 ∨ l.length = 4)
    (h : HeadToTail ls) : HeadToTail (ls.map flipLine) := by
  intro i j a b v hij ha hb hva hvb
  rw [List.getElem?_map, Option.map_eq_some_iff] at ha hb
  obtain ⟨a, ha, rfl⟩ := ha
  obtain ⟨b, hb, rfl⟩ := hb
  rw [mem_endPoints_flip] at hva hvb
  have h1 := h i j a b v hij ha hb hva hvb
  unfold EndsAtStart at h1 ⊢
  rcases Lines.cases (hs a (List.mem_of_getElem? ha)) with ⟨p, q, rfl⟩ | ⟨p, q, r, s, rfl⟩ <;>
  rcases Lines.cases (hs b (List.mem_of_getElem? hb)) with ⟨p', q', rfl⟩ | ⟨p', q', r', s', rfl⟩ <;>
  · simp [flipLine] at h1 ⊢
    grind

/-- The main lemma about the walk along lines. -/
theorem reorientLines_consistent (lines T : List Elem) (hne : lines ≠ []) (hL : Lines lines)
    (hconn : Connected lines) (hT : SomeReversed lines T) (hht : HeadToTail T) :
    ∃ out, reorientLines lines = some out ∧ SomeReversed lines out ∧ HeadToTail out := by
  obtain ⟨out, hout, hlen, hkf⟩ := reorientLines_some lines hne
  have hTlen : T.length = lines.length := hT.1.symm
  -- entries of T
  have hTk : ∀ k, k < lines.length → ∃ l t, lines[k]? = some l ∧ T[k]? = some t ∧ l ∈ lines ∧
      (t = l ∨ t = flipLine l) := by
    intro k hk
    have h1 : lines[k]? = some lines[k] := List.getElem?_eq_getElem hk
    have h2 : T[k]? = some (T[k]'(by omega)) := List.getElem?_eq_getElem (by omega)
    refine ⟨_, _, h1, h2, List.getElem_mem _, ?_⟩
    rcases hT.2 k _ _ h1 h2 with h | h
    · exact Or.inl h.symm
    · exact Or.inr (flip_of_reversed h)
  let pol : Bool → Nat → Elem := fun b k => if b then T.getD k [] else flipLine (T.getD k [])
  have hTd : ∀ k t, T[k]? = some t → T.getD k [] = t := fun k t h => getD_of_getElem? h
  have hTshape : ∀ (k : Nat) t, T[k]? = some t → t.length = 2 ∨ t.length = 4 := by
    intro k t ht
    have hk : k < lines.length := by rw [← hTlen]; exact (List.getElem?_eq_some_iff.1 ht).1
    obtain ⟨l, t', hl, ht', hmem, h⟩ := hTk k hk
    rw [ht] at ht'; cases ht'
    have := hL.shape l hmem
    rcases h with rfl | rfl
    · exact this
    · rw [flipLine_length]; exact this
  have hTends : ∀ (k : Nat) t, T[k]? = some t → t[0]? ≠ t[1]? := by
    intro k t ht
    have hk : k < lines.length := by rw [← hTlen]; exact (List.getElem?_eq_some_iff.1 ht).1
    obtain ⟨l, t', hl, ht', hmem, h⟩ := hTk k hk
    rw [ht] at ht'; cases ht'
    rcases h with rfl | rfl
    · exact hL.ends _ hmem
    · exact flip_ends_ne (hL.shape _ hmem) (hL.ends _ hmem)
  -- vertices of pol are the vertices of lines
  have hpolmem : ∀ b k l, lines[k]? = some l → ∀ v, (v ∈ pol b k ↔ v ∈ l) ∧
      (v ∈ endPoints (pol b k) ↔ v ∈ endPoints l) ∧ (v ∈ (pol b k).drop 2 ↔ v ∈ l.drop 2) := by
    intro b k l hl v
    obtain ⟨l', t, hl', ht, _, h⟩ := hTk k ((List.getElem?_eq_some_iff.1 hl).1)
    rw [hl] at hl'; cases hl'
    simp only [pol, hTd k t ht]
    rcases h with rfl | rfl <;> cases b <;> simp [mem_flipLine, mem_endPoints_flip, drop_flip_mem]
  let M : Nat → Nat → Prop := fun i j => ∃ a b v, lines[i]? = some a ∧ lines[j]? = some b ∧
    v ∈ endPoints a ∧ v ∈ endPoints b
  have W : Walk lines.length pol M M (fun l n => some (lineOrientationEqual l n)) flipLine := by
    refine ⟨?_, ?_, ?_, ?_, ?_⟩
    · intro b i _
      cases b <;> simp [pol, flipLine_flipLine]
    · rintro i j b c hi hj hij ⟨a', b', v, ha, hb, hva, hvb⟩ _
      obtain ⟨li, ti, hli, hti, _, _⟩ := hTk i hi
      obtain ⟨lj, tj, hlj, htj, _, _⟩ := hTk j hj
      have hvi : v ∈ endPoints ti := by
        have := ((hpolmem true i a' ha v).2.1).2 hva
        simpa [pol, hti] using this
      have hvj : v ∈ endPoints tj := by
        have := ((hpolmem true j b' hb v).2.1).2 hvb
        simpa [pol, htj] using this
      have := lineTest (hTshape i ti hti) (hTshape j tj htj) (hTends i ti hti) (hTends j tj htj)
        (hht i j ti tj v hij hti htj hvi hvj)
      simp only [pol, hTd i ti hti, hTd j tj htj]
      cases b <;> cases c <;> simp [this]
    · intro i j b c _ _ _ h1 h2; exact absurd h1 h2
    · intro i b hi
      obtain ⟨li, ti, hli, hti, _, _⟩ := hTk i hi
      simp only [pol, hTd i ti hti]
      cases b
      · simp only [Bool.false_eq_true, if_false, Option.some.injEq]
        exact lineTest_self (by rw [flipLine_length]; exact hTshape i ti hti)
          (flip_ends_ne (hTshape i ti hti) (hTends i ti hti))
      · simp only [if_true, Option.some.injEq]
        exact lineTest_self (hTshape i ti hti) (hTends i ti hti)
    · rintro i j _ ⟨a, b, v, ha, hb, h1, h2⟩
      exact ⟨⟨a, b, v, ha, hb, h1, h2⟩, (List.getElem?_eq_some_iff.1 hb).1⟩
  let v2i := vertexToIndices (lines.map (·.take 2))
  have hv2i : ∀ v j, j ∈ v2i v ↔ ∃ b, lines[j]? = some b ∧ v ∈ endPoints b := by
    intro v j
    simp only [v2i, mem_vertexToIndices, List.getElem?_map, Option.map_eq_some_iff]
    constructor
    · rintro ⟨e, ⟨b, hb, rfl⟩, hv⟩; exact ⟨b, hb, hv⟩
    · rintro ⟨b, hb, hv⟩; exact ⟨_, ⟨b, hb, rfl⟩, hv⟩
  have hM : ∀ b i, i < lines.length → ∀ j, j ∈ (pol b i).flatMap v2i ↔ (M i j ∧ j < lines.length) := by
    intro b i hi j
    have hl : lines[i]? = some lines[i] := List.getElem?_eq_getElem hi
    rw [List.mem_flatMap]
    constructor
    · rintro ⟨v, hv, hj⟩
      obtain ⟨c, hc, hvc⟩ := (hv2i v j).1 hj
      have hv' := ((hpolmem b i _ hl v).1).1 hv
      refine ⟨⟨_, c, v, hl, hc, ?_, hvc⟩, (List.getElem?_eq_some_iff.1 hc).1⟩
      rcases (mem_take_drop _ 2 v).1 hv' with h | h
      · exact h
      · exact absurd hvc (hL.inner i j _ c v hl hc h).1
    · rintro ⟨⟨a, c, v, ha, hc, hva, hvc⟩, _⟩
      refine ⟨v, ((hpolmem b i a ha v).1).2 (List.mem_of_mem_take hva), (hv2i v j).2 ⟨c, hc, hvc⟩⟩
  have hN : 0 < lines.length := List.length_pos_iff.2 hne
  have hfirst : ∀ b, ∃ rest, (pol b 0).flatMap v2i = 0 :: rest := by
    intro b
    have hl : lines[0]? = some lines[0] := List.getElem?_eq_getElem hN
    have hshape : (pol b 0).length = 2 ∨ (pol b 0).length = 4 := by
      obtain ⟨li, ti, hli, hti, _, _⟩ := hTk 0 hN
      have := hTshape 0 ti hti
      simp only [pol, hTd 0 ti hti]
      cases b
      · simpa [flipLine_length] using this
      · simpa using this
    have hmem := fun v => (hpolmem b 0 _ hl v).2.1
    have key : ∀ v, v ∈ endPoints lines[0] → ∃ rest, v2i v = 0 :: rest := by
      intro v hv
      simp only [v2i, vertexToIndices]
      cases hlines : lines with
      | nil => exact absurd hlines hne
      | cons x xs =>
        have hx : v ∈ x.take 2 := by
          have : lines[0] = x := by simp [hlines]
          rw [this] at hv; exact hv
        rw [List.map_cons, List.zipIdx_cons, List.flatMap_cons]
        simp only
        cases hf : (x.take 2).filter (· == v) with
        | nil =>
          exfalso
          have : v ∈ (x.take 2).filter (· == v) := by simp [hx]
          rw [hf] at this; simp at this
        | cons y ys => exact ⟨_, rfl⟩
    rcases Lines.cases hshape with ⟨p, q, hp⟩ | ⟨p, q, r, s, hp⟩
    · obtain ⟨rest, hr⟩ := key p ((hmem p).1 (by rw [hp]; simp [endPoints]))
      exact ⟨rest ++ [q].flatMap v2i, by rw [hp]; simp [List.flatMap_cons, hr]⟩
    · obtain ⟨rest, hr⟩ := key p ((hmem p).1 (by rw [hp]; simp [endPoints]))
      exact ⟨rest ++ [q, r, s].flatMap v2i, by rw [hp]; simp [List.flatMap_cons, hr]⟩
  have hpolEx : ∀ n, n < lines.length → ∃ b, lines[n]? = some (pol b n) := by
    intro n hn
    obtain ⟨l, t, hl, ht, _, h⟩ := hTk n hn
    rcases h with rfl | rfl
    · exact ⟨true, by simp only [pol, hTd n _ ht, if_true]; exact hl⟩
    · exact ⟨false, by simp only [pol, hTd n _ ht, flipLine_flipLine]; simpa using hl⟩
  have hconn' : ∀ S : Nat → Prop, S 0 → (∀ i j, i < lines.length → S i → M i j → S j) →
      ∀ n, n < lines.length → S n := by
    intro S h0 hstep n hn
    have hl := hconn 0 n hN hn
    clear hn
    induction hl with
    | refl _ => exact h0
    | @step j k hj hs ih =>
      obtain ⟨a, b, v, ha, hb, hva, hvb⟩ := hs
      by_cases hjk : j = k
      · subst hjk; exact ih
      · apply hstep j k ((List.getElem?_eq_some_iff.1 ha).1) ih
        refine ⟨a, b, v, ha, hb, ?_, ?_⟩
        · rcases (mem_take_drop a 2 v).1 hva with h | h
          · exact h
          · exact absurd hvb ((hL.inner j k a b v ha hb h).2 hjk)
        · rcases (mem_take_drop b 2 v).1 hvb with h | h
          · exact h
          · exact absurd hva ((hL.inner k j b a v hb ha h).2 (Ne.symm hjk))
  have hloop : reorientLoop v2i (fun l n => some (lineOrientationEqual l n)) flipLine
      (lines.length + 1) ⟨lines, List.replicate lines.length false, [0]⟩ = some out := by
    unfold reorientLines at hout
    rw [if_neg (by simpa using hne)] at hout
    exact hout
  obtain ⟨s, hs⟩ := W.main v2i hM hfirst hN lines rfl hpolEx hconn' _ out hloop
  have houtT : out = if s then T else T.map flipLine := by
    apply List.ext_getElem?
    intro k
    by_cases hk : k < lines.length
    · obtain ⟨l, t, hl, ht, _, _⟩ := hTk k hk
      rw [hs k hk]
      cases s <;> simp [pol, ht]
    · have h1 : out[k]? = none := by rw [List.getElem?_eq_none_iff, hlen]; omega
      rw [h1]
      symm
      cases s <;> simp <;> omega
  refine ⟨out, hout, ⟨hlen.symm, ?_⟩, ?_⟩
  · intro k a b ha hb
    rcases hkf k with h | h
    · rw [h, ha] at hb; exact Or.inl (Option.some.inj hb)
    · rw [h, ha] at hb
      simp only [Option.map_some, Option.some.injEq] at hb
      exact Or.inr (hb ▸ reversed_flip (hL.shape a (List.mem_of_getElem? ha)))
  · rw [houtT]
    cases s
    · simp only [Bool.false_eq_true, if_false]
      apply headToTail_flip _ hht
      intro l hl
      obtain ⟨k, hk⟩ := List.mem_iff_getElem?.1 hl
      exact hTshape k l hk
    · simpa using hht

end Traceon
