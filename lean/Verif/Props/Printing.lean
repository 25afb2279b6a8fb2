import Verif.Model.Printing

/-!
# C114: what is printed about a mesh, an excitation or a field says what it contains
-/
namespace Traceon
open Printing
variable {P V : Type}

namespace Printing

theorem cut {c : Char} : ∀ {x x' r r' : List Char}, c ∉ x → c ∉ x' → x ++ c :: r = x' ++ c :: r' → x = x' ∧ r = r'
  | [], [], _, _, _, _, h => by simpa using h
  | [], a :: x', _, _, _, h', h => by
    simp only [List.nil_append, List.cons_append, List.cons.injEq] at h
    exact absurd (h.1 ▸ List.mem_cons_self) h'
  | a :: x, [], _, _, h', _, h => by
    simp only [List.nil_append, List.cons_append, List.cons.injEq] at h
    exact absurd (h.1 ▸ List.mem_cons_self) h'
  | a :: x, b :: x', r, r', h1, h2, h => by
    simp only [List.cons_append, List.cons.injEq] at h
    obtain ⟨rfl, h⟩ := h
    obtain ⟨rfl, rfl⟩ := cut (fun hc => h1 (List.mem_cons_of_mem _ hc)) (fun hc => h2 (List.mem_cons_of_mem _ hc)) h
    exact ⟨rfl, rfl⟩

theorem cutR {c : Char} {x x' r r' : List Char} (h1 : c ∉ r) (h2 : c ∉ r') (h : x ++ c :: r = x' ++ c :: r') : x = x' ∧ r = r' := by
  have h := congrArg List.reverse h
  simp only [List.reverse_append, List.reverse_cons, List.append_assoc, List.cons_append, List.nil_append] at h
  obtain ⟨a, b⟩ := cut (by simpa using h1) (by simpa using h2) h
  exact ⟨List.reverse_injective b, List.reverse_injective a⟩

theorem intercalate_two (s x y : List Char) (l : List (List Char)) : s.intercalate (x :: y :: l) = x ++ (s ++ s.intercalate (y :: l)) := by
  simp [List.intercalate]

theorem join_inj {c : Char} {s : List Char} : ∀ {xs ys : List (List Char)}, (∀ x ∈ xs, c ∉ x) → (∀ y ∈ ys, c ∉ y) → (xs = [] ↔ ys = []) →
    (c :: s).intercalate xs = (c :: s).intercalate ys → xs = ys
  | [], ys, _, _, h0, _ => (h0.1 rfl).symm
  | x :: xs, [], _, _, h0, _ => by simp at h0
  | [x], [y], _, _, _, h => by simpa [List.intercalate] using h
  | [x], y :: y' :: ys, hx, _, _, h => by
    rw [intercalate_two, show (c :: s).intercalate [x] = x by simp [List.intercalate]] at h
    exact absurd (by rw [h]; simp) (hx x (by simp))
  | x :: x' :: xs, [y], _, hy, _, h => by
    rw [intercalate_two, show (c :: s).intercalate [y] = y by simp [List.intercalate]] at h
    exact absurd (by rw [← h]; simp) (hy y (by simp))
  | x :: x' :: xs, y :: y' :: ys, hx, hy, _, h => by
    rw [intercalate_two, intercalate_two, List.cons_append, List.cons_append] at h
    obtain ⟨e1, e2⟩ := cut (hx x (by simp)) (hy y (by simp)) h
    rw [e1, join_inj (fun z hz => hx z (List.mem_cons_of_mem _ hz)) (fun z hz => hy z (List.mem_cons_of_mem _ hz)) (by simp) (List.append_cancel_left e2)]

theorem mem_join {c : Char} {s : List Char} {xs : List (List Char)} (h : c ∈ s.intercalate xs) : c ∈ s ∨ ∃ x ∈ xs, c ∈ x := by
  match xs with
  | [] => simp [List.intercalate] at h
  | [x] => exact .inr ⟨x, by simp, by simpa [List.intercalate] using h⟩
  | x :: y :: l =>
    rw [intercalate_two] at h
    rcases List.mem_append.1 h with h | h
    · exact .inr ⟨x, by simp, h⟩
    · rcases List.mem_append.1 h with h | h
      · exact .inl h
      · exact (mem_join h).imp id fun ⟨z, hz, hc⟩ => ⟨z, List.mem_cons_of_mem _ hz, hc⟩

theorem dec_inj {a b : Nat} (h : dec a = dec b) : a = b := by
  have := congrArg (Nat.ofDigitChars 10 · 0) h
  simpa [dec, Nat.ofDigitChars_ten_toDigits] using this

theorem dec_digit {c : Char} {n : Nat} (h : c ∈ dec n) : c.isDigit = true := Nat.isDigit_of_mem_toDigits (by norm_num) (by norm_num) h

theorem dec_no {c : Char} {n : Nat} (hc : c.isDigit = false) : c ∉ dec n := fun h => by rw [dec_digit h] at hc; cases hc

theorem joinSizes_inj {d d' : List (String × List Nat)} (h : joinSizes d = joinSizes d') : d.map (·.2.length) = d'.map (·.2.length) := by
  unfold joinSizes at h
  have hne : ∀ d : List (String × List Nat), d ≠ [] → [',', ' '].intercalate (d.map fun g => dec g.2.length) ≠ [] := by
    intro d hd
    match d with
    | [g] => simp [List.intercalate, dec, Nat.toDigits_ne_nil]
    | g :: g' :: l => simp [List.intercalate]
  have := join_inj (c := ',') (s := [' ']) (by simp only [List.mem_map]; rintro _ ⟨g, -, rfl⟩; exact dec_no rfl) (by simp only [List.mem_map]; rintro _ ⟨g, -, rfl⟩; exact dec_no rfl) (by
    rw [List.map_eq_nil_iff, List.map_eq_nil_iff]
    constructor
    · rintro rfl
      by_contra hc
      exact hne _ hc h.symm
    · rintro rfl
      by_contra hc
      exact hne _ hc h) h
  refine List.map_injective_iff.2 (fun a b => dec_inj) ?_
  rw [List.map_map, List.map_map]
  exact this

/-- A name that can be told from the texts around it. -/
def PlainName (n : String) : Prop := ',' ∉ n.toList ∧ '\n' ∉ n.toList

theorem groups_inj {d d' : List (String × List Nat)} (hd : ∀ g ∈ d, PlainName g.1) (hd' : ∀ g ∈ d', PlainName g.1) (hn : joinNames (Dict.keys d) = joinNames (Dict.keys d')) (hs : joinSizes d = joinSizes d') :
    d.map (fun g => (g.1, g.2.length)) = d'.map fun g => (g.1, g.2.length) := by
  have h2 := joinSizes_inj hs
  have hlen : d.length = d'.length := by simpa using congrArg List.length h2
  unfold joinNames Dict.keys at hn
  rw [List.map_map, List.map_map] at hn
  have h1 := join_inj (c := ',') (s := [' ']) (by simp only [List.mem_map]; rintro _ ⟨g, hg, rfl⟩; exact (hd g hg).1) (by simp only [List.mem_map]; rintro _ ⟨g, hg, rfl⟩; exact (hd' g hg).1) (by
    rw [← List.length_eq_zero_iff, ← List.length_eq_zero_iff]; simp [hlen]) hn
  rw [← List.map_map, ← List.map_map] at h1
  have h1 := List.map_injective_iff.2 (fun _ _ h => String.toList_injective h) h1
  have hz : ∀ d : List (String × List Nat), d.map (fun g => (g.1, g.2.length)) = (d.map (·.1)).zip (d.map (·.2.length)) := fun d => by rw [List.zip_map']
  rw [hz, hz, h1, h2]

theorem names_newline {d : List (String × List Nat)} (hd : ∀ g ∈ d, PlainName g.1) : '\n' ∉ joinNames (Dict.keys d) := by
  intro h
  rcases mem_join h with h | ⟨x, hx, h⟩
  · revert h; decide
  · simp only [Dict.keys, List.map_map, List.mem_map] at hx
    obtain ⟨g, hg, rfl⟩ := hx
    exact (hd g hg).2 h

theorem sizes_newline {d : List (String × List Nat)} : '\n' ∉ joinSizes d := by
  intro h
  rcases mem_join h with h | ⟨x, hx, h⟩
  · revert h; decide
  · simp only [List.mem_map] at hx
    obtain ⟨g, -, rfl⟩ := hx
    exact dec_no rfl h

/-- Two meshes with the same numbers of points, lines and triangles, and with the same names for the same numbers of elements. -/
def SameCounts (m m' : Mesh P) : Prop :=
  m.points.length = m'.points.length ∧ m.lines.length = m'.lines.length ∧ m.triangles.length = m'.triangles.length ∧
  m.physLines.map (fun g => (g.1, g.2.length)) = m'.physLines.map (fun g => (g.1, g.2.length)) ∧
  m.physTris.map (fun g => (g.1, g.2.length)) = m'.physTris.map (fun g => (g.1, g.2.length))

def PlainNames (m : Mesh P) : Prop := (∀ g ∈ m.physLines, PlainName g.1) ∧ ∀ g ∈ m.physTris, PlainName g.1

end Printing

/-- **C114**, meshes: the text of a mesh determines the numbers of points, lines and triangles and the names of the groups with the numbers of their elements, and nothing else, if no
name contains a comma or a line break. -/
theorem C114_mesh {m m' : Mesh P} (h : PlainNames m) (h' : PlainNames m') : meshText m = meshText m' ↔ SameCounts m m' := by
  constructor
  · intro he
    unfold meshText at he
    simp only [List.append_assoc, List.cons_append] at he
    obtain ⟨e1, he⟩ := cut (dec_no rfl) (dec_no rfl) (List.append_cancel_left (List.append_cancel_left he))
    obtain ⟨e2, he⟩ := cut (dec_no rfl) (dec_no rfl) (List.append_cancel_left he)
    obtain ⟨e3, he⟩ := cut (dec_no rfl) (dec_no rfl) (List.append_cancel_left he)
    obtain ⟨e4, he⟩ := cut (names_newline h.1) (names_newline h'.1) (List.append_cancel_left he)
    obtain ⟨e5, he⟩ := cut sizes_newline sizes_newline (List.append_cancel_left he)
    obtain ⟨e6, he⟩ := cut (names_newline h.2) (names_newline h'.2) (List.append_cancel_left he)
    have e7 := List.append_cancel_right (List.append_cancel_left he)
    exact ⟨dec_inj e1, dec_inj e2, dec_inj e3, groups_inj h.1 h'.1 e4 e5, groups_inj h.2 h'.2 e6 e7⟩
  · rintro ⟨e1, e2, e3, e4, e5⟩
    have hn : ∀ {d d' : List (String × List Nat)}, d.map (fun g => (g.1, g.2.length)) = d'.map (fun g => (g.1, g.2.length)) →
        joinNames (Dict.keys d) = joinNames (Dict.keys d') ∧ joinSizes d = joinSizes d' := by
      intro d d' e
      have k1 := congrArg (List.map (Prod.fst)) e
      have k2 := congrArg (List.map (fun p : String × Nat => dec p.2)) e
      rw [List.map_map, List.map_map] at k1 k2
      exact ⟨congrArg joinNames k1, congrArg (List.intercalate [',', ' ']) k2⟩
    unfold meshText
    rw [e1, e2, e3, (hn e4).1, (hn e4).2, (hn e5).1, (hn e5).2]

/-- Without the condition on the names this fails: the texts of two meshes with the groups `a, b` and `c`, and `a` and `b, c`, are the same. -/
theorem C114_mesh_refuted : ∃ m m' : Mesh V3, meshText m = meshText m' ∧ m.physLines.keys ≠ m'.physLines.keys :=
  ⟨{ physLines := [("a, b", [0]), ("c", [1])] }, { physLines := [("a", [0]), ("b, c", [1])] }, by
    have h1 : joinNames (Dict.keys [("a, b", [0]), ("c", [1])]) = joinNames (Dict.keys [("a", [0]), ("b, c", [1])]) := by decide
    have h2 : joinSizes [("a, b", [0]), ("c", [1])] = joinSizes [("a", [0]), ("b, c", [1])] := by decide
    unfold meshText
    rw [h1, h2], by simp [Dict.keys]⟩

namespace Printing

/-- An excitation whose text can be read: the text of no value contains a line break, and no name contains a line break or an equals sign. -/
def PlainEntries (showVal : ExcVal V P → List Char) (x : Excitation V P) : Prop :=
  ∀ e ∈ x.types, '\n' ∉ e.1.toList ∧ '=' ∉ e.1.toList ∧ '\n' ∉ showVal e.2.2

theorem typeText_inj {a b : ExcType} (h : typeText a = typeText b) : a = b := by
  have h := String.toList_injective h
  cases a <;> cases b <;> first | rfl | (exfalso; revert h; decide)

theorem entry_newline {showVal : ExcVal V P → List Char} {e : String × (ExcType × ExcVal V P)} (h : '\n' ∉ e.1.toList ∧ '=' ∉ e.1.toList ∧ '\n' ∉ showVal e.2.2) :
    '\n' ∉ entryText showVal e := by
  unfold entryText
  have ht : ∀ t : ExcType, '\n' ∉ typeText t := by intro t; cases t <;> decide
  simp only [List.mem_append, List.mem_cons, List.not_mem_nil, or_false, not_or]
  exact ⟨⟨⟨h.1, by decide, h.2.2⟩, by decide, by decide, ht _⟩, by decide⟩

theorem entry_inj {showVal : ExcVal V P → List Char} {e e' : String × (ExcType × ExcVal V P)} (h : '=' ∉ e.1.toList) (h' : '=' ∉ e'.1.toList)
    (he : entryText showVal e = entryText showVal e') : e.1 = e'.1 ∧ e.2.1 = e'.2.1 ∧ showVal e.2.2 = showVal e'.2.2 := by
  unfold entryText at he
  simp only [List.append_assoc, List.cons_append] at he
  obtain ⟨e1, he⟩ := cut h h' he
  have ht : ∀ t : ExcType, '(' ∉ typeText t ++ [')'] := by intro t; cases t <;> decide
  have he : (showVal e.2.2 ++ [' ']) ++ '(' :: (typeText e.2.1 ++ [')']) = (showVal e'.2.2 ++ [' ']) ++ '(' :: (typeText e'.2.1 ++ [')']) := by
    simpa only [List.append_assoc, List.cons_append, List.nil_append] using he
  obtain ⟨e2, e3⟩ := cutR (ht _) (ht _) he
  exact ⟨String.toList_injective e1, typeText_inj (List.append_cancel_right e3), List.append_cancel_right e2⟩

end Printing

/-- **C114**, excitations: the text of an excitation determines the names, their kinds of excitation and the texts of their values, in the order in which the names were first used. -/
theorem C114_excitation {showVal : ExcVal V P → List Char} {x x' : Excitation V P} (h : PlainEntries showVal x) (h' : PlainEntries showVal x') :
    excitationText showVal x = excitationText showVal x' ↔
      x.types.map (fun e => (e.1, e.2.1, showVal e.2.2)) = x'.types.map fun e => (e.1, e.2.1, showVal e.2.2) := by
  constructor
  · intro he
    unfold excitationText at he
    have he := List.append_cancel_left (List.append_cancel_right he)
    have hne : ∀ d : List (String × (ExcType × ExcVal V P)), d ≠ [] → ['\n', '\t'].intercalate (d.map (entryText showVal)) ≠ [] := by
      intro d hd
      match d with
      | [g] => simp [List.intercalate, entryText]
      | g :: g' :: l => simp [List.intercalate]
    have k := join_inj (c := '\n') (s := ['\t']) (by simp only [List.mem_map]; rintro _ ⟨g, hg, rfl⟩; exact entry_newline (h g hg))
      (by simp only [List.mem_map]; rintro _ ⟨g, hg, rfl⟩; exact entry_newline (h' g hg)) (by
        rw [List.map_eq_nil_iff, List.map_eq_nil_iff]
        constructor
        · intro hc
          by_contra hc'
          rw [hc] at he
          exact hne _ hc' he.symm
        · intro hc
          by_contra hc'
          rw [hc] at he
          exact hne _ hc' he) he
    have hlen : x.types.length = x'.types.length := by simpa using congrArg List.length k
    refine List.ext_getElem (by simpa using hlen) fun i hi hi' => ?_
    simp only [List.length_map] at hi hi'
    have := congrArg (fun l : List (List Char) => l[i]?) k
    simp only [List.getElem?_map, List.getElem?_eq_getElem hi, List.getElem?_eq_getElem hi', Option.map_some, Option.some.injEq] at this
    obtain ⟨a, b, c⟩ := entry_inj (h _ (List.getElem_mem hi)).2.1 (h' _ (List.getElem_mem hi')).2.1 this
    simp only [List.getElem_map, a, b, c]
  · intro e
    have k := congrArg (List.map (fun p : String × ExcType × List Char => p.1.toList ++ '=' :: p.2.2 ++ ' ' :: '(' :: typeText p.2.1 ++ [')'])) e
    rw [List.map_map, List.map_map] at k
    unfold excitationText
    exact congrArg (fun l => "<Traceon Excitation,\n\t".toList ++ ['\n', '\t'].intercalate l ++ ['>']) k

/-- **C114**, fields: the text of a field determines the numbers of its charges. -/
theorem C114_field {name name' : String} (h : '\n' ∉ name.toList) (h' : '\n' ∉ name'.toList) {a b c a' b' c' : Nat} (he : fieldText name a b c = fieldText name' a' b' c') :
    name = name' ∧ a = a' ∧ b = b' ∧ c = c' := by
  unfold fieldText at he
  simp only [List.append_assoc, List.cons_append] at he
  obtain ⟨e0, he⟩ := cut h h' (List.append_cancel_left he)
  obtain ⟨e1, he⟩ := cut (dec_no rfl) (dec_no rfl) (List.append_cancel_left he)
  obtain ⟨e2, he⟩ := cut (dec_no rfl) (dec_no rfl) (List.append_cancel_left he)
  have e3 := List.append_cancel_right (List.append_cancel_left he)
  exact ⟨String.toList_injective e0, dec_inj e1, dec_inj e2, dec_inj e3⟩

/-- **C114**, a mesh with three points, two lines and two named groups, and an excitation on it: they meet the conditions, and these are their texts. -/
theorem C114_example : let m : Mesh Nat := { points := [0, 1, 2], lines := [[0, 1], [1, 2]], physLines := [("ground", [0]), ("lens", [1])] }
    let x : Excitation Nat Nat := { mesh := m, electrodes := ["ground", "lens"], symmetry := .radial, types := [("lens", .voltageFixed, .num 10), ("ground", .dielectric, .num 2)] }
    let showVal : ExcVal Nat Nat → List Char := fun v => match v with | .num n => dec n | _ => []
    PlainNames m ∧ PlainEntries showVal x ∧
      meshText m = "<Traceon Mesh,\n\tNumber of points: 3\n\tNumber of lines: 2\n\tNumber of triangles: 0\n\tPhysical lines: ground, lens\n\tElements in physical line groups: 1, 1\n\tPhysical triangles: \n\tElements in physical triangle groups: >".toList ∧
      excitationText showVal x = "<Traceon Excitation,\n\tlens=10 (voltage fixed)\n\tground=2 (dielectric)>".toList := by
  refine ⟨⟨?_, ?_⟩, ?_, ?_, ?_⟩
  · intro g hg
    have hg : g ∈ [("ground", [0]), ("lens", [1])] := hg
    simp only [List.mem_cons, List.not_mem_nil, or_false] at hg
    rcases hg with rfl | rfl <;> exact ⟨by decide, by decide⟩
  · intro g hg
    cases hg
  · intro g hg
    have hg : g ∈ [("lens", ExcType.voltageFixed, (.num 10 : ExcVal Nat Nat)), ("ground", ExcType.dielectric, .num 2)] := hg
    simp only [List.mem_cons, List.not_mem_nil, or_false] at hg
    rcases hg with rfl | rfl <;> exact ⟨by decide, by decide, by decide⟩
  · set_option maxRecDepth 20000 in decide
  · set_option maxRecDepth 20000 in decide

end Traceon
