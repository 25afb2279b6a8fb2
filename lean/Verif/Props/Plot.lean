import Verif.Spec.Plot
import Verif.Props.Excitation

/-!
# C94: a plotted mesh
-/
namespace Traceon
open Spec Plotting

/-! ## The colours of points -/

theorem foldl_update (n : String) (e : List Nat) : ∀ (d : Nat → Option String) (p : Nat),
    e.foldl (fun d p => Function.update d p (some n)) d p = if p ∈ e then some n else d p := by
  induction e with
  | nil => intro d p; simp
  | cons a e ih =>
    intro d p
    rw [List.foldl_cons, ih]
    by_cases h1 : p ∈ e
    · simp [h1]
    · by_cases h2 : p = a
      · subst h2; simp [h1]
      · simp [h1, h2]

/-- What the inner loop assigns. -/
theorem assignGroup_spec (n : String) (els : List Elem) : ∀ (g : List Nat) (d d' : Nat → Option String),
    g.foldlM (fun d i => (els[i]?).map fun e => e.foldl (fun d p => Function.update d p (some n)) d) d = some d' →
    ∀ p, d' p = d p ∧ (¬∃ i ∈ g, ∃ e, els[i]? = some e ∧ p ∈ e) ∨ d' p = some n ∧ ∃ i ∈ g, ∃ e, els[i]? = some e ∧ p ∈ e
  | [], d, d', h, p => by cases h; left; simp
  | i :: g, d, d', h, p => by
    rw [List.foldlM_cons] at h
    cases he : els[i]? with
    | none => rw [he] at h; cases h
    | some e =>
      rw [he] at h
      rcases assignGroup_spec n els g _ d' h p with ⟨h1, h2⟩ | ⟨h1, j, hj, e', h2⟩
      · simp only [foldl_update] at h1
        by_cases hp : p ∈ e
        · right; rw [h1, if_pos hp]; exact ⟨rfl, i, by simp, e, he, hp⟩
        · left
          rw [h1, if_neg hp]
          refine ⟨rfl, ?_⟩
          rintro ⟨j, hj, e', h3, h4⟩
          rcases List.mem_cons.1 hj with rfl | hj
          · rw [he] at h3; cases h3; exact hp h4
          · exact h2 ⟨j, hj, e', h3, h4⟩
      · right; exact ⟨h1, j, List.mem_cons_of_mem _ hj, e', h2⟩

theorem assignPoints_spec (els : List Elem) : ∀ (gs : Dict (List Nat)) (d d' : Nat → Option String), assignPoints gs els d = some d' →
    ∀ p, d' p = d p ∧ (¬∃ n g, (n, g) ∈ gs ∧ ∃ i ∈ g, ∃ e, els[i]? = some e ∧ p ∈ e) ∨ ∃ n g, d' p = some n ∧ (n, g) ∈ gs ∧ ∃ i ∈ g, ∃ e, els[i]? = some e ∧ p ∈ e
  | [], d, d', h, p => by cases h; left; simp
  | (n, g) :: gs, d, d', h, p => by
    unfold assignPoints at h
    rw [List.foldlM_cons] at h
    cases h1 : g.foldlM (fun d i => (els[i]?).map fun e => e.foldl (fun d p => Function.update d p (some n)) d) d with
    | none => rw [h1] at h; cases h
    | some d1 =>
      rw [h1] at h
      rcases assignPoints_spec els gs d1 d' h p with ⟨h2, h3⟩ | ⟨n', g', h2, h3, h4⟩
      · rcases assignGroup_spec n els g d d1 h1 p with ⟨h5, h6⟩ | ⟨h5, h6⟩
        · left
          refine ⟨h2.trans h5, ?_⟩
          rintro ⟨n', g', h7, h8⟩
          rcases List.mem_cons.1 h7 with h7 | h7
          · cases h7; exact h6 h8
          · exact h3 ⟨n', g', h7, h8⟩
        · right; exact ⟨n, g, h2.trans h5, by simp, h6⟩
      · right; exact ⟨n', g', h2, List.mem_cons_of_mem _ h3, h4⟩

/-- The name of a point is that of a group it is in, if there is one. -/
theorem pointToPhysical_spec {m : Mesh V3} {d : Nat → Option String} (h : pointToPhysical m = some d) (p : Nat) :
    (d p = none ∧ ∀ n, ¬PointInGroup m n p) ∨ ∃ n, d p = some n ∧ PointInGroup m n p := by
  unfold pointToPhysical at h
  obtain ⟨d1, h1, h2⟩ := Option.bind_eq_some_iff.1 h
  rcases assignPoints_spec _ _ _ _ h2 p with ⟨h3, h4⟩ | ⟨n, g, h3, h4, h5⟩
  · rcases assignPoints_spec _ _ _ _ h1 p with ⟨h5, h6⟩ | ⟨n, g, h5, h6, h7⟩
    · left
      refine ⟨h3.trans h5, ?_⟩
      rintro n (⟨g, h7, h8⟩ | ⟨g, h7, h8⟩)
      · exact h6 ⟨n, g, h7, h8⟩
      · exact h4 ⟨n, g, h7, h8⟩
    · right; exact ⟨n, h3.trans h5, Or.inl ⟨g, h6, h7⟩⟩
  · right; exact ⟨n, h3, Or.inr ⟨g, h4, h5⟩⟩

theorem assignPoints_some {els : List Elem} : ∀ (gs : Dict (List Nat)) (d : Nat → Option String), (∀ kv ∈ gs, ∀ i ∈ kv.2, i < els.length) → ∃ d', assignPoints gs els d = some d'
  | [], d, _ => ⟨d, rfl⟩
  | (n, g) :: gs, d, h => by
    have h1 : ∀ (g : List Nat) (d : Nat → Option String), (∀ i ∈ g, i < els.length) →
        ∃ d', g.foldlM (fun d i => (els[i]?).map fun e => e.foldl (fun d p => Function.update d p (some n)) d) d = some d' := by
      intro g
      induction g with
      | nil => exact fun d _ => ⟨d, rfl⟩
      | cons i g ih =>
        intro d hg
        rw [List.foldlM_cons, List.getElem?_eq_getElem (hg i (by simp))]
        exact ih _ fun j hj => hg j (List.mem_cons_of_mem _ hj)
    obtain ⟨d1, hd1⟩ := h1 g d (h (n, g) (by simp))
    obtain ⟨d2, hd2⟩ := assignPoints_some gs d1 fun kv hkv => h kv (List.mem_cons_of_mem _ hkv)
    refine ⟨d2, ?_⟩
    unfold assignPoints at hd2 ⊢
    rw [List.foldlM_cons]
    simp only
    rw [hd1]
    exact hd2

theorem pointToPhysical_some {m : Mesh V3} (hv : Valid m) : ∃ d, pointToPhysical m = some d := by
  obtain ⟨d1, h1⟩ := assignPoints_some (els := m.lines) m.physLines (fun _ => none) hv.groupLines
  obtain ⟨d2, h2⟩ := assignPoints_some (els := m.triangles) m.physTris d1 hv.groupTris
  exact ⟨d2, by unfold pointToPhysical; rw [h1]; exact h2⟩

/-! ## The colours of elements -/

/-- What the colour of an element can be. -/
theorem elementColour_cases (colours : Dict String) (default : String) (d : Nat → Option String) (e : List Nat) :
    elementColour colours default d e = default ∨ ∃ n, colours.get n = some (elementColour colours default d e) ∧ ∀ p ∈ e, d p = some n := by
  unfold elementColour
  cases e with
  | nil => left; rfl
  | cons a e =>
    rw [List.map_cons]
    cases ha : d a with
    | none => left; rfl
    | some n =>
      simp only
      by_cases hr : (e.map d).all (· == some n) = true
      · rw [if_pos hr]
        cases hc : colours.get n with
        | none => left; rfl
        | some c =>
          right
          refine ⟨n, by rw [hc]; rfl, ?_⟩
          intro p hp
          rcases List.mem_cons.1 hp with rfl | hp
          · exact ha
          · rw [List.all_eq_true] at hr
            simpa using hr (d p) (List.mem_map.2 ⟨p, hp, rfl⟩)
      · left; rw [if_neg hr]

theorem elementColour_own {colours : Dict String} {default : String} {d : Nat → Option String} {e : List Nat} {n c : String} (he : e ≠ []) (hd : ∀ p ∈ e, d p = some n) (hc : colours.get n = some c) :
    elementColour colours default d e = c := by
  unfold elementColour
  cases e with
  | nil => exact absurd rfl he
  | cons a e =>
    rw [List.map_cons, hd a (by simp)]
    simp only
    rw [if_pos, hc]
    · rfl
    · rw [List.all_eq_true]
      intro x hx
      obtain ⟨p, hp, rfl⟩ := List.mem_map.1 hx
      simp [hd p (List.mem_cons_of_mem _ hp)]

/-! ## Drawing by colour draws everything once -/

theorem compress_coloured {α : Type} (c : String) : ∀ (cs : List String) (ts : List α), cs.length = ts.length →
    (compress (cs.map (· == c)) ts).map (fun t => (t, c)) = (ts.zip cs).filter fun a => a.2 == c
  | [], ts, _ => by simp [compress]
  | _ :: _, [], h => by simp at h
  | a :: cs, t :: ts, h => by
    have ih := compress_coloured c cs ts (by simpa using h)
    rw [List.map_cons, List.zip_cons_cons, List.filter_cons, ← ih]
    cases ha : a == c
    · simp [compress]
    · obtain rfl := eq_of_beq ha
      simp [compress]

theorem parts_perm {α : Type} (col : α → String) (l : List α) (cs : List String) (hn : cs.Nodup) (hc : ∀ a ∈ l, col a ∈ cs) : (cs.flatMap fun c => l.filter fun a => col a == c).Perm l := by
  induction l with
  | nil => simp
  | cons a l ih =>
    have ih := ih fun b hb => hc b (List.mem_cons_of_mem _ hb)
    obtain ⟨pre, post, h1⟩ := List.append_of_mem (hc a (by simp))
    have hpre : ∀ c ∈ pre, (col a == c) = false := by
      intro c hc
      rw [h1] at hn
      have := (List.nodup_append.1 hn).2.2 c hc (col a) (by simp)
      simpa using Ne.symm this
    have hpost : ∀ c ∈ post, (col a == c) = false := by
      intro c hc
      rw [h1] at hn
      have := (List.nodup_cons.1 (List.nodup_append.1 hn).2.1).1
      rw [beq_eq_false_iff_ne]
      rintro rfl
      exact this hc
    rw [h1] at ih ⊢
    rw [List.flatMap_append, List.flatMap_cons] at ih ⊢
    have e1 : ∀ cs' : List String, (∀ c ∈ cs', (col a == c) = false) → (cs'.flatMap fun c => (a :: l).filter fun a => col a == c) = cs'.flatMap fun c => l.filter fun a => col a == c := by
      intro cs' h
      refine List.flatMap_congr fun c hc => ?_
      rw [List.filter_cons, h c hc]
      simp
    rw [e1 _ hpre, e1 _ hpost, List.filter_cons]
    simp only [beq_self_eq_true, if_true, List.cons_append]
    exact List.perm_middle.trans (List.Perm.cons _ ih)

theorem painted_append (a b : List Shape) : paintedTriangles (a ++ b) = paintedTriangles a ++ paintedTriangles b ∧ paintedLines (a ++ b) = paintedLines a ++ paintedLines b ∧ arrowsIn (a ++ b) = arrowsIn a ++ arrowsIn b := by
  induction a with
  | nil => exact ⟨rfl, rfl, rfl⟩
  | cons s a ih =>
    obtain ⟨h1, h2, h3⟩ := ih
    cases s <;> simp [paintedTriangles, paintedLines, arrowsIn, h1, h2, h3]

end Traceon
