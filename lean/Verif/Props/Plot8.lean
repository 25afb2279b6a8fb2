import Verif.Props.Plot5
import Verif.Props.Excitation2

/-!
# C97: the plotted charge density
-/
namespace Traceon
open Spec Plotting Excitation

theorem minMax_spec {qs : List ℝ} (h : qs ≠ []) : ∃ lo hi, minMax qs = some (lo, hi) ∧ IsRange qs lo hi := by
  cases qs with
  | nil => exact absurd rfl h
  | cons c cs =>
    refine ⟨_, _, rfl, ?_⟩
    clear h
    have hmin : ∀ (cs : List ℝ) (c : ℝ), cs.foldl min c ∈ c :: cs ∧ ∀ q ∈ c :: cs, cs.foldl min c ≤ q := by
      intro cs
      induction cs with
      | nil => intro c; simp
      | cons d cs ih =>
        intro c
        obtain ⟨h1, h2⟩ := ih (min c d)
        rw [List.foldl_cons]
        refine ⟨?_, fun q hq => ?_⟩
        · rcases List.mem_cons.1 h1 with h | h
          · rw [h]; rcases min_choice c d with e | e <;> rw [e] <;> simp
          · simp [h]
        · have h3 := h2 (min c d) (by simp)
          rcases List.mem_cons.1 hq with rfl | hq
          · exact h3.trans (min_le_left _ _)
          · rcases List.mem_cons.1 hq with rfl | hq
            · exact h3.trans (min_le_right _ _)
            · exact h2 q (by simp [hq])
    have hmax : ∀ (cs : List ℝ) (c : ℝ), cs.foldl max c ∈ c :: cs ∧ ∀ q ∈ c :: cs, q ≤ cs.foldl max c := by
      intro cs
      induction cs with
      | nil => intro c; simp
      | cons d cs ih =>
        intro c
        obtain ⟨h1, h2⟩ := ih (max c d)
        rw [List.foldl_cons]
        refine ⟨?_, fun q hq => ?_⟩
        · rcases List.mem_cons.1 h1 with h | h
          · rw [h]; rcases max_choice c d with e | e <;> rw [e] <;> simp
          · simp [h]
        · have h3 := h2 (max c d) (by simp)
          rcases List.mem_cons.1 hq with rfl | hq
          · exact (le_max_left _ _).trans h3
          · rcases List.mem_cons.1 hq with rfl | hq
            · exact (le_max_right _ _).trans h3
            · exact h2 q (by simp [hq])
    exact ⟨⟨(hmin cs c).1, (hmax cs c).1⟩, fun q hq => ⟨(hmin cs c).2 q hq, (hmax cs c).2 q hq⟩⟩

theorem excitedGroups_eq (x : Excitation ℝ V3) (s : Statics) : excitedGroups x s = x.physicals.filter (fun ni => (x.types.get ni.1).any (fun tv => typeCheck s tv.1)) := by
  unfold excitedGroups
  congr 1
  funext ni
  rw [Bool.eq_iff_iff, any_typeCheck]
  exact @decide_eq_true_iff _ (Classical.propDecidable _)

variable {x : Excitation ℝ V3} {s : Statics} {verts : List (List V3)} {names : Dict (List Nat)} {idx : List Nat}

theorem charged_spec {β : Type} (h : ActiveSpec x s verts names idx) {charges : List ℝ} (hc : charges.length = verts.length) (ext : List V3 → Option β) (mk : List (β × ℝ) → Shape)
    (hext : ∀ (i : Nat) v, (x.elements.map (coords x.mesh.points))[i]? = some v → ∃ b, ext v = some b) :
    ∃ shapes, (names.mapM fun ni => (gather verts ni.2).bind fun vs => (vs.mapM ext).bind fun ts => (gather charges ni.2).bind fun cs => some (mk (ts.zip cs))) = some shapes ∧
      shapes.length = (excitedGroups x s).length ∧ ∀ (k : Nat) n g, (excitedGroups x s)[k]? = some (n, g) → ∃ ps, shapes[k]? = some (mk ps) ∧ ps.length = g.length ∧
        ∀ (j i : Nat), g[j]? = some i → ∃ b q v, ps[j]? = some (b, q) ∧ (x.elements.map (coords x.mesh.points))[i]? = some v ∧ ext v = some b ∧ ChargeOf x s charges i q := by
  have hone : ∀ (k : Nat) n js, names[k]? = some (n, js) → ∃ g ps, (excitedGroups x s)[k]? = some (n, g) ∧
      ((gather verts js).bind fun vs => (vs.mapM ext).bind fun ts => (gather charges js).bind fun cs => some (mk (ts.zip cs))) = some (mk ps) ∧ ps.length = g.length ∧
        ∀ (j i : Nat), g[j]? = some i → ∃ b q v, ps[j]? = some (b, q) ∧ (x.elements.map (coords x.mesh.points))[i]? = some v ∧ ext v = some b ∧ ChargeOf x s charges i q := by
    intro k n js hk
    have hkl := (List.getElem?_eq_some_iff.1 hk).1
    rw [h.pairsLen, ← excitedGroups_eq] at hkl
    have hget : (excitedGroups x s)[k]? = some (excitedGroups x s)[k] := List.getElem?_eq_getElem hkl
    generalize (excitedGroups x s)[k] = ng at hget
    obtain ⟨n', g⟩ := ng
    obtain ⟨js', e1, e2⟩ := h.pairs k (n', g) (by rw [← excitedGroups_eq]; exact hget)
    rw [hk] at e1
    cases e1
    have hlen : js.length = g.length := by simpa using congrArg List.length e2
    have hj : ∀ j r : Nat, js[j]? = some r → ∃ i, g[j]? = some i ∧ idx[r]? = some i := by
      intro j r hr
      have := congrArg (fun l => l[j]?) e2
      simp only [List.getElem?_map, hr, Option.map_some] at this
      obtain ⟨i, hi, e⟩ := Option.map_eq_some_iff.1 this.symm
      exact ⟨i, hi, e.symm⟩
    have hlt : ∀ r ∈ js, r < verts.length := by
      intro r hr
      obtain ⟨j, hj'⟩ := List.mem_iff_getElem?.1 hr
      obtain ⟨i, -, hi⟩ := hj j r hj'
      rw [h.len]
      exact (List.getElem?_eq_some_iff.1 hi).1
    obtain ⟨vs, hvs⟩ := gather_isSome hlt
    obtain ⟨cs, hcs⟩ := gather_isSome (arr := charges) (idx := js) (fun r hr => by rw [hc]; exact hlt r hr)
    have hvi : ∀ (j : Nat) v, vs[j]? = some v → ∃ i : Nat, g[j]? = some i ∧ (x.elements.map (coords x.mesh.points))[i]? = some v ∧ ∃ r : Nat, js[j]? = some r ∧ idx[r]? = some i := by
      intro j v hv
      rw [gather_getElem? hvs] at hv
      obtain ⟨r, hr, hv⟩ := Option.bind_eq_some_iff.1 hv
      obtain ⟨i, hi, hi'⟩ := hj j r hr
      rw [h.vertIdx r i hi'] at hv
      exact ⟨i, hi, hv, r, hr, hi'⟩
    have hts : ∃ ts, vs.mapM ext = some ts := by
      have : ∀ v ∈ vs, ∃ b, ext v = some b := by
        intro v hv
        obtain ⟨j, hj'⟩ := List.mem_iff_getElem?.1 hv
        obtain ⟨i, -, hi, -⟩ := hvi j v hj'
        exact hext i v hi
      clear hvs hvi
      induction vs with
      | nil => exact ⟨[], rfl⟩
      | cons v vs ih =>
        obtain ⟨b, hb⟩ := this v (by simp)
        obtain ⟨bs, hbs⟩ := ih (fun w hw => this w (by simp [hw]))
        exact ⟨b :: bs, by rw [List.mapM_cons, hb, hbs]; rfl⟩
    obtain ⟨ts, hts⟩ := hts
    have l1 : vs.length = js.length := gather_length hvs
    have l2 : cs.length = js.length := gather_length hcs
    have l3 : ts.length = vs.length := mapM_length hts
    refine ⟨g, ts.zip cs, hget, by rw [hvs, Option.bind_some, hts, Option.bind_some, hcs, Option.bind_some], ?_, ?_⟩
    · rw [List.length_zip, l3, l1, l2, Nat.min_self, hlen]
    · intro j i hi
      have hjl : j < js.length := by rw [hlen]; exact (List.getElem?_eq_some_iff.1 hi).1
      have e1 : vs[j]? = some (vs[j]'(by rw [l1]; exact hjl)) := List.getElem?_eq_getElem _
      have e2 : ts[j]? = some (ts[j]'(by rw [l3, l1]; exact hjl)) := List.getElem?_eq_getElem _
      have e3 : cs[j]? = some (cs[j]'(by rw [l2]; exact hjl)) := List.getElem?_eq_getElem _
      refine ⟨ts[j]'(by rw [l3, l1]; exact hjl), cs[j]'(by rw [l2]; exact hjl), vs[j]'(by rw [l1]; exact hjl), List.getElem?_zip_eq_some.2 ⟨e2, e3⟩, ?_, ?_, ?_⟩
      · obtain ⟨i', hi', hv, -⟩ := hvi j _ e1
        rw [hi] at hi'
        cases hi'
        exact hv
      · have := mapM_getElem? hts j
        rw [e1, e2] at this
        exact this.symm
      · obtain ⟨i', hi', hv, r, hr, hr'⟩ := hvi j _ e1
        rw [hi] at hi'
        cases hi'
        refine ⟨idx, h.sorted, h.mem, r, hr', ?_⟩
        have := gather_getElem? hcs j
        rw [e3, hr] at this
        exact this.symm
  have hall : ∃ shapes, (names.mapM fun ni => (gather verts ni.2).bind fun vs => (vs.mapM ext).bind fun ts => (gather charges ni.2).bind fun cs => some (mk (ts.zip cs))) = some shapes := by
    have : ∀ ni ∈ names, ∃ sh, ((gather verts ni.2).bind fun vs => (vs.mapM ext).bind fun ts => (gather charges ni.2).bind fun cs => some (mk (ts.zip cs))) = some sh := by
      rintro ⟨n, js⟩ hni
      obtain ⟨k, hk⟩ := List.mem_iff_getElem?.1 hni
      obtain ⟨g, ps, -, h2, -⟩ := hone k n js hk
      exact ⟨_, h2⟩
    clear hone h
    induction names with
    | nil => exact ⟨[], rfl⟩
    | cons ni names ih =>
      obtain ⟨b, hb⟩ := this ni (by simp)
      obtain ⟨bs, hbs⟩ := ih (fun w hw => this w (by simp [hw]))
      exact ⟨b :: bs, by rw [List.mapM_cons, hb, hbs]; rfl⟩
  obtain ⟨shapes, hs⟩ := hall
  refine ⟨shapes, hs, ?_, ?_⟩
  · rw [mapM_length hs, h.pairsLen, excitedGroups_eq]
  · intro k n g hk
    have hkl := (List.getElem?_eq_some_iff.1 hk).1
    rw [excitedGroups_eq, ← h.pairsLen] at hkl
    have hget : names[k]? = some names[k] := List.getElem?_eq_getElem hkl
    generalize names[k] = ng at hget
    obtain ⟨n', js⟩ := ng
    obtain ⟨g', ps, h1, h2, h3, h4⟩ := hone k n' js hget
    rw [hk] at h1
    cases h1
    refine ⟨ps, ?_, h3, h4⟩
    rw [mapM_getElem? hs, hget]
    exact h2

end Traceon
