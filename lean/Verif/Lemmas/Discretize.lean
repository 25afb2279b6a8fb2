import Verif.Model.Path
import Mathlib.Tactic.Linarith
import Mathlib.Tactic.FieldSimp
import Mathlib.Tactic.Ring

/-! # Lemmas on `discretize_path` -/
namespace Traceon

theorem linspaceOpen_length (a b : ℝ) (n : ℕ) : (linspaceOpen a b n).length = n := by simp [linspaceOpen]

theorem linspaceOpen_get (a b : ℝ) (n k : ℕ) (h : k < n) :
    (linspaceOpen a b n)[k]? = some (a + k * ((b - a) / n)) := by
  simp [linspaceOpen, h]

theorem mem_linspaceOpen {a b : ℝ} (hab : a < b) {n : ℕ} {x : ℝ} (hx : x ∈ linspaceOpen a b n) :
    a ≤ x ∧ x < b := by
  simp only [linspaceOpen, List.mem_map, List.mem_range] at hx
  obtain ⟨k, hk, rfl⟩ := hx
  have hn : (0 : ℝ) < n := by exact_mod_cast lt_of_le_of_lt (Nat.zero_le _) hk
  have hk' : (k : ℝ) < n := by exact_mod_cast hk
  have hk0 : (0 : ℝ) ≤ k := by positivity
  have hd : 0 < (b - a) / n := div_pos (by linarith) hn
  have h1 : (k : ℝ) * ((b - a) / n) < n * ((b - a) / n) := by
    exact mul_lt_mul_of_pos_right hk' hd
  have h2 : (n : ℝ) * ((b - a) / n) = b - a := by field_simp
  constructor
  · have : 0 ≤ (k : ℝ) * ((b - a) / n) := by positivity
    linarith
  · linarith

theorem linspaceOpen_increasing {a b : ℝ} (hab : a < b) (n : ℕ) :
    (linspaceOpen a b n).Pairwise (· < ·) := by
  unfold linspaceOpen
  rw [List.pairwise_map]
  refine (List.pairwise_lt_range (n := n)).imp_of_mem ?_
  intro i j hi hj hij
  rw [List.mem_range] at hi
  have hn : (0 : ℝ) < n := by exact_mod_cast lt_of_le_of_lt (Nat.zero_le _) hi
  have hd : 0 < (b - a) / n := div_pos (by linarith) hn
  have : (i : ℝ) < j := by exact_mod_cast hij
  have := mul_lt_mul_of_pos_right this hd
  linarith

/-- The number of elements demanded for a section of a given length. -/
noncomputable def Spec.demand (meshSize : Option ℝ) (factor : Option ℤ) (len : ℝ) : ℤ :=
  match meshSize with
  | some h => max ⌈len / h⌉ 3
  | none => 3 * max (factor.getD 1) 1

theorem sectionCount_spec {ms : Option ℝ} {mf : Option ℤ} (h1 : ∀ h, ms = some h → 0 < h)
    (h2 : ms.isSome ∨ mf.isSome) (u0 u1 : ℝ) :
    ∃ n, sectionCount ms mf u0 u1 = some n ∧ 3 ≤ n ∧ (n : ℤ) = Spec.demand ms mf (u1 - u0) := by
  cases ms with
  | some h =>
    have := h1 h rfl
    refine ⟨(max ⌈(u1 - u0) / h⌉ 3).toNat, by simp [sectionCount, safeDiv, this.ne'], ?_, ?_⟩
    · have : (3 : ℤ) ≤ max ⌈(u1 - u0) / h⌉ 3 := le_max_right _ _
      omega
    · have : (3 : ℤ) ≤ max ⌈(u1 - u0) / h⌉ 3 := le_max_right _ _
      simp only [Spec.demand]; omega
  | none =>
    cases mf with
    | none => simp at h2
    | some k =>
      refine ⟨3 * (max k 1).toNat, rfl, ?_, ?_⟩
      · have : (1 : ℤ) ≤ max k 1 := le_max_right _ _
        omega
      · have : (1 : ℤ) ≤ max k 1 := le_max_right _ _
        simp only [Spec.demand, Option.getD_some]; omega

/-- what the loop over the sections achieves; `w` is its result with the last point appended -/
structure Sampled (ms : Option ℝ) (mf : Option ℤ) (nf : ℕ) (pts w : List ℝ) : Prop where
  inc : w.Pairwise (· < ·)
  first : w.head? = pts.head?
  last : w.getLast? = pts.getLast?
  ge : ∀ p, pts.head? = some p → ∀ x ∈ w, p ≤ x
  corner : ∀ b ∈ pts, ∃ k, w[nf * k]? = some b
  size : ∀ h, ms = some h → ∀ k x y, w[nf * k]? = some x → w[nf * (k + 1)]? = some y → y - x ≤ h
  mod : ∃ k, w.length = nf * k + 1
  count : ∀ p ∈ pts, ∀ q ∈ pts, p < q → (∀ r ∈ pts, ¬ (p < r ∧ r < q)) →
    ∃ n : ℕ, (n : ℤ) = Spec.demand ms mf (q - p) ∧ 3 ≤ n ∧
      (w.filter (fun x => decide (p ≤ x ∧ x < q))).length = nf * n

theorem demand_size {ms : Option ℝ} {mf : Option ℤ} {h len : ℝ} (hh : ms = some h) (h0 : 0 < h) {n : ℕ}
    (hn3 : 3 ≤ n) (hn : (n : ℤ) = Spec.demand ms mf len) : len / n ≤ h := by
  subst hh
  have hn0 : (0 : ℝ) < n := by exact_mod_cast (by omega : 0 < n)
  rw [div_le_iff₀ hn0]
  have h1 : ⌈len / h⌉ ≤ (n : ℤ) := by rw [hn]; exact le_max_left _ _
  have h2 : len / h ≤ n := by
    have := Int.le_ceil (len / h)
    have h3 : ((⌈len / h⌉ : ℤ) : ℝ) ≤ ((n : ℤ) : ℝ) := by exact_mod_cast h1
    push_cast at h3; linarith
  rw [div_le_iff₀ h0] at h2; linarith

theorem discretizeLoop_spec {ms : Option ℝ} {mf : Option ℤ} (h1 : ∀ h, ms = some h → 0 < h)
    (h2 : ms.isSome ∨ mf.isSome) {nf : ℕ} (hnf : 0 < nf) :
    ∀ (pts : List ℝ) (e : ℝ), pts.Pairwise (· ≤ ·) → pts.getLast? = some e →
      ∃ l, discretizeLoop ms mf nf pts = some l ∧ Sampled ms mf nf pts (l ++ [e])
  | [], _, _, h => by simp at h
  | [a], e, _, h => by
      simp only [List.getLast?_singleton, Option.some.injEq] at h
      subst h
      refine ⟨[], rfl, ?_⟩
      refine ⟨by simp, by simp, by simp, by simp, ?_, ?_, ⟨0, by simp⟩, ?_⟩
      · intro b hb; exact ⟨0, by simp at hb; simp [hb]⟩
      · intro h _ k x y _ hy
        have : nf * (k + 1) ≠ 0 := by positivity
        have h3 := (List.getElem?_eq_some_iff.1 hy).1
        simp only [List.nil_append, List.length_singleton] at h3
        omega
      · intro p hp q hq hpq
        simp at hp hq; subst hp; subst hq; exact absurd hpq (lt_irrefl _)
  | a :: b :: rest, e, hs, he => by
      have hs' := hs.tail
      simp only [List.tail_cons] at hs'
      have he' : (b :: rest).getLast? = some e := by simpa using he
      obtain ⟨l, hl, S⟩ := discretizeLoop_spec h1 h2 hnf (b :: rest) e hs' he'
      have hab : a ≤ b := (List.pairwise_cons.1 hs).1 b (by simp)
      by_cases hE : a = b
      · subst hE
        refine ⟨l, by simp [discretizeLoop, hl], ?_⟩
        refine ⟨S.inc, by simpa using S.first, by simpa using S.last, by simpa using S.ge, ?_, S.size, S.mod, ?_⟩
        · intro c hc
          refine S.corner c ?_
          simpa using hc
        · intro p hp q hq hpq hr
          exact S.count p (by simpa using hp) q (by simpa using hq) hpq
            (fun r hr' => hr r (List.mem_cons_of_mem _ hr'))
      · have hlt : a < b := lt_of_le_of_ne hab hE
        obtain ⟨n, hn, hn3, hnd⟩ := sectionCount_spec h1 h2 a b
        have hsz : ∀ h, ms = some h → (b - a) / n ≤ h := fun h hh => demand_size hh (h1 h hh) hn3 hnd
        have hnn : 0 < n := by omega
        have hnR : (0 : ℝ) < n := by exact_mod_cast hnn
        have hfR : (0 : ℝ) < nf := by exact_mod_cast hnf
        have hlen := linspaceOpen_length a b (nf * n)
        have hw0 : (l ++ [e])[0]? = some b := by
          have := S.first; rw [List.head?_eq_getElem?] at this; simpa using this
        have hbw : ∀ x ∈ l ++ [e], b ≤ x := S.ge b rfl
        have get1 : ∀ k, k < n → (linspaceOpen a b (nf * n) ++ (l ++ [e]))[nf * k]?
            = some (a + k * ((b - a) / n)) := by
          intro k hk
          have hk' : nf * k < nf * n := (Nat.mul_lt_mul_left hnf).2 hk
          rw [List.getElem?_append_left (by rw [hlen]; exact hk'), linspaceOpen_get _ _ _ _ hk']
          congr 1
          push_cast
          field_simp
        have get2 : ∀ k, (linspaceOpen a b (nf * n) ++ (l ++ [e]))[nf * (n + k)]?
            = (l ++ [e])[nf * k]? := by
          intro k
          rw [List.getElem?_append_right (by rw [hlen]; exact Nat.mul_le_mul_left _ (by omega)), hlen]
          congr 1
          rw [Nat.mul_add]; omega
        refine ⟨linspaceOpen a b (nf * n) ++ l, by simp [discretizeLoop, hl, hE, hn], ?_⟩
        rw [List.append_assoc]
        constructor
        · rw [List.pairwise_append]
          refine ⟨linspaceOpen_increasing hlt _, S.inc, ?_⟩
          intro x hx y hy
          exact lt_of_lt_of_le (mem_linspaceOpen hlt hx).2 (hbw y hy)
        · have := get1 0 hnn
          rw [List.head?_eq_getElem?]; simpa using this
        · simp only [List.getLast?_append, List.getLast?_singleton, Option.some_or]; exact he.symm
        · intro p hp x hx
          simp at hp; subst hp
          rcases List.mem_append.1 hx with hx | hx
          · exact (mem_linspaceOpen hlt hx).1
          · exact le_trans hab (hbw x hx)
        · intro c hc
          rcases List.mem_cons.1 hc with rfl | hc
          · exact ⟨0, by simpa using get1 0 hnn⟩
          · obtain ⟨k, hk⟩ := S.corner c hc
            exact ⟨n + k, by rw [get2, hk]⟩
        · intro h hh k x y hx hy
          rcases Nat.lt_trichotomy (k + 1) n with h3 | h3 | h3
          · rw [get1 k (by omega)] at hx
            rw [get1 (k + 1) h3] at hy
            cases hx; cases hy
            have := hsz h hh
            push_cast; linarith
          · rw [get1 k (by omega)] at hx
            have h4 : k + 1 = n + 0 := by omega
            rw [h4, get2, Nat.mul_zero, hw0] at hy
            cases hx; cases hy
            have := hsz h hh
            have h5 : (k : ℝ) = n - 1 := by rw [← h3]; push_cast; ring
            have h6 : (n : ℝ) * ((b - a) / n) = b - a := by field_simp
            rw [h5]; linarith
          · obtain ⟨j, rfl⟩ : ∃ j, k = n + j := ⟨k - n, by omega⟩
            rw [get2] at hx
            rw [show n + j + 1 = n + (j + 1) by omega, get2] at hy
            exact S.size h hh j x y hx hy
        · obtain ⟨k, hk⟩ := S.mod
          refine ⟨n + k, ?_⟩
          rw [List.length_append, hlen, hk, Nat.mul_add]; omega
        · intro p hp q hq hpq hr
          rcases List.mem_cons.1 hp with rfl | hp'
          · have hqb : q = b := by
              rcases List.mem_cons.1 hq with rfl | hq'
              · exact absurd hpq (lt_irrefl _)
              · have hbq : b ≤ q := by
                  rcases List.mem_cons.1 hq' with rfl | hq'
                  · exact le_refl _
                  · exact (List.pairwise_cons.1 hs').1 q hq'
                by_contra hne
                exact hr b (by simp) ⟨hlt, lt_of_le_of_ne hbq (Ne.symm hne)⟩
            subst hqb
            refine ⟨n, hnd, hn3, ?_⟩
            rw [List.filter_append, List.filter_eq_self.2, List.filter_eq_nil_iff.2]
            · simp [hlen]
            · intro x hx; simp only [decide_eq_true_eq, not_and, not_lt]; exact fun _ => hbw x hx
            · intro x hx; simp only [decide_eq_true_eq]; exact mem_linspaceOpen hlt hx
          · have hbp : b ≤ p := by
              rcases List.mem_cons.1 hp' with rfl | hp'
              · exact le_refl _
              · exact (List.pairwise_cons.1 hs').1 p hp'
            have hq' : q ∈ b :: rest := by
              rcases List.mem_cons.1 hq with rfl | hq'
              · exfalso; linarith
              · exact hq'
            obtain ⟨n', hn1', hn3', hc⟩ := S.count p hp' q hq' hpq (fun r hr' => hr r (List.mem_cons_of_mem _ hr'))
            refine ⟨n', hn1', hn3', ?_⟩
            rw [List.filter_append, List.length_append, hc]
            rw [List.filter_eq_nil_iff.2]
            · simp
            · intro x hx
              have := (mem_linspaceOpen hlt hx).2
              simp only [decide_eq_true_eq, not_and]
              intro h; linarith

end Traceon
