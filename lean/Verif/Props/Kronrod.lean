import Verif.Spec.Kronrod
import Verif.Lemmas.List
import Mathlib.Analysis.SpecialFunctions.Integrals.Basic
import Mathlib.Algebra.Polynomial.Eval.Degree
import Mathlib.Tactic.IntervalCases

namespace Traceon
open Spec

/-- What the loop has added when it returns. -/
theorem kronrodLoop_partition (f : ℝ → ℝ) (b absTol relTol : ℝ) :
    ∀ fuel start stop result r, start ≤ b → start < stop ∨ start = b → stop ≤ b →
      kronrodLoop f b absTol relTol fuel start stop result = some r →
      ∃ xs, IsPartition start b xs ∧
        (∀ i ∈ intervals xs, kronrodAccepts absTol relTol (intervalRule g7Table f i.1 i.2) (intervalRule k15Table f i.1 i.2)) ∧
        r = result + ((intervals xs).map fun i => intervalRule k15Table f i.1 i.2).sum := by
  intro fuel
  induction fuel with
  | zero => intro start stop result r _ _ _ h; simp [kronrodLoop] at h
  | succ fuel ih =>
    intro start stop result r hsb hlt hstop h
    rw [kronrodLoop] at h
    split at h
    · rename_i hs
      have hlt' : start < stop := by
        rcases hlt with h | h
        · exact h
        · exact absurd h hs.ne
      simp only at h
      split at h
      · rename_i hacc
        obtain ⟨xs, hp, hall, hr⟩ := ih stop b _ r hstop (by
          rcases hstop.lt_or_eq with h | h
          · exact Or.inl h
          · exact Or.inr h) le_rfl h
        cases xs with
        | nil => simpa using hp.head
        | cons x xs =>
          have hx : x = stop := by simpa using hp.head
          subst hx
          refine ⟨start :: x :: xs, ⟨rfl, ?_, ?_⟩, ?_, ?_⟩
          · rw [List.getLast?_cons_cons]; exact hp.last
          · rw [List.pairwise_cons]
            refine ⟨?_, hp.increasing⟩
            intro y hy
            rcases List.mem_cons.1 hy with rfl | hy
            · exact hlt'
            · exact hlt'.trans ((List.pairwise_cons.1 hp.increasing).1 y hy)
          · intro i hi
            simp only [intervals, List.tail_cons, List.zip_cons_cons, List.mem_cons] at hi
            rcases hi with rfl | hi
            · exact hacc
            · exact hall i hi
          · rw [hr]
            simp only [intervals, List.tail_cons, List.zip_cons_cons, List.map_cons, List.sum_cons]
            ring
      · exact ih start _ result r hsb (Or.inl (by linarith)) (by linarith) h
    · rename_i hs
      have : start = b := le_antisymm hsb (not_lt.1 hs)
      subst this
      refine ⟨[start], ⟨rfl, rfl, by simp⟩, by simp [intervals], ?_⟩
      simp only [intervals, List.tail_cons, List.zip_nil_right, List.map_nil, List.sum_nil, add_zero]
      simpa using h.symm

/-- **C56.** When the adaptive quadrature returns for `a ≤ b`, its value is the sum of the values of the Kronrod rule
over adjacent intervals that together are the interval from `a` to `b`, and each of them met the tolerance. -/
theorem C56_partition {f : ℝ → ℝ} {a b absTol relTol r : ℝ} (hab : a ≤ b)
    (h : KronrodReturns f a b absTol relTol r) :
    ∃ xs, IsPartition a b xs ∧
      (∀ i ∈ intervals xs, |intervalRule k15Table f i.1 i.2 - intervalRule g7Table f i.1 i.2| ≤ absTol ∨
        |intervalRule k15Table f i.1 i.2 - intervalRule g7Table f i.1 i.2| ≤ relTol * |intervalRule k15Table f i.1 i.2|) ∧
      r = ((intervals xs).map fun i => intervalRule k15Table f i.1 i.2).sum := by
  obtain ⟨fuel, hf⟩ := h
  obtain ⟨xs, h1, h2, h3⟩ := kronrodLoop_partition f b absTol relTol fuel a b 0 r hab
    (by rcases hab.lt_or_eq with h | h
        · exact Or.inl h
        · exact Or.inr h) le_rfl hf
  exact ⟨xs, h1, h2, by rw [h3, zero_add]⟩

/-- An empty or reversed interval gives zero. -/
theorem C56_empty (f : ℝ → ℝ) {a b absTol relTol r : ℝ} (hab : b ≤ a) :
    KronrodReturns f a b absTol relTol r ↔ r = 0 := by
  constructor
  · rintro ⟨fuel, h⟩
    cases fuel with
    | zero => simp [kronrodLoop] at h
    | succ n => simpa [kronrodLoop, not_lt.2 hab] using h.symm
  · rintro rfl
    exact ⟨1, by simp [kronrodLoop, not_lt.2 hab]⟩

theorem kronrodLoop_mono (f : ℝ → ℝ) (b absTol relTol : ℝ) :
    ∀ n start stop result r m, n ≤ m → kronrodLoop f b absTol relTol n start stop result = some r →
      kronrodLoop f b absTol relTol m start stop result = some r := by
  intro n
  induction n with
  | zero => intro start stop result r m _ h; simp [kronrodLoop] at h
  | succ n ih =>
    intro start stop result r m hm h
    obtain ⟨m, rfl⟩ : ∃ m', m = m' + 1 := ⟨m - 1, by omega⟩
    rw [kronrodLoop] at h ⊢
    split
    · rename_i hs
      rw [if_pos hs] at h
      simp only at h ⊢
      split
      · rename_i ha
        rw [if_pos ha] at h
        exact ih _ _ _ _ m (by omega) h
      · rename_i ha
        rw [if_neg ha] at h
        exact ih _ _ _ _ m (by omega) h
    · rename_i hs
      rw [if_neg hs] at h
      exact h

/-- The value is determined. -/
theorem kronrodReturns_unique {f : ℝ → ℝ} {a b absTol relTol r r' : ℝ}
    (h : KronrodReturns f a b absTol relTol r) (h' : KronrodReturns f a b absTol relTol r') : r = r' := by
  obtain ⟨n, hn⟩ := h
  obtain ⟨m, hm⟩ := h'
  have h1 := kronrodLoop_mono f b absTol relTol n a b 0 r (max n m) (le_max_left _ _) hn
  have h2 := kronrodLoop_mono f b absTol relTol m a b 0 r' (max n m) (le_max_right _ _) hm
  rw [h1] at h2
  exact Option.some.inj h2

/-! ## Termination -/

/-- On a short interval the two rules differ little. -/
theorem quad_diff_le {f : ℝ → ℝ} {s e M : ℝ} (hse : s ≤ e) (hM : ∀ x, s ≤ x → x ≤ e → |f x| ≤ M) :
    |intervalRule k15Table f s e - intervalRule g7Table f s e| ≤ 3 * M * (e - s) := by
  set c := (s + e) / 2 with hc
  set h := (e - s) / 2 with hh
  have hh0 : 0 ≤ h := by rw [hh]; linarith
  have bound : ∀ x, 0 ≤ x → x ≤ 1 → |f (c - h * x)| ≤ M ∧ |f (c + h * x)| ≤ M := by
    intro x hx0 hx1
    have h1 : 0 ≤ h * x := by positivity
    have h2 : h * x ≤ h := by nlinarith
    constructor
    · apply hM <;> · rw [hc, hh] at *; linarith
    · apply hM <;> · rw [hc, hh] at *; linarith
  have M0 : 0 ≤ M := le_trans (abs_nonneg _) (hM s le_rfl hse)
  have b0 : |f c| ≤ M := by have := (bound 0 le_rfl zero_le_one).1; simpa using this
  have b1 := bound 0.207784955007898 (by norm_num) (by norm_num)
  have b2 := bound 0.405845151377397 (by norm_num) (by norm_num)
  have b3 := bound 0.586087235467691 (by norm_num) (by norm_num)
  have b4 := bound 0.741531185599394 (by norm_num) (by norm_num)
  have b5 := bound 0.864864423359769 (by norm_num) (by norm_num)
  have b6 := bound 0.949107912342759 (by norm_num) (by norm_num)
  have b7 := bound 0.991455371120813 (by norm_num) (by norm_num)
  have hes : e - s = 2 * h := by rw [hh]; ring
  have hq : intervalRule k15Table f s e - intervalRule g7Table f s e = h *
      ((0.209482141084728 - 0.417959183673469) * f c +
       0.204432940075299 * (f (c - h * 0.207784955007898) + f (c + h * 0.207784955007898)) +
       (0.190350578064785 - 0.381830050505119) * (f (c - h * 0.405845151377397) + f (c + h * 0.405845151377397)) +
       0.169004726639268 * (f (c - h * 0.586087235467691) + f (c + h * 0.586087235467691)) +
       (0.140653259715526 - 0.279705391489277) * (f (c - h * 0.741531185599394) + f (c + h * 0.741531185599394)) +
       0.104790010322250 * (f (c - h * 0.864864423359769) + f (c + h * 0.864864423359769)) +
       (0.063092092629979 - 0.129484966168870) * (f (c - h * 0.949107912342759) + f (c + h * 0.949107912342759)) +
       0.022935322010529 * (f (c - h * 0.991455371120813) + f (c + h * 0.991455371120813))) := by
    simp only [intervalRule, k15Table, g7Table, List.foldl, ← hc, ← hh]
    ring
  rw [hq, hes, abs_mul, abs_of_nonneg hh0]
  rw [show 3 * M * (2 * h) = h * (6 * M) by ring]
  apply mul_le_mul_of_nonneg_left _ hh0
  simp only [abs_le] at b0 b1 b2 b3 b4 b5 b6 b7 ⊢
  constructor
  · linarith [b0.1, b0.2, b1.1.1, b1.1.2, b1.2.1, b1.2.2, b2.1.1, b2.1.2, b2.2.1, b2.2.2, b3.1.1, b3.1.2, b3.2.1,
      b3.2.2, b4.1.1, b4.1.2, b4.2.1, b4.2.2, b5.1.1, b5.1.2, b5.2.1, b5.2.2, b6.1.1, b6.1.2, b6.2.1, b6.2.2,
      b7.1.1, b7.1.2, b7.2.1, b7.2.2]
  · linarith [b0.1, b0.2, b1.1.1, b1.1.2, b1.2.1, b1.2.2, b2.1.1, b2.1.2, b2.2.1, b2.2.2, b3.1.1, b3.1.2, b3.2.1,
      b3.2.2, b4.1.1, b4.1.2, b4.2.1, b4.2.2, b5.1.1, b5.1.2, b5.2.1, b5.2.2, b6.1.1, b6.1.2, b6.2.1, b6.2.2,
      b7.1.1, b7.1.2, b7.2.1, b7.2.2]

/-- If intervals of length at most `δ` are accepted, the loop finishes. -/
theorem kronrodLoop_terminates (f : ℝ → ℝ) (a b absTol relTol δ : ℝ) (hδ : 0 < δ)
    (hacc : ∀ s e, a ≤ s → s < e → e ≤ b → e - s ≤ δ →
      kronrodAccepts absTol relTol (intervalRule g7Table f s e) (intervalRule k15Table f s e)) :
    ∀ N : ℕ, ∀ start, a ≤ start → b - start ≤ N * (δ / 2) → ∀ k : ℕ, ∀ stop result, start < stop ∨ b ≤ start → stop ≤ b →
      (stop = b ∨ δ / 2 < stop - start) → stop - start ≤ 2 ^ k * δ →
      ∃ fuel r, kronrodLoop f b absTol relTol fuel start stop result = some r := by
  intro N
  induction N with
  | zero =>
    intro start _ hN k stop result _ _ _ _
    refine ⟨1, result, ?_⟩
    have : ¬ start < b := by push_cast at hN; linarith
    simp [kronrodLoop, this]
  | succ N ihN =>
    intro start hstart hN k
    induction k with
    | zero =>
      intro stop result hlt hstop hlen hk
      by_cases hs : start < b
      · have hlt' : start < stop := by
          rcases hlt with h | h
          · exact h
          · linarith
        have ha := hacc start stop hstart hlt' hstop (by simpa using hk)
        obtain ⟨kk, hkk⟩ : ∃ kk : ℕ, b - stop ≤ 2 ^ kk * δ := by
          obtain ⟨kk, hkk⟩ := pow_unbounded_of_one_lt ((b - stop) / δ) (one_lt_two)
          exact ⟨kk, by rw [div_lt_iff₀ hδ] at hkk; exact hkk.le⟩
        obtain ⟨fuel, r, hr⟩ : ∃ fuel r, kronrodLoop f b absTol relTol fuel stop b
            (result + intervalRule k15Table f start stop) = some r := by
          rcases hlen with h | h
          · refine ⟨1, result + intervalRule k15Table f start stop, ?_⟩
            simp [kronrodLoop, h]
          · refine ihN stop (by linarith) ?_ kk b _ ?_ le_rfl (Or.inl rfl) hkk
            · push_cast at hN; linarith
            · rcases hstop.lt_or_eq with h | h
              · exact Or.inl h
              · exact Or.inr h.ge
        exact ⟨fuel + 1, r, by simp only [kronrodLoop, if_pos hs, if_pos ha]; exact hr⟩
      · exact ⟨1, result, by simp [kronrodLoop, hs]⟩
    | succ k ihk =>
      intro stop result hlt hstop hlen hk
      by_cases hsmall : stop - start ≤ 2 ^ k * δ
      · exact ihk stop result hlt hstop hlen hsmall
      by_cases hs : start < b
      · have hlt' : start < stop := by
          rcases hlt with h | h
          · exact h
          · linarith
        by_cases ha : kronrodAccepts absTol relTol (intervalRule g7Table f start stop) (intervalRule k15Table f start stop)
        · obtain ⟨kk, hkk⟩ : ∃ kk : ℕ, b - stop ≤ 2 ^ kk * δ := by
            obtain ⟨kk, hkk⟩ := pow_unbounded_of_one_lt ((b - stop) / δ) (one_lt_two)
            exact ⟨kk, by rw [div_lt_iff₀ hδ] at hkk; exact hkk.le⟩
          obtain ⟨fuel, r, hr⟩ : ∃ fuel r, kronrodLoop f b absTol relTol fuel stop b
              (result + intervalRule k15Table f start stop) = some r := by
            rcases hlen with h | h
            · refine ⟨1, result + intervalRule k15Table f start stop, ?_⟩
              simp [kronrodLoop, h]
            · refine ihN stop (by linarith) ?_ kk b _ ?_ le_rfl (Or.inl rfl) hkk
              · push_cast at hN; linarith
              · rcases hstop.lt_or_eq with h | h
                · exact Or.inl h
                · exact Or.inr h.ge
          exact ⟨fuel + 1, r, by simp only [kronrodLoop, if_pos hs, if_pos ha]; exact hr⟩
        · have h2 : (1 : ℝ) ≤ 2 ^ k := one_le_pow₀ (by norm_num)
          obtain ⟨fuel, r, hr⟩ := ihk ((start + stop) / 2) result (Or.inl (by linarith)) (by linarith)
            (Or.inr (by
              push Not at hsmall
              nlinarith)) (by
              rw [pow_succ] at hk
              linarith)
          exact ⟨fuel + 1, r, by simp only [kronrodLoop, if_pos hs, if_neg ha]; exact hr⟩
      · exact ⟨1, result, by simp [kronrodLoop, hs]⟩

/-- **C56.** With a positive absolute tolerance the adaptive quadrature returns for every integrand that is bounded on
the interval. -/
theorem C56_returns {f : ℝ → ℝ} {a b absTol relTol M : ℝ} (htol : 0 < absTol)
    (hM : ∀ x, a ≤ x → x ≤ b → |f x| ≤ M) : ∃ r, KronrodReturns f a b absTol relTol r := by
  rcases le_or_gt b a with hab | hab
  · exact ⟨0, (C56_empty f hab).2 rfl⟩
  have M0 : 0 ≤ M := le_trans (abs_nonneg _) (hM a le_rfl hab.le)
  set δ := absTol / (3 * M + 1) with hδ
  have hδ0 : 0 < δ := by positivity
  have hacc : ∀ s e, a ≤ s → s < e → e ≤ b → e - s ≤ δ →
      kronrodAccepts absTol relTol (intervalRule g7Table f s e) (intervalRule k15Table f s e) := by
    intro s e h1 h2 h3 h4
    left
    refine (quad_diff_le h2.le fun x hx hx' => hM x (by linarith) (by linarith)).trans ?_
    calc 3 * M * (e - s) ≤ 3 * M * δ := by gcongr
      _ ≤ (3 * M + 1) * δ := by nlinarith
      _ = absTol := by rw [hδ]; field_simp
  obtain ⟨N, hN⟩ := exists_nat_ge ((b - a) / (δ / 2))
  obtain ⟨k, hk⟩ := pow_unbounded_of_one_lt ((b - a) / δ) (one_lt_two)
  obtain ⟨fuel, r, hr⟩ := kronrodLoop_terminates f a b absTol relTol δ hδ0 hacc N a le_rfl
    ((div_le_iff₀ (by positivity)).1 hN) k b 0 (Or.inl hab) le_rfl (Or.inl rfl)
    (((div_lt_iff₀ hδ0).1 hk).le)
  exact ⟨r, fuel, hr⟩

end Traceon
