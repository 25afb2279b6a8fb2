import Verif.Props.Threads
import Mathlib.Algebra.BigOperators.Group.List.Basic

/-!
# C36: exactly which rows of the radial matrix are computed
-/
namespace Traceon
open ThreadState

/-- Where the entries of a part come from. -/
theorem chop_mem_range' (ns : List Nat) (s n t i : Nat) (h : i ∈ (chop ns (List.range' s n)).getD t []) :
    s + (ns.take t).sum ≤ i ∧ i < s + (ns.take (t + 1)).sum := by
  induction ns generalizing s n t with
  | nil => simp [chop] at h
  | cons a ns ih =>
    rw [chop] at h
    cases t with
    | zero =>
      simp only [List.getD_cons_zero] at h
      obtain ⟨k, hk⟩ := List.mem_iff_getElem?.1 h
      rw [List.getElem?_take] at hk
      split at hk
      · rename_i hka
        obtain ⟨hkn, hk⟩ := List.getElem?_eq_some_iff.1 hk
        rw [List.getElem_range'] at hk
        simp only [List.take_zero, List.sum_nil, List.take_succ_cons, List.sum_cons]
        omega
      · cases hk
    | succ t =>
      simp only [List.getD_cons_succ] at h
      by_cases ha : a ≤ n
      · rw [List.drop_range', mul_one] at h
        have := ih _ _ _ h
        simp only [List.take_succ_cons, List.sum_cons]
        omega
      · rw [List.drop_eq_nil_of_le (by simp; omega)] at h
        exfalso
        have : ∀ (ms : List Nat) (t : Nat), (chop ms ([] : List Nat)).getD t [] = [] := by
          intro ms
          induction ms with
          | nil => intro t; simp [chop]
          | cons m ms ih =>
            intro t
            rw [chop]
            cases t with
            | zero => simp
            | succ t => simpa using ih t
        rw [this] at h
        cases h

theorem rowsOf_length (n T t : Nat) (hT : 0 < T) (ht : t < T) : (rowsOf n T t).length = (splitSizes n T).getD t 0 := by
  have hsum := splitSizes_sum n T hT
  have hm := chop_map_length (splitSizes n T) (List.range n) (by simpa using hsum)
  have htl : t < (chop (splitSizes n T) (List.range n)).length := by rw [chop_length, splitSizes_length _ _ hT]; exact ht
  unfold rowsOf
  conv_rhs => rw [← hm]
  rw [List.getD_eq_getElem?_getD, List.getElem?_eq_getElem htl, List.getD_eq_getElem?_getD, List.getElem?_map, List.getElem?_eq_getElem htl]
  rfl

/-- The part of a row has at least two rows if and only if the row is one of the first `2 (n - T)`. -/
theorem enough_iff (n T t i : Nat) (hT : 0 < T) (ht : t < T) (hi : i ∈ rowsOf n T t) (hin : i < n) : Enough true (rowsOf n T t) ↔ i + 2 * T < 2 * n := by
  unfold Enough
  rw [if_pos rfl, rowsOf_length n T t hT ht]
  have hdm := Nat.div_add_mod n T
  have hml := Nat.mod_lt n hT
  have hpos : i ∈ (chop (splitSizes n T) (List.range' 0 n)).getD t [] := by rw [← List.range_eq_range']; exact hi
  obtain ⟨h1, h2⟩ := chop_mem_range' _ _ _ _ _ hpos
  have hget : (splitSizes n T).getD t 0 = if t < n % T then n / T + 1 else n / T := by
    unfold splitSizes
    rw [List.getD_eq_getElem?_getD]
    split
    · rename_i h
      rw [List.getElem?_append_left (by simpa using h), List.getElem?_replicate, if_pos h]; rfl
    · rename_i h
      rw [List.getElem?_append_right (by simpa using h), List.length_replicate, List.getElem?_replicate, if_pos (by omega)]; rfl
  have htake : ∀ k, ((splitSizes n T).take k).sum = min k (n % T) * (n / T + 1) + min (k - n % T) (T - n % T) * (n / T) := by
    intro k
    unfold splitSizes
    rw [List.take_append, List.sum_append, List.take_replicate, List.take_replicate, sum_replicate_nat, sum_replicate_nat, List.length_replicate]
  rw [htake] at h1 h2
  rw [hget]
  rcases Nat.lt_or_ge n T with hlt | hge
  · rw [Nat.div_eq_of_lt hlt, Nat.mod_eq_of_lt hlt]
    split <;> omega
  · rcases Nat.lt_or_ge n (2 * T) with h2T | h2T
    · have hd : n / T = 1 := by
        refine Nat.div_eq_of_lt_le ?_ ?_ <;> omega
      rw [hd] at h1 h2 hdm ⊢
      split
      · rename_i h
        have e1 : min (t + 1) (n % T) = t + 1 := by omega
        have e2 : t + 1 - n % T = 0 := by omega
        rw [e1, e2] at h2
        omega
      · rename_i h
        have e1 : min t (n % T) = n % T := by omega
        rw [e1] at h1
        omega
    · have h4 : 2 ≤ n / T := (Nat.le_div_iff_mul_le hT).2 h2T
      split <;> omega

/-- **C36, exactly,** for radial symmetry: with `n` elements on `T` threads, and however they are scheduled, the first `2 (n - T)` rows are computed (all, if `2 T ≤ n`; none, if `n ≤ T`), and the other rows
are zero except on the diagonal. -/
theorem C36_radial {V : Type} [Add V] [Zero V] (n T : Nat) (hT : 0 < T) (ops : Nat → Nat → List (EntryOp V)) (diag : Nat → V)
    (sched : List Nat) (hjoin : Joined sched (matrixProgs true n T ops)) :
    ∃ A, getMatrix true n T ops diag sched = some A ∧
      ∀ i j, i < n → j < n → A i j = if i = j then diag i else if i + 2 * T < 2 * n then (ops i j).foldl EntryOp.apply 0 else 0 := by
  obtain ⟨A, h1, h2⟩ := getMatrix_spec true n T hT ops diag sched hjoin
  refine ⟨A, h1, fun i j hi hj => ?_⟩
  obtain ⟨t, htT, ht⟩ := rowsOf_cover n T i hT hi
  obtain ⟨e1, e2, e3⟩ := h2 t i j ht hj
  have hen := enough_iff n T t i hT htT ht hi
  split
  · rename_i hij; exact e1 rfl hij
  · rename_i hij
    split
    · rename_i h; exact e2 (by simp [hij]) (hen.2 h)
    · rename_i h; exact e3 (by simp [hij]) (fun h' => h (hen.1 h'))

/-- Three elements on two threads: the first two rows are computed (`C36_refuted`). Four elements on three threads: the first two as well. -/
example : (List.range 3).filter (fun i => decide (i + 2 * 2 < 2 * 3)) = [0, 1] ∧ (List.range 4).filter (fun i => decide (i + 2 * 3 < 2 * 4)) = [0, 1] := by decide

end Traceon
