import Verif.Model.Threads

/-! Threads that access disjoint cells do not disturb each other. -/
namespace Traceon
namespace ThreadState
variable {C R : Type} [DecidableEq C]

/-- Run a list of steps of thread `t` alone. -/
def alone (t : Nat) (prog : List (Step C R)) (st : ThreadState C R) : ThreadState C R := prog.foldl (fun st s => st.exec t s) st

theorem alone_cons (t : Nat) (s : Step C R) (prog : List (Step C R)) (st : ThreadState C R) :
    alone t (s :: prog) st = alone t prog (st.exec t s) := rfl

/-- Running alone depends only on the own register and the own cells. -/
theorem alone_congr (t : Nat) (own : C → Prop) (prog : List (Step C R)) (hp : ∀ s ∈ prog, own s.cell) (a b : ThreadState C R)
    (hr : a.reg t = b.reg t) (hm : ∀ c, own c → a.mem c = b.mem c) :
    (alone t prog a).reg t = (alone t prog b).reg t ∧ ∀ c, own c → (alone t prog a).mem c = (alone t prog b).mem c := by
  induction prog generalizing a b with
  | nil => exact ⟨hr, hm⟩
  | cons s prog ih =>
    have hs := hp s (by simp)
    rw [alone_cons, alone_cons]
    apply ih (fun u hu => hp u (by simp [hu]))
    · simp [exec, hr, hm _ hs]
    · intro c hc
      simp only [exec]
      split
      · rw [hr, hm _ hs]
      · exact hm c hc

/-- A step of another thread, on a cell that is not owned. -/
theorem exec_other {t u : Nat} (h : u ≠ t) {own : C → Prop} {s : Step C R} (hs : ¬ own s.cell) (st : ThreadState C R) :
    (st.exec u s).reg t = st.reg t ∧ ∀ c, own c → (st.exec u s).mem c = st.mem c := by
  refine ⟨?_, fun c hc => ?_⟩
  · have : t ≠ u := fun e => h e.symm
    simp [exec, this]
  · have : c ≠ s.cell := by rintro rfl; exact hs hc
    simp [exec, this]

/-- Whatever the schedule: if no other thread touches the cells owned by thread `t`, and `t` touches only these, then at the end these cells have the values they would have if `t` had run alone. -/
theorem run_owned (t : Nat) (own : C → Prop) (sched : List Nat) (progs : Nat → List (Step C R)) (st : ThreadState C R)
    (hown : ∀ s ∈ progs t, own s.cell) (hothers : ∀ u, u ≠ t → ∀ s ∈ progs u, ¬ own s.cell)
    (hjoin : (progs t).length ≤ sched.count t) :
    ∀ c, own c → (run sched progs st).mem c = (alone t (progs t) st).mem c := by
  induction sched generalizing progs st with
  | nil =>
    have : progs t = [] := List.length_eq_zero_iff.1 (by simpa using hjoin)
    intro c _
    rw [this]; rfl
  | cons u sched ih =>
    intro c hc
    unfold run
    cases hu : progs u with
    | nil =>
      simp only
      by_cases hut : u = t
      · subst hut
        have := ih progs st hown hothers (by rw [hu]; simp) c hc
        exact this
      · rw [List.count_cons_of_ne hut] at hjoin
        exact ih progs st hown hothers hjoin c hc
    | cons s rest =>
      simp only
      by_cases hut : u = t
      · subst hut
        have := ih (fun v => if v = u then rest else progs v) (st.exec u s)
          (by simp only [if_true]; intro s' hs'; exact hown s' (by rw [hu]; simp [hs']))
          (by intro v hv s' hs'; simp only [if_neg hv] at hs'; exact hothers v hv s' hs')
          (by simp only [if_true]; rw [hu] at hjoin; simp at hjoin; omega) c hc
        rw [this, hu]
        simp only [if_true]
        rfl
      · have htu : t ≠ u := fun e => hut e.symm
        have hs : ¬ own s.cell := hothers u hut s (by rw [hu]; simp)
        rw [List.count_cons_of_ne hut] at hjoin
        have := ih (fun v => if v = u then rest else progs v) (st.exec u s)
          (by simp only [if_neg htu]; exact hown)
          (by
            intro v hv s' hs'
            by_cases hvu : v = u
            · subst hvu; simp only [if_true] at hs'
              exact hothers v hv s' (by rw [hu]; simp [hs'])
            · simp only [if_neg hvu] at hs'; exact hothers v hv s' hs')
          (by simp only [if_neg htu]; exact hjoin) c hc
        rw [this]
        simp only [if_neg htu]
        obtain ⟨h1, h2⟩ := exec_other hut hs st
        exact (alone_congr t own (progs t) hown _ _ h1 h2).2 c hc

/-- A cell that no thread touches keeps its value. -/
theorem run_untouched (sched : List Nat) (progs : Nat → List (Step C R)) (st : ThreadState C R) (c : C)
    (h : ∀ u, ∀ s ∈ progs u, s.cell ≠ c) : (run sched progs st).mem c = st.mem c := by
  induction sched generalizing progs st with
  | nil => rfl
  | cons u sched ih =>
    unfold run
    cases hu : progs u with
    | nil => exact ih progs st h
    | cons s rest =>
      simp only
      rw [ih _ _ (by
        intro v s' hs'
        by_cases hvu : v = u
        · subst hvu; simp only [if_true] at hs'; exact h v s' (by rw [hu]; simp [hs'])
        · simp only [if_neg hvu] at hs'; exact h v s' hs')]
      have : c ≠ s.cell := fun e => h u s (by rw [hu]; simp) e.symm
      simp [exec, this]

end ThreadState

section split
variable {α : Type _}

theorem chop_length (ns : List Nat) (xs : List α) : (chop ns xs).length = ns.length := by
  induction ns generalizing xs with
  | nil => rfl
  | cons n ns ih => simp [chop, ih]

theorem chop_flatten (ns : List Nat) (xs : List α) (h : ns.sum = xs.length) : (chop ns xs).flatten = xs := by
  induction ns generalizing xs with
  | nil => simp at h; simp [chop, List.length_eq_zero_iff.1 h.symm]
  | cons n ns ih =>
    rw [List.sum_cons] at h
    rw [chop, List.flatten_cons, ih _ (by simp; omega), List.take_append_drop]

theorem chop_map_length (ns : List Nat) (xs : List α) (h : ns.sum = xs.length) : (chop ns xs).map List.length = ns := by
  induction ns generalizing xs with
  | nil => rfl
  | cons n ns ih =>
    rw [List.sum_cons] at h
    rw [chop, List.map_cons, ih _ (by simp; omega), List.length_take]
    congr 1; omega

theorem sum_replicate_nat (k v : Nat) : (List.replicate k v).sum = k * v := by
  induction k with
  | zero => simp
  | succ k ih => rw [List.replicate_succ, List.sum_cons, ih, Nat.succ_mul]; omega

theorem splitSizes_sum (n t : Nat) (ht : 0 < t) : (splitSizes n t).sum = n := by
  unfold splitSizes
  rw [List.sum_append, sum_replicate_nat, sum_replicate_nat]
  have h1 := Nat.div_add_mod n t
  have h2 := Nat.mod_lt n ht
  obtain ⟨d, hd⟩ : ∃ d, t = n % t + d := ⟨t - n % t, by omega⟩
  have h3 : t - n % t = d := by omega
  rw [h3]
  have h4 : n = t * (n / t) + n % t := h1.symm
  have : t * (n / t) = (n % t + d) * (n / t) := by rw [← hd]
  rw [this, Nat.add_mul] at h4
  rw [Nat.mul_add]
  omega

theorem splitSizes_length (n t : Nat) (ht : 0 < t) : (splitSizes n t).length = t := by
  unfold splitSizes
  have h2 := Nat.mod_lt n ht
  simp; omega

theorem mem_splitSizes {n t s : Nat} (h : s ∈ splitSizes n t) : s = n / t ∨ s = n / t + 1 := by
  unfold splitSizes at h
  rcases List.mem_append.1 h with h | h
  · exact .inr (List.eq_of_mem_replicate h)
  · exact .inl (List.eq_of_mem_replicate h)

/-- Every part of a range is a range. -/
theorem chop_range' (ns : List Nat) (s n : Nat) (h : ns.sum = n) {c : List Nat} (hc : c ∈ chop ns (List.range' s n)) :
    ∃ a, c = List.range' a c.length := by
  induction ns generalizing s n with
  | nil => cases hc
  | cons k ns ih =>
    rw [List.sum_cons] at h
    rw [chop] at hc
    rcases List.mem_cons.1 hc with rfl | hc
    · refine ⟨s, ?_⟩
      apply List.ext_getElem (by simp)
      intro i h1 h2
      simp
    · rw [List.drop_range'] at hc
      exact ih _ _ (by omega) hc

end split
end Traceon
