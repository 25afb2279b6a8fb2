import Verif.Lemmas.Threads
import Mathlib.Data.List.ProdSigma
import Mathlib.Data.List.Nodup

/-!
# C36, C37: threads
-/
namespace Traceon
open ThreadState

/-! ## C37 -/

theorem run_collect {α β : Type} (f : List α → Option β) (args : List (List α)) (blank : β) (sched : List Nat)
    (hs : ∀ t, t < args.length → t ∈ sched) (i : Nat) (hi : i < args.length) :
    (run sched (collectProg f args) { reg := fun _ => blank, mem := fun _ => blank }).mem i = (f args[i]).getD blank := by
  have hprog : ∀ t, ∀ s ∈ collectProg f args t, s.cell = t := by
    intro t s hs
    unfold collectProg at hs
    cases h : args[t]?.bind f with
    | none => rw [h] at hs; cases hs
    | some r => rw [h] at hs; simp at hs; rw [hs]
  have := run_owned i (fun c => c = i) sched (collectProg f args) { reg := fun _ => blank, mem := fun _ => blank }
    (hprog i) (fun u hu s hsu e => hu ((hprog u s hsu).symm.trans e)) (by
      have h1 : (collectProg f args i).length ≤ 1 := by
        unfold collectProg; cases args[i]?.bind f <;> simp
      have h2 := List.count_pos_iff.2 (hs i hi)
      omega) i rfl
  rw [this]
  unfold collectProg
  rw [List.getElem?_eq_getElem hi, Option.bind_some]
  cases f args[i] with
  | none => rfl
  | some r => simp [alone, exec]

/-- **C37.** `split_collect` with any positive number of threads cuts the array into that many parts, in order, whose lengths differ by at most one, and for every schedule in which all
threads get their turn returns the results for the parts in the order of the parts (an empty array for a part for which the function raised: exceptions in threads
are not reported). -/
theorem C37_collect {α β : Type} (f : List α → Option β) (xs : List α) (threads : Int) (hT : 0 < threads) (blank : β) :
    ∃ parts : List (List α), parts.flatten = xs ∧ (parts.length : Int) = threads ∧ (∀ a ∈ parts, ∀ b ∈ parts, a.length ≤ b.length + 1) ∧
      ∀ sched : List Nat, (∀ t : Nat, (t : Int) < threads → t ∈ sched) →
        splitCollect f xs threads blank sched = some (parts.map (fun p => (f p).getD blank)) := by
  obtain ⟨T, rfl⟩ : ∃ T : Nat, threads = T := ⟨threads.toNat, by omega⟩
  have hT' : 0 < T := by omega
  have hsum := splitSizes_sum xs.length T hT'
  have hlen := chop_length (splitSizes xs.length T) xs
  rw [splitSizes_length _ _ hT'] at hlen
  refine ⟨chop (splitSizes xs.length T) xs, chop_flatten _ _ hsum, by rw [hlen], ?_, ?_⟩
  · have hm := chop_map_length _ xs hsum
    intro a ha b hb
    have h1 := mem_splitSizes (n := xs.length) (t := T) (s := a.length) (by rw [← hm]; exact List.mem_map_of_mem ha)
    have h2 := mem_splitSizes (n := xs.length) (t := T) (s := b.length) (by rw [← hm]; exact List.mem_map_of_mem hb)
    omega
  · intro sched hs
    unfold splitCollect arraySplit
    rw [if_neg (by omega)]
    simp only [Int.toNat_natCast, Option.bind_eq_bind, Option.bind_some, Option.pure_def, Option.some.injEq]
    apply List.ext_getElem (by simp)
    intro i h1 h2
    simp only [List.getElem_map, List.getElem_range]
    have hi : i < (chop (splitSizes xs.length T) xs).length := by simpa using h1
    exact run_collect f _ blank sched (fun t ht => hs t (by rw [hlen] at ht; omega)) i hi

/-- **C37**, functions that work entry by entry: whatever the number of threads and the schedule, the concatenated results are those of the undivided array. -/
theorem C37_elementwise {α β : Type} (g : α → β) (xs : List α) (threads : Int) (hT : 0 < threads) (sched : List Nat)
    (hs : ∀ t : Nat, (t : Int) < threads → t ∈ sched) :
    ∃ rs, splitCollect (fun part => some (part.map g)) xs threads [] sched = some rs ∧ rs.flatten = xs.map g := by
  obtain ⟨parts, h1, _, _, h4⟩ := C37_collect (fun part => some (part.map g)) xs threads hT []
  refine ⟨_, h4 sched hs, ?_⟩
  simp only [Option.getD_some]
  rw [← h1, List.map_flatten]

/-- **C37**, the number of threads: at least one if the environment does not say otherwise. -/
theorem C37_threads_partial (cpus : Option Nat) : 1 ≤ numberOfThreads none cpus := by
  unfold numberOfThreads
  cases cpus with
  | none => simp
  | some c =>
    simp only
    split
    · omega
    · have : 1 ≤ c / 2 := by omega
      omega

/-- **C37**, the number of threads: a number given by the environment is used as it is; otherwise at most half of the processors is used, or a single thread. -/
theorem C37_default_threads : (∀ t cpus, numberOfThreads (some t) cpus = t) ∧
    (∀ c : Nat, numberOfThreads none (some c) = 1 ∨ 2 * numberOfThreads none (some c) ≤ c) ∧
    (∀ c : Nat, 2 ≤ c → (c : Int) ≤ 2 * numberOfThreads none (some c) + 1) ∧ numberOfThreads none none = 1 := by
  refine ⟨fun _ _ => rfl, fun c => ?_, fun c hc => ?_, rfl⟩
  · unfold numberOfThreads
    simp only
    split
    · exact .inl rfl
    · right; omega
  · unfold numberOfThreads
    simp only
    rw [if_neg (by omega)]
    omega

/-- **C37 is false** if the environment variable TRACEON_THREADS is zero or negative: there is no thread, and `split_collect` raises for every function and array. -/
theorem C37_refuted : ∃ env, numberOfThreads env (some 8) < 1 ∧
    ∀ (α β : Type) (f : List α → Option β) (xs : List α) (blank : β) (sched : List Nat),
      splitCollect f xs (numberOfThreads env (some 8)) blank sched = none :=
  ⟨some 0, by decide, fun _ _ _ _ _ _ => rfl⟩

/-- three threads finishing in reverse order -/
example : splitCollect (fun part : List Nat => some (part.map (· + 1))) [1, 2, 3, 4] 3 [] [2, 1, 0] = some [[2, 3], [4], [5]] := by
  decide +kernel

/-! ## C36 -/

section matrix
variable {V : Type}

theorem alone_ops [Add V] {C : Type} [DecidableEq C] (t : Nat) (c : C) (ops : List (EntryOp V)) (st : ThreadState C V) (c' : C) :
    (alone t (ops.flatMap (EntryOp.steps c)) st).mem c' = if c' = c then ops.foldl EntryOp.apply (st.mem c) else st.mem c' := by
  induction ops generalizing st with
  | nil =>
    simp only [List.flatMap_nil, List.foldl_nil]
    show st.mem c' = _
    split
    · rename_i h; rw [h]
    · rfl
  | cons op ops ih =>
    rw [List.flatMap_cons]
    unfold alone
    rw [List.foldl_append]
    have := ih (List.foldl (fun st s => st.exec t s) st (EntryOp.steps c op))
    unfold alone at this
    rw [this]
    cases op with
    | set v =>
      simp only [EntryOp.steps, List.foldl_cons, List.foldl_nil, exec]
      by_cases h : c' = c <;> simp [h, EntryOp.apply]
    | add v =>
      simp only [EntryOp.steps, List.foldl_cons, List.foldl_nil, exec]
      by_cases h : c' = c <;> simp [h, EntryOp.apply]

theorem alone_cells [Add V] {C : Type} [DecidableEq C] (t : Nat) (ops : C → List (EntryOp V)) (cells : List C) (hn : cells.Nodup) (st : ThreadState C V) (c : C) :
    (alone t (cells.flatMap (fun c => (ops c).flatMap (EntryOp.steps c))) st).mem c =
      if c ∈ cells then (ops c).foldl EntryOp.apply (st.mem c) else st.mem c := by
  induction cells generalizing st with
  | nil => rfl
  | cons a cells ih =>
    have hn' := List.nodup_cons.1 hn
    rw [List.flatMap_cons]
    unfold alone
    rw [List.foldl_append]
    have h1 := ih hn'.2 (List.foldl (fun st s => st.exec t s) st ((ops a).flatMap (EntryOp.steps a)))
    have h2 := alone_ops t a (ops a) st c
    unfold alone at h1 h2
    rw [h1, h2]
    by_cases hc : c = a
    · subst hc; simp [hn'.1]
    · simp [hc]

theorem fillRows_eq [Add V] (n : Nat) (ops : Nat → Nat → List (EntryOp V)) (first last : Nat) :
    fillRows n ops first last = (List.range' first (last + 1 - first) ×ˢ List.range n).flatMap (fun c => (ops c.1 c.2).flatMap (EntryOp.steps c)) := by
  unfold fillRows
  show _ = (List.product _ _).flatMap _
  unfold List.product
  rw [List.flatMap_assoc]
  congr 1
  funext i
  rw [List.flatMap_map]

theorem steps_cell [Add V] {C : Type} {c : C} {op : EntryOp V} {s : Step C V} (h : s ∈ EntryOp.steps c op) : s.cell = c := by
  cases op with
  | set v => simp [EntryOp.steps] at h; rw [h]
  | add v => simp [EntryOp.steps] at h; rcases h with h | h <;> rw [h]

/-- Enough rows for the assertion. -/
def Enough (radial : Bool) (rows : List Nat) : Prop := if radial then 2 ≤ rows.length else 1 ≤ rows.length

/-- Rows that are a range of valid rows: the thread fills exactly them, or nothing. -/
theorem fillProg_eq [Add V] (radial : Bool) (n : Nat) (ops : Nat → Nat → List (EntryOp V)) (a k : Nat) (hk : a + k ≤ n) :
    (Enough radial (List.range' a k) → fillProg radial n ops (List.range' a k) =
      (List.range' a k ×ˢ List.range n).flatMap (fun c => (ops c.1 c.2).flatMap (EntryOp.steps c))) ∧
    (¬ Enough radial (List.range' a k) → fillProg radial n ops (List.range' a k) = []) := by
  cases k with
  | zero =>
    constructor
    · intro h; unfold Enough at h; cases radial <;> simp at h
    · intro _; rfl
  | succ k =>
    have hh : (List.range' a (k+1)).head? = some a := by rw [List.range'_succ]; rfl
    have hl : (List.range' a (k+1)).getLast? = some (a + k) := by
      rw [List.getLast?_range']; simp
    constructor
    · intro h
      unfold fillProg
      rw [hh, hl]
      simp only
      rw [if_pos, fillRows_eq]
      · have : a + k + 1 - a = k + 1 := by omega
        rw [this]
      · refine ⟨by omega, by omega, ?_⟩
        unfold Enough at h
        cases radial <;> simp at h ⊢
        omega
    · intro h
      unfold fillProg
      rw [hh, hl]
      simp only
      rw [if_neg]
      rintro ⟨_, _, h3⟩
      apply h
      unfold Enough
      cases radial <;> simp at h3 ⊢
      omega

/-- The rows given to thread `t`. -/
def rowsOf (n T t : Nat) : List Nat := (chop (splitSizes n T) (List.range n)).getD t []

theorem rowsOf_range (n T t : Nat) (hT : 0 < T) : ∃ a k, rowsOf n T t = List.range' a k ∧ a + k ≤ n := by
  have hsum := splitSizes_sum n T hT
  unfold rowsOf
  rw [List.getD_eq_getElem?_getD]
  cases h : (chop (splitSizes n T) (List.range n))[t]? with
  | none => exact ⟨0, 0, rfl, by omega⟩
  | some c =>
    have hc := List.mem_of_getElem? h
    have hcr := hc
    rw [List.range_eq_range'] at hcr
    obtain ⟨a, ha⟩ := chop_range' _ 0 n hsum hcr
    simp only [Option.getD_some]
    by_cases h0 : c.length = 0
    · exact ⟨0, 0, by rw [List.length_eq_zero_iff.1 h0]; rfl, by omega⟩
    · refine ⟨a, c.length, ha, ?_⟩
      have hmem : a + c.length - 1 ∈ c := by
        have h1 : a + c.length - 1 ∈ List.range' a c.length := by rw [List.mem_range'_1]; omega
        rw [← ha] at h1; exact h1
      have : a + c.length - 1 ∈ (chop (splitSizes n T) (List.range n)).flatten := List.mem_flatten.2 ⟨c, hc, hmem⟩
      rw [chop_flatten _ _ (by simpa using hsum), List.mem_range] at this
      omega

theorem rowsOf_cover (n T i : Nat) (hT : 0 < T) (hi : i < n) : ∃ t, t < T ∧ i ∈ rowsOf n T t := by
  have hsum := splitSizes_sum n T hT
  have : i ∈ (chop (splitSizes n T) (List.range n)).flatten := by
    rw [chop_flatten _ _ (by simpa using hsum)]; simpa using hi
  obtain ⟨c, hc, hic⟩ := List.mem_flatten.1 this
  obtain ⟨t, ht⟩ := List.mem_iff_getElem?.1 hc
  refine ⟨t, ?_, ?_⟩
  · have := (List.getElem?_eq_some_iff.1 ht).1
    rwa [chop_length, splitSizes_length _ _ hT] at this
  · unfold rowsOf; rw [List.getD_eq_getElem?_getD, ht]; exact hic

theorem rowsOf_disjoint (n T i t u : Nat) (hT : 0 < T) (ht : i ∈ rowsOf n T t) (hu : i ∈ rowsOf n T u) : t = u := by
  have hsum := splitSizes_sum n T hT
  have hnd : (chop (splitSizes n T) (List.range n)).flatten.Nodup := by
    rw [chop_flatten _ _ (by simpa using hsum)]; exact List.nodup_range
  have hpw := (List.nodup_flatten.1 hnd).2
  have hget : ∀ v, i ∈ rowsOf n T v → ∃ h : v < (chop (splitSizes n T) (List.range n)).length, i ∈ (chop (splitSizes n T) (List.range n))[v] := by
    intro v hv
    unfold rowsOf at hv
    rw [List.getD_eq_getElem?_getD] at hv
    cases h : (chop (splitSizes n T) (List.range n))[v]? with
    | none => rw [h] at hv; simp at hv
    | some c =>
      rw [h] at hv
      obtain ⟨h1, h2⟩ := List.getElem?_eq_some_iff.1 h
      exact ⟨h1, by rw [h2]; exact hv⟩
  obtain ⟨h1, h2⟩ := hget t ht
  obtain ⟨h3, h4⟩ := hget u hu
  rcases Nat.lt_trichotomy t u with h | h | h
  · exact absurd h4 (fun h4 => List.pairwise_iff_getElem.1 hpw t u h1 h3 h h2 h4)
  · exact h
  · exact absurd h2 (fun h2 => List.pairwise_iff_getElem.1 hpw u t h3 h1 h h4 h2)

theorem matrixProgs_eq [Add V] (radial : Bool) (n T : Nat) (ops : Nat → Nat → List (EntryOp V)) (t : Nat) (hT : 0 < T) :
    matrixProgs radial n T ops t = fillProg radial n ops (rowsOf n T t) := by
  unfold matrixProgs arraySplit rowsOf
  rw [if_neg (by omega)]
  simp

/-- Every matrix entry, for every number of rows and threads and every schedule. -/
theorem getMatrix_spec [Add V] [Zero V] (radial : Bool) (n T : Nat) (hT : 0 < T) (ops : Nat → Nat → List (EntryOp V)) (diag : Nat → V) (sched : List Nat)
    (hjoin : Joined sched (matrixProgs radial n T ops)) :
    ∃ A, getMatrix radial n T ops diag sched = some A ∧ ∀ t i j, i ∈ rowsOf n T t → j < n →
      (radial = true → i = j → A i j = diag i) ∧
      (¬(radial = true ∧ i = j) → Enough radial (rowsOf n T t) → A i j = (ops i j).foldl EntryOp.apply 0) ∧
      (¬(radial = true ∧ i = j) → ¬Enough radial (rowsOf n T t) → A i j = 0) := by
  have hcell : ∀ u, ∀ s ∈ matrixProgs radial n T ops u, s.cell.1 ∈ rowsOf n T u := by
    intro u s hs
    rw [matrixProgs_eq _ _ _ _ _ hT] at hs
    obtain ⟨a, k, h1, h2⟩ := rowsOf_range n T u hT
    rw [h1] at hs ⊢
    obtain ⟨e1, e2⟩ := fillProg_eq radial n ops a k h2
    by_cases he : Enough radial (List.range' a k)
    · rw [e1 he] at hs
      obtain ⟨c, hc, hs⟩ := List.mem_flatMap.1 hs
      obtain ⟨op, _, hs⟩ := List.mem_flatMap.1 hs
      rw [steps_cell hs]
      exact (List.mem_product.1 hc).1
    · rw [e2 he] at hs; cases hs
  refine ⟨fun i j => if radial ∧ i = j ∧ i < n then diag i else (run sched (matrixProgs radial n T ops) { reg := fun _ => 0, mem := fun _ => 0 }).mem (i, j), ?_, ?_⟩
  · unfold getMatrix arraySplit
    rw [if_neg (by omega)]
    rfl
  · intro t i j hi hj
    obtain ⟨a, k, h1, h2⟩ := rowsOf_range n T t hT
    have hin : i < n := by rw [h1, List.mem_range'_1] at hi; omega
    have hmem := run_owned t (fun c : Nat × Nat => c.1 ∈ rowsOf n T t) sched (matrixProgs radial n T ops) { reg := fun _ => 0, mem := fun _ => 0 }
      (hcell t) (fun u hu s hs hc => hu (rowsOf_disjoint n T s.cell.1 u t hT (hcell u s hs) hc)) (hjoin t) (i, j) hi
    obtain ⟨e1, e2⟩ := fillProg_eq radial n ops a k h2
    refine ⟨fun hr hij => ?_, fun hne he => ?_, fun hne he => ?_⟩
    · simp only [hr, hij, true_and]
      rw [if_pos hj]
    · simp only
      rw [if_neg (by rintro ⟨h3, h4, _⟩; exact hne ⟨h3, h4⟩), hmem, matrixProgs_eq _ _ _ _ _ hT, h1, e1 (by rw [← h1]; exact he),
        alone_cells t (fun c : Nat × Nat => ops c.1 c.2) _ (List.Nodup.product List.nodup_range' List.nodup_range)]
      rw [if_pos (List.mem_product.2 ⟨by rw [← h1]; exact hi, by simpa using hj⟩)]
    · simp only
      rw [if_neg (by rintro ⟨h3, h4, _⟩; exact hne ⟨h3, h4⟩), hmem, matrixProgs_eq _ _ _ _ _ hT, h1, e2 (by rw [← h1]; exact he)]
      rfl

end matrix

/-- **C36** in three dimensions: whatever the size of the matrix, the number of threads and the schedule, every entry has received all of its assignments, each once and in order, starting from zero. -/
theorem C36_threeD {V : Type} [Add V] [Zero V] (n T : Nat) (hT : 0 < T) (ops : Nat → Nat → List (EntryOp V)) (diag : Nat → V) (sched : List Nat)
    (hjoin : Joined sched (matrixProgs false n T ops)) :
    ∃ A, getMatrix false n T ops diag sched = some A ∧ ∀ i j, i < n → j < n → A i j = (ops i j).foldl EntryOp.apply 0 := by
  obtain ⟨A, h1, h2⟩ := getMatrix_spec false n T hT ops diag sched hjoin
  refine ⟨A, h1, fun i j hi hj => ?_⟩
  obtain ⟨t, _, ht⟩ := rowsOf_cover n T i hT hi
  apply (h2 t i j ht hj).2.1 (by simp)
  unfold Enough
  rw [if_neg (by simp)]
  exact List.length_pos_of_mem ht

/-- **C36, partial,** for radial symmetry: if there are at least twice as many rows as threads, every entry off the diagonal has received all of its assignments and the diagonal its own value.
Missing: fewer rows, for which `C36_refuted` proves the claim false. -/
theorem C36_radial_partial {V : Type} [Add V] [Zero V] (n T : Nat) (hT : 0 < T) (hn : 2 * T ≤ n) (ops : Nat → Nat → List (EntryOp V)) (diag : Nat → V)
    (sched : List Nat) (hjoin : Joined sched (matrixProgs true n T ops)) :
    ∃ A, getMatrix true n T ops diag sched = some A ∧
      ∀ i j, i < n → j < n → A i j = if i = j then diag i else (ops i j).foldl EntryOp.apply 0 := by
  obtain ⟨A, h1, h2⟩ := getMatrix_spec true n T hT ops diag sched hjoin
  refine ⟨A, h1, fun i j hi hj => ?_⟩
  obtain ⟨t, htT, ht⟩ := rowsOf_cover n T i hT hi
  obtain ⟨e1, e2, _⟩ := h2 t i j ht hj
  split
  · rename_i hij; exact e1 rfl hij
  · rename_i hij
    apply e2 (by simp [hij])
    unfold Enough
    rw [if_pos rfl]
    have hsum := splitSizes_sum n T hT
    have hm := chop_map_length (splitSizes n T) (List.range n) (by simpa using hsum)
    have htl : t < (chop (splitSizes n T) (List.range n)).length := by rw [chop_length, splitSizes_length _ _ hT]; exact htT
    have : rowsOf n T t = (chop (splitSizes n T) (List.range n))[t] := by
      unfold rowsOf; rw [List.getD_eq_getElem?_getD, List.getElem?_eq_getElem htl]; rfl
    have h3 := mem_splitSizes (n := n) (t := T) (s := (rowsOf n T t).length) (by
      rw [← hm, this]; exact List.mem_map_of_mem (List.getElem_mem htl))
    have h4 : 2 ≤ n / T := (Nat.le_div_iff_mul_le hT).2 hn
    omega

/-- **C36 is false** for radial symmetry in general: with three elements and two threads the thread for the last row fails on an assertion, and the row stays zero off its diagonal, whatever should be computed there
and whatever the schedule. The same happens with a single element per thread. -/
theorem C36_refuted {V : Type} [Add V] [Zero V] (ops : Nat → Nat → List (EntryOp V)) (diag : Nat → V) (sched : List Nat)
    (hjoin : Joined sched (matrixProgs true 3 2 ops)) :
    ∃ A, getMatrix true 3 2 ops diag sched = some A ∧ A 2 0 = 0 ∧ A 2 1 = 0 ∧ A 0 1 = (ops 0 1).foldl EntryOp.apply 0 := by
  obtain ⟨A, h1, h2⟩ := getMatrix_spec true 3 2 (by decide) ops diag sched hjoin
  refine ⟨A, h1, ?_, ?_, ?_⟩
  · exact (h2 1 2 0 (by decide) (by decide)).2.2 (by simp) (by simp [Enough]; decide)
  · exact (h2 1 2 1 (by decide) (by decide)).2.2 (by simp) (by simp [Enough]; decide)
  · exact (h2 0 0 1 (by decide) (by decide)).2.1 (by simp) (by simp [Enough]; decide)

/-- Schedules exist: five rows, two threads, taking turns. -/
example : ∃ sched, Joined sched (matrixProgs true 5 2 (fun i j => [EntryOp.add (i + 1), EntryOp.add (j * 10)])) ∧
    (getMatrix true 5 2 (fun i j => [EntryOp.add (i + 1), EntryOp.add (j * 10)]) (fun _ => 7) sched).map (fun A => (A 0 1, A 4 2, A 3 3)) = some (11, 25, 7) := by
  refine ⟨(List.range 60).flatMap (fun _ => [1, 0]), ?_, by decide +kernel⟩
  intro t
  match t with
  | 0 => decide +kernel
  | 1 => decide +kernel
  | t + 2 =>
    have h := matrixProgs_eq true 5 2 (fun i j => [EntryOp.add (i + 1), EntryOp.add (j * 10)]) (t + 2) (by decide)
    show (matrixProgs true 5 ((2 : Nat) : Int) _ (t + 2)).length ≤ _
    rw [h]
    have : rowsOf 5 2 (t + 2) = [] := by
      unfold rowsOf
      rw [List.getD_eq_getElem?_getD, List.getElem?_eq_none]
      · rfl
      · rw [chop_length, splitSizes_length _ _ (by decide)]; omega
    rw [this]
    simp [fillProg]

end Traceon
