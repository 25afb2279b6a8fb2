import Verif.Props.SurfaceMesh6

/-!
# Uniform refinement: when the decision to split depends on the size of a quad only
-/
namespace Traceon
namespace SMesh
variable {P : Type}

/-- `q` is one of the cells of the grid of `2^a` by `2^b` cells -/
def Cell (a b : ℕ) (q : Quad) : Prop := q.depth = max a b ∧ ∃ x y : ℕ, x < 2 ^ a ∧ y < 2 ^ b ∧
  q.i0 = x * 2 ^ (q.depth - a) ∧ q.i1 = (x + 1) * 2 ^ (q.depth - a) ∧ q.j0 = y * 2 ^ (q.depth - b) ∧ q.j1 = (y + 1) * 2 ^ (q.depth - b)

theorem startQuads_cell {start : ℕ} {q : Quad} (h : q ∈ startQuads start) : Cell start start q := by
  unfold startQuads at h
  obtain ⟨i, hi, h⟩ := List.mem_flatMap.1 h
  obtain ⟨j, hj, rfl⟩ := List.mem_map.1 h
  refine ⟨by simp, i, j, List.mem_range.1 hi, List.mem_range.1 hj, ?_⟩
  simp

/-- add one if true -/
def bump (n : ℕ) (b : Bool) : ℕ := if b then n + 1 else n

theorem bump_true (n : ℕ) : bump n true = n + 1 := rfl
theorem bump_false (n : ℕ) : bump n false = n := rfl

theorem children_cell {a b : ℕ} {q c : Quad} {h v : Bool} (hq : Cell a b q) (hh : h = true → q.j1 = q.j0 + 1)
    (hv : v = true → q.i1 = q.i0 + 1) (hc : c ∈ children q h v) : Cell (bump a v) (bump b h) c := by
  obtain ⟨hd, x, y, hx, hy, e1, e2, e3, e4⟩ := hq
  obtain ⟨d, i0, i1, j0, j1⟩ := q
  simp only at hd e1 e2 e3 e4 hh hv
  have wi : v = true → a = d := by
    intro hv'
    have h1 := hv hv'
    rw [e2, e1, Nat.add_mul, Nat.one_mul] at h1
    have h2 : 2 ^ (d - a) = 2 ^ 0 := by simpa using h1
    have := Nat.pow_right_injective (le_refl 2) h2
    have : a ≤ d := by rw [hd]; exact le_max_left _ _
    omega
  have wj : h = true → b = d := by
    intro hv'
    have h1 := hh hv'
    rw [e4, e3, Nat.add_mul, Nat.one_mul] at h1
    have h2 : 2 ^ (d - b) = 2 ^ 0 := by simpa using h1
    have := Nat.pow_right_injective (le_refl 2) h2
    have : b ≤ d := by rw [hd]; exact le_max_right _ _
    omega
  have ha : a ≤ d := by rw [hd]; exact le_max_left _ _
  have hb : b ≤ d := by rw [hd]; exact le_max_right _ _
  unfold children at hc
  cases h <;> cases v
  · simp at hc
  · have := wi rfl
    subst this
    have hm : max (a + 1) b = a + 1 := by omega
    simp only [Nat.sub_self, Nat.pow_zero, Nat.mul_one] at e1 e2
    subst e1 e2
    simp only [Bool.false_and, Bool.false_eq_true, if_false, if_true, List.mem_cons, List.not_mem_nil, or_false] at hc
    have hs : a + 1 - b = (a - b) + 1 := by omega
    rcases hc with rfl | rfl
    · refine ⟨by simp [bump, hm], 2 * i0, y, by rw [bump_true, Nat.pow_succ]; omega, by simpa [bump] using hy, ?_⟩
      simp only [bump_true, bump_false, Nat.sub_self, Nat.pow_zero, Nat.mul_one, hs, Nat.pow_succ, e3, e4]
      refine ⟨?_, ?_, ?_, ?_⟩ <;> first | trivial | (simp; done) | omega | ring
    · refine ⟨by simp [bump, hm], 2 * i0 + 1, y, by rw [bump_true, Nat.pow_succ]; omega, by simpa [bump] using hy, ?_⟩
      simp only [bump_true, bump_false, Nat.sub_self, Nat.pow_zero, Nat.mul_one, hs, Nat.pow_succ, e3, e4]
      refine ⟨?_, ?_, ?_, ?_⟩ <;> first | trivial | (simp; done) | omega | ring
  · have := wj rfl
    subst this
    have hm : max a (b + 1) = b + 1 := by omega
    simp only [Nat.sub_self, Nat.pow_zero, Nat.mul_one] at e3 e4
    subst e3 e4
    simp only [Bool.and_false, Bool.false_eq_true, if_false, if_true, List.mem_cons, List.not_mem_nil, or_false] at hc
    have hs : b + 1 - a = (b - a) + 1 := by omega
    rcases hc with rfl | rfl
    · refine ⟨by simp [bump, hm], x, 2 * j0, by simpa [bump] using hx, by rw [bump_true, Nat.pow_succ]; omega, ?_⟩
      simp only [bump_true, bump_false, Nat.sub_self, Nat.pow_zero, Nat.mul_one, hs, Nat.pow_succ, e1, e2]
      refine ⟨?_, ?_, ?_, ?_⟩ <;> first | trivial | (simp; done) | omega | ring
    · refine ⟨by simp [bump, hm], x, 2 * j0 + 1, by simpa [bump] using hx, by rw [bump_true, Nat.pow_succ]; omega, ?_⟩
      simp only [bump_true, bump_false, Nat.sub_self, Nat.pow_zero, Nat.mul_one, hs, Nat.pow_succ, e1, e2]
      refine ⟨?_, ?_, ?_, ?_⟩ <;> first | trivial | (simp; done) | omega | ring
  · have h1 := wi rfl
    have h2 := wj rfl
    subst h1; subst h2
    simp only [Nat.sub_self, Nat.pow_zero, Nat.mul_one] at e1 e2 e3 e4
    subst e1 e2 e3 e4
    simp only [Bool.and_self, if_true, List.mem_cons, List.not_mem_nil, or_false] at hc
    rcases hc with rfl | rfl | rfl | rfl
    · refine ⟨by simp [bump], 2 * i0, 2 * j0, ?_, ?_, ?_⟩ <;> simp only [bump_true, Nat.pow_succ] <;> first | omega | (simp; try omega)
    · refine ⟨by simp [bump], 2 * i0, 2 * j0 + 1, ?_, ?_, ?_⟩ <;> simp only [bump_true, Nat.pow_succ] <;> first | omega | (simp; try omega)
    · refine ⟨by simp [bump], 2 * i0 + 1, 2 * j0, ?_, ?_, ?_⟩ <;> simp only [bump_true, Nat.pow_succ] <;> first | omega | (simp; try omega)
    · refine ⟨by simp [bump], 2 * i0 + 1, 2 * j0 + 1, ?_, ?_, ?_⟩ <;> simp only [bump_true, Nat.pow_succ] <;> first | omega | (simp; try omega)

/-- the numbers of cells (as powers of two) after `n` rounds, if `D a b` is what is decided for a cell of the grid of `2^a` by `2^b` cells -/
def chain (D : ℕ → ℕ → Bool × Bool) (start : ℕ) : ℕ → ℕ × ℕ
  | 0 => (start, start)
  | n + 1 => (bump (chain D start n).1 (D (chain D start n).1 (chain D start n).2).2,
      bump (chain D start n).2 (D (chain D start n).1 (chain D start n).2).1)

theorem bump_le (n : ℕ) (b : Bool) : n ≤ bump n b := by cases b <;> simp [bump]

theorem chain_mono (D : ℕ → ℕ → Bool × Bool) (start : ℕ) {n m : ℕ} (h : n ≤ m) :
    (chain D start n).1 ≤ (chain D start m).1 ∧ (chain D start n).2 ≤ (chain D start m).2 := by
  induction m, h using Nat.le_induction with
  | base => exact ⟨le_rfl, le_rfl⟩
  | succ m _ ih => exact ⟨ih.1.trans (bump_le _ _), ih.2.trans (bump_le _ _)⟩

theorem chain_stop {D : ℕ → ℕ → Bool × Bool} {start n m : ℕ} (hn : D (chain D start n).1 (chain D start n).2 = (false, false)) (h : n ≤ m) :
    chain D start m = chain D start n := by
  induction m, h using Nat.le_induction with
  | base => rfl
  | succ m _ ih => rw [chain, ih, hn]; rfl

theorem chain_stop_unique {D : ℕ → ℕ → Bool × Bool} {start n m : ℕ} (hn : D (chain D start n).1 (chain D start n).2 = (false, false))
    (hm : D (chain D start m).1 (chain D start m).2 = (false, false)) : chain D start m = chain D start n := by
  rcases le_total n m with h | h
  · exact chain_stop hn h
  · exact (chain_stop hm h).symm

theorem chain_le_stop {D : ℕ → ℕ → Bool × Bool} {start n m : ℕ} (hn : D (chain D start n).1 (chain D start n).2 = (false, false)) :
    (chain D start m).1 ≤ (chain D start n).1 ∧ (chain D start m).2 ≤ (chain D start n).2 := by
  rcases le_total n m with h | h
  · rw [chain_stop hn h]; exact ⟨le_rfl, le_rfl⟩
  · exact chain_mono D start h

/-- what is known of the quads that are still to be looked at -/
def OnChain (D : ℕ → ℕ → Bool × Bool) (start : ℕ) (q : Quad) : Prop := ∃ n, Cell (chain D start n).1 (chain D start n).2 q

/-- what is known of the quads that are left as they are -/
def AtEnd (D : ℕ → ℕ → Bool × Bool) (start : ℕ) (q : Quad) : Prop :=
  ∃ n, Cell (chain D start n).1 (chain D start n).2 q ∧ D (chain D start n).1 (chain D start n).2 = (false, false)

/-- the decision for the cells of a grid is the same for all, and only splits what is one wide -/
structure Uniform (dec : Quad → Option (Bool × Bool)) (Ok : Quad → Prop) (D : ℕ → ℕ → Bool × Bool) (start : ℕ) : Prop where
  turn : NoTurn dec Ok
  same : ∀ n q, Cell (chain D start n).1 (chain D start n).2 q → dec q = some (D (chain D start n).1 (chain D start n).2)
  first : ∀ q ∈ startQuads start, Ok q

variable {dec : Quad → Option (Bool × Bool)} {Ok : Quad → Prop} {D : ℕ → ℕ → Bool × Bool} {start : ℕ}

theorem Uniform.child (hu : Uniform dec Ok D start) {q c : Quad} (h1 : Ok q) (h2 : OnChain D start q) {h v : Bool} (hd : dec q = some (h, v))
    (hc : c ∈ children q h v) : Ok c ∧ OnChain D start c := by
  refine ⟨hu.turn.keep q h v h1 hd c hc, ?_⟩
  obtain ⟨n, hn⟩ := h2
  have hD := hu.same n q hn
  rw [hd] at hD
  obtain ⟨w1, w2⟩ := hu.turn.width q h v h1 hd
  refine ⟨n + 1, ?_⟩
  have := children_cell hn w1 w2 hc
  rw [chain, ← Option.some.inj hD]
  exact this

theorem refine_atEnd (hu : Uniform dec Ok D start) : ∀ (fuel : ℕ) (stack quads quads' : List Quad),
    (∀ q ∈ stack, Ok q ∧ OnChain D start q) → (∀ q ∈ quads, AtEnd D start q) → refine dec fuel stack quads = some quads' →
      ∀ q ∈ quads', AtEnd D start q
  | fuel, [], quads, quads', _, hq, h => by
    have : refine dec fuel [] quads = some quads := by cases fuel <;> rfl
    rw [this] at h; cases h; exact hq
  | 0, q :: stack, quads, quads', _, _, h => by cases h
  | fuel + 1, q :: stack, quads, quads', hs, hq, h => by
    rw [refine] at h
    obtain ⟨⟨h', v'⟩, hd, h⟩ := Option.bind_eq_some_iff.1 h
    obtain ⟨o1, o2⟩ := hs q List.mem_cons_self
    simp only at h
    split at h
    · refine refine_atEnd hu fuel _ _ _ (fun c hc => ?_) hq h
      rcases List.mem_append.1 hc with hc | hc
      · exact hu.child o1 o2 hd (List.mem_reverse.1 hc)
      · exact hs c (List.mem_cons_of_mem _ hc)
    · rename_i hhv
      refine refine_atEnd hu fuel _ _ _ (fun c hc => hs c (List.mem_cons_of_mem _ hc)) (fun c hc => ?_) h
      rcases List.mem_append.1 hc with hc | hc
      · exact hq c hc
      · rw [List.mem_singleton] at hc
        subst hc
        obtain ⟨n, hn⟩ := o2
        have hD := hu.same n c hn
        rw [hd] at hD
        refine ⟨n, hn, ?_⟩
        rw [← Option.some.inj hD]
        cases h' <;> cases v' <;> simp_all

theorem refineFold_atEnd (hu : Uniform dec Ok D start) (fuel : ℕ) : ∀ (qs quads quads' : List Quad),
    (∀ q ∈ qs, Ok q ∧ OnChain D start q) → (∀ q ∈ quads, AtEnd D start q) →
      qs.foldlM (fun acc q => refine dec fuel [q] acc) quads = some quads' → ∀ q ∈ quads', AtEnd D start q
  | [], quads, quads', _, hq, h => by cases h; exact hq
  | q :: qs, quads, quads', hs, hq, h => by
    rw [List.foldlM_cons] at h
    obtain ⟨quads1, h1, h⟩ := Option.bind_eq_some_iff.1 h
    refine refineFold_atEnd hu fuel qs quads1 quads' (fun c hc => hs c (List.mem_cons_of_mem _ hc)) ?_ h
    exact refine_atEnd hu fuel [q] quads quads1 (fun c hc => by
      rw [List.mem_singleton] at hc; subst hc; exact hs c List.mem_cons_self) hq h1

/-- All quads are cells of one grid, and that grid is at least as fine as all the grids on the way. -/
theorem uniform_end (hu : Uniform dec Ok D start) {fuel : ℕ} {quads : List Quad} (h : refineAll dec fuel start = some quads) :
    ∃ A B, (∀ n, (chain D start n).1 ≤ A ∧ (chain D start n).2 ≤ B) ∧ ∀ q ∈ quads, Cell A B q := by
  have hall := refineFold_atEnd hu fuel _ [] quads (fun q hq => ⟨hu.first q hq, 0, startQuads_cell hq⟩) (by simp) h
  have hne := refineFold_ne_nil dec fuel _ [] quads (Or.inl (startQuads_ne_nil start)) h
  obtain ⟨q, hq⟩ := List.exists_mem_of_ne_nil _ hne
  obtain ⟨n, hn, hD⟩ := hall q hq
  refine ⟨_, _, fun m => chain_le_stop hD, fun q' hq' => ?_⟩
  obtain ⟨m, hm, hD'⟩ := hall q' hq'
  rw [chain_stop_unique hD hD'] at hm
  exact hm

/-! ## The points that are made -/

/-- the position is a node of the grid of `2^A` by `2^B` cells -/
def IsNode (A B d i j : ℕ) : Prop := ∃ x y : ℕ, i * 2 ^ A = x * 2 ^ d ∧ j * 2 ^ B = y * 2 ^ d

theorem isNode_double (A B d i j : ℕ) : IsNode A B (d + 1) (2 * i) (2 * j) ↔ IsNode A B d i j := by
  constructor <;> rintro ⟨x, y, h1, h2⟩ <;> refine ⟨x, y, ?_, ?_⟩ <;> rw [Nat.pow_succ] at * <;> nlinarith

theorem pow_node {a A d x : ℕ} (h1 : a ≤ A) (h2 : a ≤ d) : x * 2 ^ (d - a) * 2 ^ A = x * 2 ^ (A - a) * 2 ^ d := by
  have e : 2 ^ (d - a) * 2 ^ A = 2 ^ (A - a) * 2 ^ d := by rw [← Nat.pow_add, ← Nat.pow_add]; congr 1; omega
  rw [Nat.mul_assoc, e, ← Nat.mul_assoc]

theorem cell_node {a b A B : ℕ} (ha : a ≤ A) (hb : b ≤ B) {q : Quad} (h : Cell a b q) :
    IsNode A B q.depth q.i0 q.j0 ∧ IsNode A B q.depth q.i0 q.j1 ∧ IsNode A B q.depth q.i1 q.j0 ∧ IsNode A B q.depth q.i1 q.j1 := by
  obtain ⟨hd, x, y, _, _, e1, e2, e3, e4⟩ := h
  have h1 : a ≤ q.depth := by rw [hd]; exact le_max_left _ _
  have h2 : b ≤ q.depth := by rw [hd]; exact le_max_right _ _
  rw [e1, e2, e3, e4]
  exact ⟨⟨_, _, pow_node ha h1, pow_node hb h2⟩, ⟨_, _, pow_node ha h1, pow_node hb h2⟩, ⟨_, _, pow_node ha h1, pow_node hb h2⟩,
    ⟨_, _, pow_node ha h1, pow_node hb h2⟩⟩

open Classical in
/-- the points of the surface at the nodes only -/
noncomputable def onlyNodes (A B : ℕ) (pt : ℕ → ℕ → ℕ → Option P) (d i j : ℕ) : Option P := if IsNode A B d i j then pt d i j else none

theorem onlyNodes_consistent {A B : ℕ} {pt : ℕ → ℕ → ℕ → Option P} (hc : Consistent pt) : Consistent (onlyNodes A B pt) := by
  intro d i j
  unfold onlyNodes
  by_cases h : IsNode A B d i j
  · rw [if_pos h, if_pos ((isNode_double ..).2 h), hc]
  · rw [if_neg h, if_neg (fun h' => h ((isNode_double ..).1 h'))]

theorem onlyNodes_get {A B d i j : ℕ} {pt : ℕ → ℕ → ℕ → Option P} (h : IsNode A B d i j) : onlyNodes A B pt d i j = pt d i j := if_pos h

theorem onlyNodes_some {A B d i j : ℕ} {pt : ℕ → ℕ → ℕ → Option P} {p : P} (h : onlyNodes A B pt d i j = some p) :
    IsNode A B d i j ∧ pt d i j = some p := by
  unfold onlyNodes at h
  split at h
  · rename_i hn; exact ⟨hn, h⟩
  · cases h

theorem corners_nodes {A B : ℕ} {pt : ℕ → ℕ → ℕ → Option P} {q : Quad} (h : IsNode A B q.depth q.i0 q.j0 ∧ IsNode A B q.depth q.i0 q.j1 ∧
    IsNode A B q.depth q.i1 q.j0 ∧ IsNode A B q.depth q.i1 q.j1) (st : PState P) : corners (onlyNodes A B pt) st q = corners pt st q := by
  obtain ⟨h1, h2, h3, h4⟩ := h
  have hp : ∀ (st : PState P) d i j, IsNode A B d i j → getPoint (onlyNodes A B pt) st d i j = getPoint pt st d i j := by
    intro st d i j hn
    simp only [getPoint, toPointIndex, onlyNodes_get hn]
  simp only [corners, hp _ _ _ _ h1, hp _ _ _ _ h2, hp _ _ _ _ h3, hp _ _ _ _ h4]

theorem decision_nodes {A B : ℕ} {pt : ℕ → ℕ → ℕ → Option P} {split : P → P → P → P → Bool × Bool} {q : Quad}
    (h : IsNode A B q.depth q.i0 q.j0 ∧ IsNode A B q.depth q.i0 q.j1 ∧ IsNode A B q.depth q.i1 q.j0 ∧ IsNode A B q.depth q.i1 q.j1) :
    decision (onlyNodes A B pt) split q = decision pt split q := by
  obtain ⟨h1, h2, h3, h4⟩ := h
  simp only [decision, onlyNodes_get h1, onlyNodes_get h2, onlyNodes_get h3, onlyNodes_get h4]

theorem subdivide_nodes {pt : ℕ → ℕ → ℕ → Option P} (hc : Consistent pt) {split : P → P → P → P → Bool × Bool}
    (hu : Uniform (decision pt split) Ok D start) {A B : ℕ} (hAB : ∀ n, (chain D start n).1 ≤ A ∧ (chain D start n).2 ≤ B) :
    ∀ (fuel : ℕ) (stack quads : List Quad) (st : PState P), Sound pt st → (∀ q ∈ stack, Ok q ∧ OnChain D start q) →
      subdivide (onlyNodes A B pt) split fuel stack quads st = subdivide pt split fuel stack quads st
  | fuel, [], quads, st, _, _ => by cases fuel <;> rfl
  | 0, q :: stack, quads, st, _, _ => rfl
  | fuel + 1, q :: stack, quads, st, hs, hq => by
    obtain ⟨o1, o2⟩ := hq q List.mem_cons_self
    obtain ⟨n, hn⟩ := id o2
    have hnode := cell_node (hAB n).1 (hAB n).2 hn
    rw [subdivide, subdivide, corners_nodes hnode]
    cases hcor : corners pt st q with
    | none => rfl
    | some r =>
      obtain ⟨c, st1⟩ := r
      have hs1 := (corners_spec hc hs hcor).1
      have hd := corners_decision hc split hs hcor
      simp only [Option.bind_some]
      split
      · refine subdivide_nodes hc hu hAB fuel _ _ _ hs1 (fun c hc => ?_)
        rcases List.mem_append.1 hc with hc | hc
        · exact hu.child o1 o2 hd (List.mem_reverse.1 hc)
        · exact hq c (List.mem_cons_of_mem _ hc)
      · exact subdivide_nodes hc hu hAB fuel _ _ _ hs1 (fun c hc => hq c (List.mem_cons_of_mem _ hc))

theorem fold_nodes {pt : ℕ → ℕ → ℕ → Option P} (hc : Consistent pt) {split : P → P → P → P → Bool × Bool}
    (hu : Uniform (decision pt split) Ok D start) {A B : ℕ} (hAB : ∀ n, (chain D start n).1 ≤ A ∧ (chain D start n).2 ≤ B) (fuel : ℕ) :
    ∀ (qs quads : List Quad) (st : PState P), Sound pt st → (∀ q ∈ qs, Ok q ∧ OnChain D start q) →
      qs.foldlM (fun r q => subdivide (onlyNodes A B pt) split fuel [q] r.1 r.2) (quads, st) =
        qs.foldlM (fun r q => subdivide pt split fuel [q] r.1 r.2) (quads, st)
  | [], quads, st, _, _ => rfl
  | q :: qs, quads, st, hs, hq => by
    rw [List.foldlM_cons, List.foldlM_cons]
    have e := subdivide_nodes hc hu hAB fuel [q] quads st hs (fun c hc => by
      rw [List.mem_singleton] at hc; subst hc; exact hq c List.mem_cons_self)
    simp only [e]
    cases hsub : subdivide pt split fuel [q] quads st with
    | none => rfl
    | some r =>
      obtain ⟨quads1, st1⟩ := r
      have hs1 := (subdivide_spec hc split fuel [q] quads st quads1 st1 hs hsub).1
      exact fold_nodes hc hu hAB fuel qs quads1 st1 hs1 (fun c hc => hq c (List.mem_cons_of_mem _ hc))

theorem hasMid_node {A B N : ℕ} {m : IndexMap} (hm : ∀ i j, (m i j).isSome → IsNode A B N i j) (hA : A ≤ N) (hB : B ≤ N) {x y : ℕ} :
    hasMid m (x * 2 ^ (N - A), y * 2 ^ (N - B)) ((x + 1) * 2 ^ (N - A), y * 2 ^ (N - B)) = false ∧
    hasMid m (x * 2 ^ (N - A), y * 2 ^ (N - B)) (x * 2 ^ (N - A), (y + 1) * 2 ^ (N - B)) = false ∧
    hasMid m ((x + 1) * 2 ^ (N - A), y * 2 ^ (N - B)) (x * 2 ^ (N - A), y * 2 ^ (N - B)) = false ∧
    hasMid m (x * 2 ^ (N - A), (y + 1) * 2 ^ (N - B)) (x * 2 ^ (N - A), y * 2 ^ (N - B)) = false := by
  have self : ∀ a : ℕ, ¬ absDiff a a > 1 := by intro a; simp [absDiff]
  have key : ∀ C x : ℕ, C ≤ N → 1 < 2 ^ (N - C) → ∀ z, (x * 2 ^ (N - C) + (x + 1) * 2 ^ (N - C)) / 2 * 2 ^ C = z * 2 ^ N → False := by
    intro C x hC hw z hz
    obtain ⟨k, hk⟩ : ∃ k, N - C = k + 1 := by
      cases h : N - C with
      | zero => rw [h] at hw; simp at hw
      | succ k => exact ⟨k, rfl⟩
    have e1 : (x * 2 ^ (N - C) + (x + 1) * 2 ^ (N - C)) / 2 = (2 * x + 1) * 2 ^ k := by
      rw [hk, Nat.pow_succ, show x * (2 ^ k * 2) + (x + 1) * (2 ^ k * 2) = (2 * x + 1) * 2 ^ k * 2 by ring]
      exact Nat.mul_div_cancel _ (by norm_num)
    have e2 : 2 ^ N = 2 * 2 ^ k * 2 ^ C := by rw [show N = 1 + k + C by omega, Nat.pow_add, Nat.pow_add, Nat.pow_one]
    rw [e1, e2] at hz
    have hp : 0 < 2 ^ k * 2 ^ C := by positivity
    have : (2 * x + 1) * (2 ^ k * 2 ^ C) = (2 * z) * (2 ^ k * 2 ^ C) := by rw [← Nat.mul_assoc, hz, ← Nat.mul_assoc]; ring
    have := Nat.eq_of_mul_eq_mul_right hp this
    omega
  have hdiff : ∀ w x : ℕ, absDiff (x * w) ((x + 1) * w) = w ∧ absDiff ((x + 1) * w) (x * w) = w := by
    intro w x
    unfold absDiff
    rw [Nat.add_mul]; omega
  have mid1 : ∀ a : ℕ, (a + a) / 2 = a := by intro a; omega
  refine ⟨?_, ?_, ?_, ?_⟩
  · by_contra hb
    simp only [hasMid, midPos, Bool.not_eq_false, Bool.and_eq_true, Bool.or_eq_true, decide_eq_true_eq, self, or_false, (hdiff _ _).1] at hb
    obtain ⟨u, v, h1, _⟩ := hm _ _ hb.2
    exact key A x hA hb.1 u h1
  · by_contra hb
    simp only [hasMid, midPos, Bool.not_eq_false, Bool.and_eq_true, Bool.or_eq_true, decide_eq_true_eq, self, false_or, (hdiff _ _).1] at hb
    obtain ⟨u, v, _, h1⟩ := hm _ _ hb.2
    exact key B y hB hb.1 v h1
  · by_contra hb
    simp only [hasMid, midPos, Bool.not_eq_false, Bool.and_eq_true, Bool.or_eq_true, decide_eq_true_eq, self, or_false, (hdiff _ _).2] at hb
    obtain ⟨u, v, h1, _⟩ := hm _ _ hb.2
    rw [Nat.add_comm ((x + 1) * _)] at h1
    exact key A x hA hb.1 u h1
  · by_contra hb
    simp only [hasMid, midPos, Bool.not_eq_false, Bool.and_eq_true, Bool.or_eq_true, decide_eq_true_eq, self, false_or, (hdiff _ _).2] at hb
    obtain ⟨u, v, _, h1⟩ := hm _ _ hb.2
    rw [Nat.add_comm ((y + 1) * _)] at h1
    exact key B y hB hb.1 v h1

/-- The mesh of one section: two triangles for every cell of the grid of `2^A` by `2^B` cells; `idx x y` is the number of the point at a node. -/
theorem uniform_mesh {pt : ℕ → ℕ → ℕ → Option P} (hc : Consistent pt) {split : P → P → P → P → Bool × Bool}
    (hu : Uniform (decision pt split) Ok D start) {fuel : ℕ} {name : Option String} {mesh : Mesh P}
    (h : rawMesh split fuel start [pt] 1 1 name = some mesh) :
    ∃ (A B N : ℕ) (idx : ℕ → ℕ → Option ℕ), A ≤ N ∧ B ≤ N ∧
      (∀ x y k, idx x y = some k → ∃ p, pt N (x * 2 ^ (N - A)) (y * 2 ^ (N - B)) = some p ∧ mesh.points[k]? = some p) ∧
      ∀ t ∈ mesh.triangles, ∃ x y, x < 2 ^ A ∧ y < 2 ^ B ∧
        (t.map some = [idx x y, idx x (y + 1), idx (x + 1) (y + 1)] ∨ t.map some = [idx x y, idx (x + 1) (y + 1), idx (x + 1) y]) := by
  unfold rawMesh meshSections meshSections at h
  obtain ⟨r, h1, h⟩ := Option.bind_eq_some_iff.1 h
  obtain ⟨⟨quads, st⟩, h10, h2⟩ := Option.bind_eq_some_iff.1 h1
  clear h1
  have h1 := h10
  clear h10
  simp only [Option.map_some, Option.some.injEq] at h2
  subst h2
  unfold meshSection at h1
  have hfs := fold_spec hc split fuel _ [] ⟨[], []⟩ _ _ (sound_init _ _) (by simp) h1
  obtain ⟨A, B, hAB, hcell⟩ := uniform_end hu hfs.2.2.2
  have hfirst : ∀ q ∈ startQuads start, Ok q ∧ OnChain D start q := fun q hq => ⟨hu.first q hq, 0, startQuads_cell hq⟩
  rw [← fold_nodes hc hu hAB fuel _ _ _ (sound_init _ _) hfirst] at h1
  have hcn := onlyNodes_consistent (A := A) (B := B) hc
  obtain ⟨hs, -, hdef, -⟩ := fold_spec hcn split fuel _ [] ⟨[], []⟩ _ _ (sound_init _ _) (by simp) h1
  simp only [List.map_cons, List.map_nil, List.foldl_cons, List.foldl_nil] at h
  obtain ⟨ms, h3, h⟩ := Option.bind_eq_some_iff.1 h
  generalize hN : max 0 (st.levels.length - 1) = N at h h3
  have hne : quads ≠ [] := refineFold_ne_nil _ fuel _ [] quads (Or.inl (startQuads_ne_nil start)) hfs.2.2.2
  obtain ⟨q0, hq0⟩ := List.exists_mem_of_ne_nil _ hne
  have hdep : max A B ≤ N := by
    obtain ⟨m, k, hm, _⟩ := (hdef q0 hq0).1
    have h5 := (List.getElem?_eq_some_iff.1 hm).1
    have h6 := (hcell q0 hq0).1
    omega
  have hA : A ≤ N := (le_max_left _ _).trans hdep
  have hB : B ≤ N := (le_max_right _ _).trans hdep
  have hlen : st.levels.length ≤ N + 1 := by omega
  have hstart : start ≤ N := by have := (hAB 0).1; exact this.trans hA
  obtain ⟨m, hm, hloc, -⟩ := normalizeMap_spec (start := start) hcn (ls := st.levels) (pts := st.points) hs hlen hstart
  simp only [List.mapM_cons, List.mapM_nil, hm, Option.bind_eq_bind, Option.bind_some, Option.pure_def, Option.some.injEq] at h3
  subst h3
  simp only [List.length_cons, List.length_nil, Nat.zero_add, Nat.mul_one, if_true] at h
  have hj : joinSections (2 ^ N) 1 1 [m] = some [m] := by simp [joinSections, rowPairs, colPairs]
  rw [hj, Option.bind_some] at h
  obtain ⟨ts, h4, rfl⟩ := Option.map_eq_some_iff.1 h
  simp only [List.zip_cons_cons, List.zip_nil_right, List.mapM_cons, List.mapM_nil, Option.bind_eq_bind, Option.pure_def] at h4
  obtain ⟨tr, h5, h4⟩ := Option.bind_eq_some_iff.1 h4
  simp only [Option.bind_some, Option.some.injEq] at h4
  subst h4
  have hnode : ∀ i j, (m i j).isSome → IsNode A B N i j := by
    intro i j hij
    obtain ⟨k, hk⟩ := Option.isSome_iff_exists.1 hij
    obtain ⟨_, _, p, hp, _⟩ := hloc i j k hk
    exact (onlyNodes_some hp).1
  refine ⟨A, B, N, fun x y => m (x * 2 ^ (N - A)) (y * 2 ^ (N - B)), hA, hB, ?_, ?_⟩
  · intro x y k hk
    obtain ⟨_, _, p, hp, hp'⟩ := hloc _ _ k hk
    exact ⟨p, (onlyNodes_some hp).2, hp'⟩
  · intro t ht
    simp only [List.flatten_cons, List.flatten_nil, List.append_nil] at ht
    unfold toTriangles at h5
    obtain ⟨T, hT, hTt⟩ := mapM_mem' h5 ht
    obtain ⟨q', hq', hT⟩ := List.mem_flatMap.1 hT
    obtain ⟨q, hq, rfl⟩ := List.mem_map.1 hq'
    obtain ⟨hd, x, y, hx, hy, e1, e2, e3, e4⟩ := hcell q hq
    have hqN : q.depth ≤ N := by rw [hd]; exact hdep
    have hAq : A ≤ q.depth := by rw [hd]; exact le_max_left _ _
    have hBq : B ≤ q.depth := by rw [hd]; exact le_max_right _ _
    have sA : ∀ z, z * 2 ^ (q.depth - A) * 2 ^ (N - q.depth) = z * 2 ^ (N - A) := by
      intro z; rw [Nat.mul_assoc, ← Nat.pow_add]; congr 2; omega
    have sB : ∀ z, z * 2 ^ (q.depth - B) * 2 ^ (N - q.depth) = z * 2 ^ (N - B) := by
      intro z; rw [Nat.mul_assoc, ← Nat.pow_add]; congr 2; omega
    have hM := fun x y => hasMid_node hnode hA hB (x := x) (y := y)
    refine ⟨x, y, hx, hy, ?_⟩
    simp only [quadTriangles, scaleQuad, e1, e2, e3, e4, sA, sB, (hM _ _).1, (hM _ _).2.1, (hM _ _).2.2.1, (hM _ _).2.2.2, Bool.false_eq_true,
      if_false, List.mem_cons, List.not_mem_nil, or_false] at hT
    have hmap : t.map some = T.map (fun p => m p.1 p.2) := (mapM_eq_some_iff.1 hTt).symm
    rcases hT with rfl | rfl
    · left; rw [hmap]; rfl
    · right; rw [hmap]; rfl

end SMesh
end Traceon
