import Verif.Lemmas.SurfaceRaw
import Mathlib.Data.Real.Basic
import Mathlib.Tactic.Linarith
import Mathlib.Tactic.Ring
import Mathlib.Tactic.NormNum
import Mathlib.Tactic.Positivity

/-!
# When does the refinement tile the parameter square?
-/
namespace Traceon
namespace SMesh

/-- The point with parameters `(x, y)` (as fractions of the two path lengths) is in the quad; quads are taken without their
upper edges, so that neighbours do not overlap. -/
def Covers (q : Quad) (x y : ℝ) : Prop :=
  (q.i0 : ℝ) ≤ x * 2 ^ q.depth ∧ x * 2 ^ q.depth < q.i1 ∧ (q.j0 : ℝ) ≤ y * 2 ^ q.depth ∧ y * 2 ^ q.depth < q.j1

open Classical in
/-- how many of the quads contain the point -/
noncomputable def coverCount (qs : List Quad) (x y : ℝ) : ℕ := qs.countP (fun q => decide (Covers q x y))

theorem coverCount_append (a b : List Quad) (x y : ℝ) : coverCount (a ++ b) x y = coverCount a x y + coverCount b x y :=
  List.countP_append

theorem coverCount_cons (q : Quad) (l : List Quad) (x y : ℝ) : coverCount (q :: l) x y = coverCount [q] x y + coverCount l x y :=
  coverCount_append [q] l x y

theorem coverCount_reverse (l : List Quad) (x y : ℝ) : coverCount l.reverse x y = coverCount l x y :=
  List.countP_reverse

open Classical in
theorem coverCount_single (q : Quad) (x y : ℝ) : coverCount [q] x y = if Covers q x y then 1 else 0 := by
  by_cases h : Covers q x y <;> simp [coverCount, h]

/-- Splitting a quad that is one wide in the directions in which it is split keeps it covered exactly once. -/
theorem children_cover {q : Quad} {h v : Bool} (hv : (h || v) = true) (hh : h = true → q.j1 = q.j0 + 1)
    (hv' : v = true → q.i1 = q.i0 + 1) (x y : ℝ) : coverCount (children q h v) x y = coverCount [q] x y := by
  obtain ⟨d, i0, i1, j0, j1⟩ := q
  simp only at hh hv'
  have p1 : x * 2 ^ (d + 1) = 2 * (x * 2 ^ d) := by ring
  have p2 : y * 2 ^ (d + 1) = 2 * (y * 2 ^ d) := by ring
  generalize hX : x * 2 ^ d = X at p1
  generalize hY : y * 2 ^ d = Y at p2
  cases h <;> cases v
  · simp at hv
  · have e := hv' rfl
    subst e
    simp only [children, Bool.false_and, Bool.false_eq_true, if_false, if_true]
    rw [coverCount_cons, coverCount_single, coverCount_single, coverCount_single]
    simp only [Covers, p1, p2, hX, hY]
    push_cast
    split_ifs <;> first
      | rfl
      | (exfalso; grind)
  · have e := hh rfl
    subst e
    simp only [children, Bool.and_false, Bool.false_eq_true, if_false, if_true]
    rw [coverCount_cons, coverCount_single, coverCount_single, coverCount_single]
    simp only [Covers, p1, p2, hX, hY]
    push_cast
    split_ifs <;> first
      | rfl
      | (exfalso; grind)
  · have e := hh rfl
    subst e
    have e := hv' rfl
    subst e
    simp only [children, Bool.and_true, if_true]
    rw [coverCount_cons, coverCount_cons ⟨d + 1, 2 * i0, 2 * i0 + 1, 2 * j0 + 1, 2 * j0 + 2⟩,
      coverCount_cons ⟨d + 1, 2 * i0 + 1, 2 * i0 + 2, 2 * j0, 2 * j0 + 1⟩]
    simp only [coverCount_single]
    simp only [Covers, p1, p2, hX, hY]
    push_cast
    split_ifs <;> first
      | rfl
      | (exfalso; grind)

/-- `Ok` is kept by the splits the decision asks for, and quads with `Ok` are only split in directions in which they are one
wide. -/
structure NoTurn (dec : Quad → Option (Bool × Bool)) (Ok : Quad → Prop) : Prop where
  width : ∀ q h v, Ok q → dec q = some (h, v) → (h = true → q.j1 = q.j0 + 1) ∧ (v = true → q.i1 = q.i0 + 1)
  keep : ∀ q h v, Ok q → dec q = some (h, v) → ∀ c ∈ children q h v, Ok c

theorem refine_cover {dec : Quad → Option (Bool × Bool)} {Ok : Quad → Prop} (hn : NoTurn dec Ok) (x y : ℝ) :
    ∀ (fuel : ℕ) (stack quads quads' : List Quad), (∀ q ∈ stack, Ok q) → refine dec fuel stack quads = some quads' →
      coverCount quads' x y = coverCount quads x y + coverCount stack x y
  | fuel, [], quads, quads', _, h => by
    have : refine dec fuel [] quads = some quads := by cases fuel <;> rfl
    rw [this] at h; cases h; simp [coverCount]
  | 0, q :: stack, quads, quads', _, h => by cases h
  | fuel + 1, q :: stack, quads, quads', hok, h => by
    simp only [refine] at h
    obtain ⟨⟨a, b⟩, hdec, h⟩ := Option.bind_eq_some_iff.1 h
    have hq := hok q List.mem_cons_self
    obtain ⟨w1, w2⟩ := hn.width q a b hq hdec
    split at h
    · rename_i hab
      rw [refine_cover hn x y fuel _ _ _ (fun q' hq' => ?_) h, coverCount_append, coverCount_reverse,
        children_cover hab w1 w2, coverCount_cons q stack]
      rcases List.mem_append.1 hq' with hq' | hq'
      · exact hn.keep q a b hq hdec q' (List.mem_reverse.1 hq')
      · exact hok q' (List.mem_cons_of_mem _ hq')
    · rw [refine_cover hn x y fuel _ _ _ (fun q' hq' => hok q' (List.mem_cons_of_mem _ hq')) h, coverCount_append,
        coverCount_cons q stack, Nat.add_assoc]

theorem refineFold_cover {dec : Quad → Option (Bool × Bool)} {Ok : Quad → Prop} (hn : NoTurn dec Ok) (x y : ℝ) (fuel : ℕ) :
    ∀ (qs quads quads' : List Quad), (∀ q ∈ qs, Ok q) → qs.foldlM (fun acc q => refine dec fuel [q] acc) quads = some quads' →
      coverCount quads' x y = coverCount quads x y + coverCount qs x y
  | [], quads, quads', _, h => by cases h; simp [coverCount]
  | q :: qs, quads, quads', hok, h => by
    rw [List.foldlM_cons] at h
    obtain ⟨quads1, h1, h⟩ := Option.bind_eq_some_iff.1 h
    rw [refineFold_cover hn x y fuel qs quads1 quads' (fun q' hq' => hok q' (List.mem_cons_of_mem _ hq')) h,
      refine_cover hn x y fuel [q] quads quads1 (fun q' hq' => by rw [List.mem_singleton.1 hq']; exact hok q List.mem_cons_self) h1,
      coverCount_cons q qs, Nat.add_assoc]

theorem countP_range_unique (n : ℕ) (X : ℝ) (h0 : 0 ≤ X) (h1 : X < n) :
    ∃ k : ℕ, k < n ∧ (k : ℝ) ≤ X ∧ X < k + 1 ∧ ∀ l : ℕ, (l : ℝ) ≤ X → X < l + 1 → l = k := by
  obtain ⟨k, hk1, hk2⟩ : ∃ k : ℕ, (k : ℝ) ≤ X ∧ X < k + 1 := by
    induction n with
    | zero => exfalso; simp at h1; linarith
    | succ n ih =>
      by_cases h : X < n
      · exact ih h
      · push Not at h; push_cast at h1; exact ⟨n, h, h1⟩
  refine ⟨k, ?_, hk1, hk2, fun l hl1 hl2 => ?_⟩
  · have : (k : ℝ) < n := by linarith
    exact_mod_cast this
  · have a : (l : ℝ) < k + 1 := by linarith
    have b : (k : ℝ) < l + 1 := by linarith
    have a' : l < k + 1 := by exact_mod_cast a
    have b' : k < l + 1 := by exact_mod_cast b
    omega

theorem countP_one {n k : ℕ} (hk : k < n) (p : ℕ → Prop) [DecidablePred p] (hp : ∀ l, p l ↔ l = k) :
    (List.range n).countP (fun l => decide (p l)) = 1 := by
  have : (fun l => decide (p l)) = (fun l => l == k) := by
    funext l
    by_cases h : l = k <;> simp [hp, h]
  rw [this]
  have h := List.nodup_range (n := n)
  have := h.count (a := k)
  rw [if_pos (List.mem_range.2 hk)] at this
  exact this

/-- The starting grid covers every point of the square exactly once. -/
theorem startQuads_cover (start : ℕ) {x y : ℝ} (hx0 : 0 ≤ x) (hx1 : x < 1) (hy0 : 0 ≤ y) (hy1 : y < 1) :
    coverCount (startQuads start) x y = 1 := by
  classical
  have hpos : (0 : ℝ) < 2 ^ start := by positivity
  obtain ⟨i, hi, hi1, hi2, hi3⟩ := countP_range_unique (2 ^ start) (x * 2 ^ start) (by positivity) (by push_cast; nlinarith)
  obtain ⟨j, hj, hj1, hj2, hj3⟩ := countP_range_unique (2 ^ start) (y * 2 ^ start) (by positivity) (by push_cast; nlinarith)
  have row : ∀ a : ℕ, coverCount ((List.range (2 ^ start)).map (fun b => (⟨start, a, a + 1, b, b + 1⟩ : Quad))) x y
      = if a = i then 1 else 0 := by
    intro a
    unfold coverCount
    rw [List.countP_map]
    split_ifs with ha
    · subst ha
      refine countP_one hj (fun b => Covers ⟨start, a, a + 1, b, b + 1⟩ x y) (fun b => ?_)
      simp only [Covers]
      push_cast
      constructor
      · rintro ⟨_, _, h1, h2⟩; exact hj3 b h1 h2
      · rintro rfl; exact ⟨hi1, hi2, hj1, hj2⟩
    · rw [List.countP_eq_zero]
      intro b _ hb
      have hb := of_decide_eq_true hb
      simp only [Covers] at hb
      push_cast at hb
      exact ha (hi3 a hb.1 hb.2.1)
  have gen : ∀ l : List ℕ, coverCount (l.flatMap (fun a => (List.range (2 ^ start)).map
      (fun b => (⟨start, a, a + 1, b, b + 1⟩ : Quad)))) x y = l.countP (fun a => decide (a = i)) := by
    intro l
    induction l with
    | nil => rfl
    | cons a l ih =>
      rw [List.flatMap_cons, coverCount_append, row, ih, List.countP_cons]
      by_cases h : a = i <;> simp [h]; omega
  unfold startQuads
  rw [gen]
  exact countP_one hi (fun a => a = i) (fun _ => Iff.rfl)

/-! ## Termination -/

/-- the refinement of the single quad `q` takes `k` steps and gives the quads `out` -/
def Finishes (dec : Quad → Option (Bool × Bool)) (q : Quad) (k : ℕ) (out : List Quad) : Prop :=
  ∀ f stack quads, refine dec (k + f) (q :: stack) quads = refine dec f stack (quads ++ out)

theorem finishes_list {dec : Quad → Option (Bool × Bool)} : ∀ (qs : List Quad), (∀ q ∈ qs, ∃ k out, Finishes dec q k out) →
    ∃ k out, ∀ f stack quads, refine dec (k + f) (qs ++ stack) quads = refine dec f stack (quads ++ out)
  | [], _ => ⟨0, [], fun f stack quads => by simp⟩
  | q :: qs, h => by
    obtain ⟨k1, o1, h1⟩ := h q List.mem_cons_self
    obtain ⟨k2, o2, h2⟩ := finishes_list qs (fun q' hq' => h q' (List.mem_cons_of_mem _ hq'))
    refine ⟨k1 + k2, o1 ++ o2, fun f stack quads => ?_⟩
    rw [List.cons_append, Nat.add_assoc, h1, h2, List.append_assoc]

/-- If quads that are narrow enough are not split in that direction, the refinement ends. -/
theorem finishes_of_narrow {dec : Quad → Option (Bool × Bool)} (N : ℕ) (hd : ∀ q, InGrid q → ∃ h v, dec q = some (h, v) ∧
      ((q.j1 - q.j0) * 2 ^ N ≤ 2 ^ q.depth → h = false) ∧ ((q.i1 - q.i0) * 2 ^ N ≤ 2 ^ q.depth → v = false)) :
    ∀ (n a b : ℕ) (q : Quad), (N - a) + (N - b) ≤ n → InGrid q → (q.j1 - q.j0) * 2 ^ a ≤ 2 ^ q.depth →
      (q.i1 - q.i0) * 2 ^ b ≤ 2 ^ q.depth → ∃ k out, Finishes dec q k out := by
  intro n
  induction n with
  | zero =>
    intro a b q hn hg ha hb
    obtain ⟨h, v, hdec, h1, h2⟩ := hd q hg
    have hN : ∀ w c, N ≤ c → w * 2 ^ c ≤ 2 ^ q.depth → w * 2 ^ N ≤ 2 ^ q.depth := fun w c hc hw =>
      le_trans (Nat.mul_le_mul_left _ (Nat.pow_le_pow_right (by norm_num) hc)) hw
    have e1 := h1 (hN _ a (by omega) ha)
    have e2 := h2 (hN _ b (by omega) hb)
    subst e1; subst e2
    refine ⟨1, [q], fun f stack quads => ?_⟩
    rw [Nat.add_comm 1 f]
    simp [refine, hdec]
  | succ n ih =>
    intro a b q hn hg ha hb
    obtain ⟨h, v, hdec, h1, h2⟩ := hd q hg
    have hN : ∀ w c, N ≤ c → w * 2 ^ c ≤ 2 ^ q.depth → w * 2 ^ N ≤ 2 ^ q.depth := fun w c hc hw =>
      le_trans (Nat.mul_le_mul_left _ (Nat.pow_le_pow_right (by norm_num) hc)) hw
    have hh : h = true → a < N := by
      intro h'
      by_contra hlt
      have := h1 (hN _ a (by omega) ha)
      rw [h'] at this; cases this
    have hv : v = true → b < N := by
      intro h'
      by_contra hlt
      have := h2 (hN _ b (by omega) hb)
      rw [h'] at this; cases this
    have hp : 2 ^ (q.depth + 1) = 2 ^ q.depth * 2 := Nat.pow_succ ..
    have unit : ∀ w c, 0 < w → w * 2 ^ c ≤ 2 ^ q.depth → 1 * 2 ^ (c + 1) ≤ 2 ^ (q.depth + 1) := by
      intro w c hw hle
      rw [hp, Nat.pow_succ, Nat.one_mul]
      have : 1 * 2 ^ c ≤ w * 2 ^ c := Nat.mul_le_mul_right _ hw
      omega
    have dbl : ∀ w c, w * 2 ^ c ≤ 2 ^ q.depth → (2 * w) * 2 ^ c ≤ 2 ^ (q.depth + 1) := by
      intro w c hle
      rw [hp, Nat.mul_assoc]; omega
    obtain ⟨g1, g2, g3, g4⟩ := hg
    by_cases hab : (h || v) = true
    · obtain ⟨k, out, hk⟩ := finishes_list (dec := dec) (children q h v).reverse (fun c hc => by
        have hc := List.mem_reverse.1 hc
        have hgc := children_inGrid ⟨g1, g2, g3, g4⟩ h v c hc
        have hdc := children_depth hc
        unfold children at hc
        cases h <;> cases v
        · simp at hab
        · simp only [Bool.false_and, Bool.false_eq_true, if_false, if_true, List.mem_cons, List.not_mem_nil, or_false] at hc
          have hb' := hv rfl
          refine ih a (b + 1) c (by omega) hgc ?_ ?_
          · rcases hc with rfl | rfl <;>
              simpa [← Nat.mul_sub] using dbl _ a ha
          · rcases hc with rfl | rfl
            · have := unit _ b (by omega) hb
              simpa using this
            · have := unit _ b (by omega) hb
              rw [show 2 * q.i0 + 2 - (2 * q.i0 + 1) = 1 by omega]; exact this
        · simp only [Bool.and_false, Bool.false_eq_true, if_false, if_true, List.mem_cons, List.not_mem_nil, or_false] at hc
          have ha' := hh rfl
          refine ih (a + 1) b c (by omega) hgc ?_ ?_
          · rcases hc with rfl | rfl
            · have := unit _ a (by omega) ha
              simpa using this
            · have := unit _ a (by omega) ha
              rw [show 2 * q.j0 + 2 - (2 * q.j0 + 1) = 1 by omega]; exact this
          · rcases hc with rfl | rfl <;>
              simpa [← Nat.mul_sub] using dbl _ b hb
        · simp only [Bool.and_true, if_true, List.mem_cons, List.not_mem_nil, or_false] at hc
          have ha' := hh rfl
          have hb' := hv rfl
          have u1 := unit _ a (by omega) ha
          have u2 := unit _ b (by omega) hb
          have e1 : 2 * q.i0 + 2 - (2 * q.i0 + 1) = 1 := by omega
          have e2 : 2 * q.j0 + 2 - (2 * q.j0 + 1) = 1 := by omega
          have e3 : 2 * q.i0 + 1 - 2 * q.i0 = 1 := by omega
          have e4 : 2 * q.j0 + 1 - 2 * q.j0 = 1 := by omega
          refine ih (a + 1) (b + 1) c (by omega) hgc ?_ ?_
          · rcases hc with rfl | rfl | rfl | rfl <;> simp only [e2, e4] <;> exact u1
          · rcases hc with rfl | rfl | rfl | rfl <;> simp only [e1, e3] <;> exact u2)
      refine ⟨k + 1, out, fun f stack quads => ?_⟩
      rw [show k + 1 + f = k + f + 1 by omega]
      simp only [refine, hdec, Option.bind_some, hab, if_true]
      exact hk f stack quads
    · refine ⟨1, [q], fun f stack quads => ?_⟩
      rw [Nat.add_comm 1 f]
      simp only [refine, hdec, Option.bind_some, hab]
      rfl

/-- The refinement of the whole starting grid ends, from some fuel on. -/
theorem refineAll_total {dec : Quad → Option (Bool × Bool)} (N : ℕ) (hd : ∀ q, InGrid q → ∃ h v, dec q = some (h, v) ∧
      ((q.j1 - q.j0) * 2 ^ N ≤ 2 ^ q.depth → h = false) ∧ ((q.i1 - q.i0) * 2 ^ N ≤ 2 ^ q.depth → v = false)) (start : ℕ) :
    ∃ fuel0, ∀ fuel, fuel0 ≤ fuel → ∃ quads, refineAll dec fuel start = some quads := by
  have gen : ∀ (qs : List Quad), (∀ q ∈ qs, InGrid q) → ∃ fuel0, ∀ fuel, fuel0 ≤ fuel → ∀ quads,
      ∃ quads', qs.foldlM (fun acc q => refine dec fuel [q] acc) quads = some quads' := by
    intro qs
    induction qs with
    | nil => intro _; exact ⟨0, fun fuel _ quads => ⟨quads, rfl⟩⟩
    | cons q qs ih =>
      intro hg
      obtain ⟨f1, h1⟩ := ih (fun q' hq' => hg q' (List.mem_cons_of_mem _ hq'))
      have hgq := hg q List.mem_cons_self
      obtain ⟨k, out, hk⟩ := finishes_of_narrow N hd (N + N) 0 0 q (by omega) hgq
        (by rw [Nat.pow_zero, Nat.mul_one]; have := hgq.2.2.2; omega) (by rw [Nat.pow_zero, Nat.mul_one]; have := hgq.2.1; omega)
      refine ⟨max f1 k, fun fuel hf quads => ?_⟩
      obtain ⟨f, rfl⟩ : ∃ f, fuel = k + f := ⟨fuel - k, by omega⟩
      have h2 : refine dec (k + f) [q] quads = some (quads ++ out) := by
        rw [hk f [] quads]; cases f <;> rfl
      obtain ⟨quads', h3⟩ := h1 (k + f) (by omega) (quads ++ out)
      exact ⟨quads', by rw [List.foldlM_cons, h2]; exact h3⟩
  obtain ⟨f0, h⟩ := gen (startQuads start) (fun q hq => (startQuads_inGrid hq).1)
  exact ⟨f0, fun fuel hf => h fuel hf []⟩

end SMesh
end Traceon
