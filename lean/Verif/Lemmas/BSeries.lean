import Verif.Spec.Tracer
import Mathlib.Analysis.Calculus.TaylorIntegral
import Mathlib.Analysis.Asymptotics.Lemmas
import Mathlib.Tactic.Module
import Mathlib.Tactic.Positivity

/-!
# Expansion in trees

The expansion of `f (y + δ)` for a `δ` that is itself given by an expansion in trees, up to a power of the step `h`. All is uniform over a set of
starting points and steps, which is expressed by an arbitrary filter.
-/
namespace Traceon.BSeries
open Spec Asymptotics Filter

variable {E : Type*} [NormedAddCommGroup E] [NormedSpace ℝ E]

/-! ## Trees -/

theorem sizes_eq (ts : List Tree) : Tree.sizes ts = (ts.map Tree.size).sum := by
  induction ts with
  | nil => rfl
  | cons t ts ih => simp [Tree.sizes, ih]

theorem size_pos (t : Tree) : 1 ≤ t.size := by cases t; simp [Tree.size]

theorem length_le_sizes (ts : List Tree) : ts.length ≤ Tree.sizes ts := by
  induction ts with
  | nil => simp
  | cons t ts ih => have := size_pos t; simp [Tree.sizes]; omega

theorem size_le_sizes {t : Tree} {ts : List Tree} (h : t ∈ ts) : t.size ≤ Tree.sizes ts := by
  induction ts with
  | nil => simp at h
  | cons u us ih =>
    rcases List.mem_cons.1 h with rfl | h
    · simp [Tree.sizes]
    · have := ih h; simp [Tree.sizes]; omega

/-- All forests with at most `n` nodes, in a list. -/
def allForests : Nat → Nat → List (List Tree)
  | 0, _ => [[]]
  | fuel + 1, n => [] :: (if 1 ≤ n then
      (allForests fuel (n - 1)).flatMap (fun f => (allForests fuel (n - 1 - Tree.sizes f)).map (fun g => Spec.Tree.node f :: g)) else [])

theorem mem_allForests (fuel : Nat) : ∀ (n : Nat) (ts : List Tree), Tree.sizes ts ≤ n → n ≤ fuel → ts ∈ allForests fuel n := by
  induction fuel with
  | zero =>
    intro n ts h hn
    cases ts with
    | nil => simp [allForests]
    | cons t ts => cases t; simp [Tree.sizes, Tree.size] at h; omega
  | succ fuel ih =>
    intro n ts h hn
    rw [allForests]
    cases ts with
    | nil => simp
    | cons t g =>
      obtain ⟨f⟩ := t
      simp only [Tree.sizes, Tree.size] at h
      rw [if_pos (by omega)]
      refine List.mem_cons_of_mem _ (List.mem_flatMap.2 ⟨f, ih _ _ (by omega) (by omega), List.mem_map.2 ⟨g, ih _ _ (by omega) (by omega), rfl⟩⟩)

theorem finite_forests (n : Nat) : {ts : List Tree | Tree.sizes ts ≤ n}.Finite :=
  (List.finite_toSet (allForests n n)).subset (fun ts h => mem_allForests n n ts h le_rfl)

/-- The forests with at most `n` nodes. -/
noncomputable def fl (n : Nat) : Finset (List Tree) := (finite_forests n).toFinset

theorem mem_fl {n : Nat} {ts : List Tree} : ts ∈ fl n ↔ Tree.sizes ts ≤ n := by simp [fl]

theorem node_injective : Function.Injective Spec.Tree.node := fun _ _ h => by injection h

theorem finite_trees (n : Nat) : {t : Tree | t.size ≤ n}.Finite :=
  ((finite_forests n).image Spec.Tree.node).subset (fun t h => by
    obtain ⟨ts⟩ := t
    refine ⟨ts, ?_, rfl⟩
    change Tree.size _ ≤ n at h
    change Tree.sizes ts ≤ n
    simp [Tree.size] at h; omega)

/-- The trees with at most `n` nodes. -/
noncomputable def tr (n : Nat) : Finset Tree := (finite_trees n).toFinset

theorem mem_tr {n : Nat} {t : Tree} : t ∈ tr n ↔ t.size ≤ n := by simp [tr]

theorem tr_zero : tr 0 = ∅ := by
  ext t
  rw [mem_tr]
  have := size_pos t
  simp; omega

theorem sum_tr_succ {M : Type*} [AddCommMonoid M] (n : Nat) (g : Tree → M) : ∑ t ∈ tr (n + 1), g t = ∑ ts ∈ fl n, g (.node ts) := by
  symm
  refine Finset.sum_nbij Spec.Tree.node ?_ (node_injective.injOn) ?_ (fun _ _ => rfl)
  · intro ts h; rw [mem_fl] at h; rw [mem_tr]; simp [Tree.size]; omega
  · rintro ⟨ts⟩ h
    have h : Spec.Tree.node ts ∈ tr (n + 1) := h
    rw [mem_tr] at h
    exact ⟨ts, by have : Tree.sizes ts ≤ n := by simp [Tree.size] at h; omega
                  exact mem_fl.2 this, rfl⟩

/-! ## Elementary differentials -/

mutual
/-- The elementary differential of a tree: the derivative of order m at the differentials of the m branches. -/
noncomputable def el (D : (m : ℕ) → E[×m]→L[ℝ] E) : Tree → E
  | .node ts => D ts.length (els D ts)
@[inherit_doc el]
noncomputable def els (D : (m : ℕ) → E[×m]→L[ℝ] E) : (ts : List Tree) → Fin ts.length → E
  | [] => fun i => i.elim0
  | t :: ts => Fin.cons (el D t) (els D ts)
end

theorem els_get (D : (m : ℕ) → E[×m]→L[ℝ] E) (ts : List Tree) (i : Fin ts.length) : els D ts i = el D (ts.get i) := by
  induction ts with
  | nil => exact i.elim0
  | cons t ts ih =>
    rw [els]
    refine Fin.cases ?_ ?_ i
    · simp
    · intro j; simp [ih j]

theorem el_node (D : (m : ℕ) → E[×m]→L[ℝ] E) (ts : List Tree) : el D (.node ts) = D ts.length (fun i => el D (ts.get i)) := by
  rw [el]; congr 1; funext i; exact els_get D ts i

theorem el_ofFn (D : (m : ℕ) → E[×m]→L[ℝ] E) {m : ℕ} (r : Fin m → Tree) : el D (.node (List.ofFn r)) = D m (fun i => el D (r i)) := by
  rw [el_node]
  have key : ∀ (k : ℕ) (h : k = m) (q : Fin k → Tree), (∀ i, q i = r (Fin.cast h i)) → D k (fun i => el D (q i)) = D m (fun i => el D (r i)) := by
    intro k h q hq; subst h; congr 1; funext i; rw [hq]; rfl
  exact key _ (by simp) (List.ofFn r).get (fun i => by simp; rfl)

mutual
/-- The weight of a tree: one over the product of the factorials of the numbers of branches. -/
noncomputable def wt : Tree → ℝ
  | .node ts => ((Nat.factorial ts.length : ℕ) : ℝ)⁻¹ * wts ts
@[inherit_doc wt]
noncomputable def wts : List Tree → ℝ
  | [] => 1
  | t :: ts => wt t * wts ts
end

theorem wts_eq (ts : List Tree) : wts ts = (ts.map wt).prod := by
  induction ts with
  | nil => simp [wts]
  | cons t ts ih => simp [wts, ih]

/-! ## The expansion -/

/-- A power of a quantity between 0 and 1. -/
theorem pow_isBigO {α : Type*} {l : Filter α} {h : α → ℝ} (h0 : ∀ᶠ x in l, 0 ≤ h x ∧ h x ≤ 1) {m n : ℕ} (hmn : m ≤ n) :
    (fun x => h x ^ n) =O[l] (fun x => h x ^ m) := by
  refine IsBigO.of_bound 1 ?_
  filter_upwards [h0] with x hx
  rw [one_mul, Real.norm_of_nonneg (pow_nonneg hx.1 _), Real.norm_of_nonneg (pow_nonneg hx.1 _)]
  exact pow_le_pow_of_le_one hx.1 hx.2 hmn

theorem el_bounded {α : Type*} {l : Filter α} {D : α → (m : ℕ) → E[×m]→L[ℝ] E} {N : ℕ} (hD : ∀ m ≤ N, (fun x => D x m) =O[l] (fun _ => (1 : ℝ))) :
    ∀ t : Tree, t.size ≤ N + 1 → (fun x => el (D x) t) =O[l] (fun _ => (1 : ℝ)) := by
  have key : ∀ (n : ℕ) (t : Tree), t.size ≤ n → t.size ≤ N + 1 → (fun x => el (D x) t) =O[l] (fun _ => (1 : ℝ)) := by
    intro n
    induction n with
    | zero => intro t h; have := size_pos t; omega
    | succ n ih =>
      rintro ⟨ts⟩ h hN
      have h' : Tree.sizes ts ≤ n := by simp [Tree.size] at h; omega
      have hN' : Tree.sizes ts ≤ N := by simp [Tree.size] at hN; omega
      have hb : ∀ i : Fin ts.length, (fun x => el (D x) (ts.get i)) =O[l] (fun _ => (1 : ℝ)) := by
        intro i
        have := size_le_sizes (List.get_mem ts i)
        exact ih _ (by omega) (by omega)
      have hprod : (fun x => ‖D x ts.length‖ * ∏ i : Fin ts.length, ‖el (D x) (ts.get i)‖) =O[l] (fun _ => (1 : ℝ)) := by
        have h1 := (hD ts.length (by have := length_le_sizes ts; omega)).norm_left
        have h2 : (fun x => ∏ i : Fin ts.length, ‖el (D x) (ts.get i)‖) =O[l] (fun _ => ∏ _i : Fin ts.length, (1 : ℝ)) :=
          IsBigO.finsetProd (fun i _ => (hb i).norm_left)
        have := h1.mul h2
        simpa using this
      refine IsBigO.trans (IsBigO.of_bound 1 (Eventually.of_forall fun x => ?_)) hprod
      rw [el_node, one_mul, Real.norm_of_nonneg (by positivity)]
      exact ContinuousMultilinearMap.le_opNorm _ _
  exact fun t ht => key _ t le_rfl ht

/-- The sum of the terms of the Taylor polynomial at a linear combination of elementary differentials. -/
theorem multi_expand (D : (m : ℕ) → E[×m]→L[ℝ] E) (m : ℕ) (T : Finset Tree) (c : Tree → ℝ) :
    ((Nat.factorial m : ℕ) : ℝ)⁻¹ • D m (fun _ => ∑ t ∈ T, c t • el D t) =
      ∑ r ∈ Fintype.piFinset (fun _ : Fin m => T), (((Nat.factorial m : ℕ) : ℝ)⁻¹ * ((List.ofFn r).map c).prod) • el D (.node (List.ofFn r)) := by
  have h := (D m).toMultilinearMap.map_sum_finset (fun _ t => c t • el D t) (fun _ => T)
  have h' : D m (fun _ => ∑ t ∈ T, c t • el D t) = ∑ r ∈ Fintype.piFinset (fun _ : Fin m => T), D m (fun i => c (r i) • el D (r i)) := h
  rw [h', Finset.smul_sum]
  refine Finset.sum_congr rfl (fun r _ => ?_)
  have := (D m).toMultilinearMap.map_smul_univ (fun i => c (r i)) (fun i => el D (r i))
  have h2 : D m (fun i => c (r i) • el D (r i)) = (∏ i, c (r i)) • D m (fun i => el D (r i)) := this
  rw [h2, el_ofFn, smul_smul]
  congr 2
  rw [List.map_ofFn, List.prod_ofFn]
  rfl

/-- Splitting that sum by the number of nodes. -/
theorem sum_split {M : Type*} [AddCommMonoid M] (n : ℕ) (G : List Tree → M) :
    ∑ m ∈ Finset.range (n + 1), ∑ r ∈ Fintype.piFinset (fun _ : Fin m => tr n), G (List.ofFn r) =
      ∑ ts ∈ fl n, G ts + ∑ m ∈ Finset.range (n + 1), ∑ r ∈ (Fintype.piFinset (fun _ : Fin m => tr n)).filter (fun r => ¬Tree.sizes (List.ofFn r) ≤ n), G (List.ofFn r) := by
  have h1 : ∑ ts ∈ fl n, G ts = ∑ m ∈ Finset.range (n + 1), ∑ r ∈ (Fintype.piFinset (fun _ : Fin m => tr n)).filter (fun r => Tree.sizes (List.ofFn r) ≤ n), G (List.ofFn r) := by
    rw [← Finset.sum_fiberwise_of_maps_to (s := fl n) (t := Finset.range (n + 1)) (g := List.length)
      (fun ts h => by rw [mem_fl] at h; have := length_le_sizes ts; simp; omega)]
    refine Finset.sum_congr rfl (fun m _ => ?_)
    symm
    refine Finset.sum_nbij List.ofFn ?_ (List.ofFn_injective.injOn) ?_ (fun _ _ => rfl)
    · intro r hr
      rw [Finset.mem_filter] at hr ⊢
      exact ⟨mem_fl.2 hr.2, by simp⟩
    · intro ts hts
      have hts : ts ∈ (fl n).filter (fun ts => ts.length = m) := hts
      rw [Finset.mem_filter, mem_fl] at hts
      obtain ⟨h1, rfl⟩ := hts
      refine ⟨ts.get, ?_, by simp⟩
      simp only [Finset.coe_filter, Set.mem_ofPred_eq, Fintype.mem_piFinset]
      refine ⟨fun i => mem_tr.2 (le_trans (size_le_sizes (List.get_mem ts i)) h1), by simpa using h1⟩
  rw [h1, ← Finset.sum_add_distrib]
  refine Finset.sum_congr rfl (fun m _ => ?_)
  rw [Finset.sum_filter_add_sum_filter_not]

theorem prod_pow_sizes (k : ℝ) (c : Tree → ℝ) (ts : List Tree) :
    (ts.map (fun t => k ^ t.size * (wt t * c t))).prod = k ^ Tree.sizes ts * (wts ts * (ts.map c).prod) := by
  induction ts with
  | nil => simp [Tree.sizes, wts]
  | cons t ts ih => rw [List.map_cons, List.prod_cons, ih, List.map_cons, List.prod_cons, Tree.sizes, wts, pow_add]; ring

/-- **The expansion of a composition.** -/
theorem compose {α : Type*} {l : Filter α} {h : α → ℝ} (h0 : ∀ᶠ x in l, 0 ≤ h x ∧ h x ≤ 1) {D : α → (m : ℕ) → E[×m]→L[ℝ] E} {n : ℕ}
    (hD : ∀ m ≤ n, (fun x => D x m) =O[l] (fun _ => (1 : ℝ))) (c : Tree → ℝ) (δ g : α → E)
    (hδ : (fun x => δ x - ∑ t ∈ tr n, (h x ^ t.size * (wt t * c t)) • el (D x) t) =O[l] (fun x => h x ^ (n + 1)))
    (hg : (fun x => g x - ∑ m ∈ Finset.range (n + 1), ((Nat.factorial m : ℕ) : ℝ)⁻¹ • D x m (fun _ => δ x)) =O[l] (fun x => h x ^ (n + 1))) :
    (fun x => g x - ∑ ts ∈ fl n, (h x ^ Tree.sizes ts * (wt (.node ts) * (ts.map c).prod)) • el (D x) (.node ts)) =O[l] (fun x => h x ^ (n + 1)) := by
  set P : α → E := fun x => ∑ t ∈ tr n, (h x ^ t.size * (wt t * c t)) • el (D x) t with hP
  have hone : ∀ k : ℕ, (fun x => h x ^ k) =O[l] (fun _ => (1 : ℝ)) := by
    intro k; simpa using pow_isBigO h0 (Nat.zero_le k)
  have hel : ∀ t ∈ tr (n + 1), (fun x => el (D x) t) =O[l] (fun _ => (1 : ℝ)) := fun t ht => el_bounded hD t (mem_tr.1 ht)
  have hPb : P =O[l] (fun _ => (1 : ℝ)) := by
    refine IsBigO.fun_sum (fun t ht => ?_)
    have h1 : (fun x => h x ^ t.size * (wt t * c t)) =O[l] (fun _ => (1 : ℝ)) := by
      simpa [mul_comm] using (hone t.size).const_mul_left (wt t * c t)
    have := h1.smul (hel t (mem_tr.2 (by have := mem_tr.1 ht; omega)))
    simpa using this
  have hδb : δ =O[l] (fun _ => (1 : ℝ)) := by
    have h1 := (hδ.trans (hone (n + 1))).add hPb
    refine h1.congr_left (fun x => ?_)
    simp [hP]
  -- replace δ by P in the Taylor polynomial
  have hrep : ∀ m ≤ n, (fun x => D x m (fun _ => δ x) - D x m (fun _ => P x)) =O[l] (fun x => h x ^ (n + 1)) := by
    intro m hm
    have hb : ∀ x, ‖D x m (fun _ => δ x) - D x m (fun _ => P x)‖ ≤ ‖D x m‖ * m * (‖δ x‖ + ‖P x‖) ^ (m - 1) * ‖δ x - P x‖ := by
      intro x
      have h1 := (D x m).norm_image_sub_le (fun _ => δ x) (fun _ => P x)
      rw [Fintype.card_fin] at h1
      refine h1.trans ?_
      have hc : ∀ v : E, ‖(fun _ : Fin m => v)‖ ≤ ‖v‖ := fun v => pi_norm_const_le v
      have h2 : max ‖(fun _ : Fin m => δ x)‖ ‖(fun _ : Fin m => P x)‖ ≤ ‖δ x‖ + ‖P x‖ :=
        max_le ((hc _).trans (le_add_of_nonneg_right (norm_nonneg _))) ((hc _).trans (le_add_of_nonneg_left (norm_nonneg _)))
      have h3 : ‖(fun _ : Fin m => δ x) - (fun _ : Fin m => P x)‖ ≤ ‖δ x - P x‖ := hc (δ x - P x)
      gcongr
    have hr : (fun x => ‖D x m‖ * m * (‖δ x‖ + ‖P x‖) ^ (m - 1) * ‖δ x - P x‖) =O[l] (fun x => h x ^ (n + 1)) := by
      have a1 : (fun x => ‖D x m‖ * (m : ℝ)) =O[l] (fun _ => (1 : ℝ)) := by
        simpa [mul_comm] using ((hD m hm).norm_left).const_mul_left (m : ℝ)
      have a2 : (fun x => (‖δ x‖ + ‖P x‖) ^ (m - 1)) =O[l] (fun _ => (1 : ℝ)) := by
        simpa using (hδb.norm_left.add hPb.norm_left).pow (m - 1)
      have a3 := (a1.mul a2).mul hδ.norm_left
      simpa using a3
    refine IsBigO.trans (IsBigO.of_bound 1 (Eventually.of_forall fun x => ?_)) hr
    rw [one_mul, Real.norm_of_nonneg (by positivity)]
    exact hb x
  have hrep2 : (fun x => ∑ m ∈ Finset.range (n + 1), ((Nat.factorial m : ℕ) : ℝ)⁻¹ • (D x m (fun _ => δ x) - D x m (fun _ => P x))) =O[l] (fun x => h x ^ (n + 1)) :=
    IsBigO.fun_sum (fun m hm => IsBigO.const_smul_left (hrep m (by have := Finset.mem_range.1 hm; omega)) _)
  -- the Taylor polynomial at P
  have hex : ∀ x, ∑ m ∈ Finset.range (n + 1), ((Nat.factorial m : ℕ) : ℝ)⁻¹ • D x m (fun _ => P x) =
      ∑ ts ∈ fl n, (h x ^ Tree.sizes ts * (wt (.node ts) * (ts.map c).prod)) • el (D x) (.node ts) +
      ∑ m ∈ Finset.range (n + 1), ∑ r ∈ (Fintype.piFinset (fun _ : Fin m => tr n)).filter (fun r => ¬Tree.sizes (List.ofFn r) ≤ n),
        (h x ^ Tree.sizes (List.ofFn r) * (wt (.node (List.ofFn r)) * ((List.ofFn r).map c).prod)) • el (D x) (.node (List.ofFn r)) := by
    intro x
    rw [← sum_split n (fun ts => (h x ^ Tree.sizes ts * (wt (.node ts) * (ts.map c).prod)) • el (D x) (.node ts))]
    refine Finset.sum_congr rfl (fun m _ => ?_)
    rw [hP, multi_expand]
    refine Finset.sum_congr rfl (fun r _ => ?_)
    rw [prod_pow_sizes, wt, List.length_ofFn]
    congr 1
    ring
  have hrem : (fun x => ∑ m ∈ Finset.range (n + 1), ∑ r ∈ (Fintype.piFinset (fun _ : Fin m => tr n)).filter (fun r => ¬Tree.sizes (List.ofFn r) ≤ n),
        (h x ^ Tree.sizes (List.ofFn r) * (wt (.node (List.ofFn r)) * ((List.ofFn r).map c).prod)) • el (D x) (.node (List.ofFn r))) =O[l] (fun x => h x ^ (n + 1)) := by
    refine IsBigO.fun_sum (fun m hm => IsBigO.fun_sum (fun r hr => ?_))
    rw [Finset.mem_filter, Fintype.mem_piFinset] at hr
    have hm' : m ≤ n := by simp at hm; omega
    have e1 : (fun x => el (D x) (.node (List.ofFn r))) =O[l] (fun _ => (1 : ℝ)) := by
      have hprod : (fun x => ‖D x m‖ * ∏ i : Fin m, ‖el (D x) (r i)‖) =O[l] (fun _ => (1 : ℝ)) := by
        have h1 := (hD m hm').norm_left
        have h2 : (fun x => ∏ i : Fin m, ‖el (D x) (r i)‖) =O[l] (fun _ => ∏ _i : Fin m, (1 : ℝ)) :=
          IsBigO.finsetProd (fun i _ => (hel (r i) (mem_tr.2 (by have := mem_tr.1 (hr.1 i); omega))).norm_left)
        simpa using h1.mul h2
      refine IsBigO.trans (IsBigO.of_bound 1 (Eventually.of_forall fun x => ?_)) hprod
      rw [el_ofFn, one_mul, Real.norm_of_nonneg (by positivity)]
      exact ContinuousMultilinearMap.le_opNorm _ _
    have e2 : (fun x => h x ^ Tree.sizes (List.ofFn r) * (wt (.node (List.ofFn r)) * ((List.ofFn r).map c).prod)) =O[l] (fun x => h x ^ (n + 1)) := by
      have := (pow_isBigO h0 (m := n + 1) (n := Tree.sizes (List.ofFn r)) (by omega)).const_mul_left (wt (.node (List.ofFn r)) * ((List.ofFn r).map c).prod)
      simpa [mul_comm] using this
    simpa using e2.smul e1
  refine ((hg.add hrep2).add hrem).congr_left (fun x => ?_)
  have hx := hex x
  simp only [smul_sub, Finset.sum_sub_distrib]
  rw [hx]
  abel

end Traceon.BSeries
