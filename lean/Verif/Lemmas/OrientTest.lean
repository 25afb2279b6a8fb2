import Verif.Model.RealGeo
import Verif.Lemmas.ReorientTris

/-! C09: the geometric orientation test recognises the direction in which a common edge is
traversed. -/
namespace Traceon
open Spec V3

theorem unit_eq_smul (a : V3) : unit a = (1 / norm a) * a := rfl

theorem cross_ne_left {n q : V3} (h : cross n q ≠ 0) : n ≠ 0 := by
  rintro rfl; apply h; ext <;> simp [cross]

theorem cross_ne_right {n q : V3} (h : cross n q ≠ 0) : q ≠ 0 := by
  rintro rfl; apply h; ext <;> simp [cross]

theorem sign1 {n q : V3} (h : cross n q ≠ 0) :
    dot (cross ((1/3 : ℝ) * (n + q)) (unit n)) (unit (cross n q)) < 0 := by
  have h1 := norm_pos (cross_ne_left h)
  have h2 := norm_pos h
  have h3 := dot_self_pos h
  have : dot (cross ((1/3 : ℝ) * (n + q)) (unit n)) (unit (cross n q)) =
      -((1/3) * (1 / norm n) * (1 / norm (cross n q)) * dot (cross n q) (cross n q)) := by
    simp only [unit_eq_smul]
    generalize (1 / norm n) = u
    generalize (1 / norm (cross n q)) = v
    simp only [dot, cross, smul_x, smul_y, smul_z, add_x, add_y, add_z]
    ring
  rw [this]
  have : 0 < (1/3) * (1 / norm n) * (1 / norm (cross n q)) * dot (cross n q) (cross n q) := by positivity
  linarith

theorem sign2 {n q : V3} (h : cross n q ≠ 0) :
    0 < dot (cross ((1/3 : ℝ) * (n + q)) (unit q)) (unit (cross n q)) := by
  have h1 := norm_pos (cross_ne_right h)
  have h2 := norm_pos h
  have h3 := dot_self_pos h
  have : dot (cross ((1/3 : ℝ) * (n + q)) (unit q)) (unit (cross n q)) =
      (1/3) * (1 / norm q) * (1 / norm (cross n q)) * dot (cross n q) (cross n q) := by
    simp only [unit_eq_smul]
    generalize (1 / norm q) = u
    generalize (1 / norm (cross n q)) = v
    simp only [dot, cross, smul_x, smul_y, smul_z, add_x, add_y, add_z]
    ring
  rw [this]; positivity

theorem dot_cross_swap (a b c : V3) : dot (cross a b) c = - dot (cross b a) c := by
  simp only [dot, cross]; ring

/-- A triangle seen from its vertex number `i`. -/
theorem tri_view (pts : List V3) (a0 a1 a2 i : Nat) (hi : i < 3) :
    ∃ c n p, [a0, a1, a2].getD i 0 = c ∧
      (otherVertices [a0, a1, a2] i = [n, p] ∨ otherVertices [a0, a1, a2] i = [p, n]) ∧
      normal3d (rpt pts a0) (rpt pts a1) (rpt pts a2) =
        unit (cross (rpt pts n - rpt pts c) (rpt pts p - rpt pts c)) ∧
      (1/3 : ℝ) * (rpt pts a0 + rpt pts a1 + rpt pts a2) - rpt pts c =
        (1/3 : ℝ) * ((rpt pts n - rpt pts c) + (rpt pts p - rpt pts c)) ∧
      (∀ v w, Edge [a0, a1, a2] v w ↔ (v = c ∧ w = n) ∨ (v = n ∧ w = p) ∨ (v = p ∧ w = c)) ∧
      (∀ v, v ∈ [a0, a1, a2] ↔ v = c ∨ v = n ∨ v = p) ∧
      ([a0, a1, a2].Nodup → c ≠ n ∧ c ≠ p ∧ n ≠ p) := by
  have hE : ∀ x y z v w : Nat, Edge [x, y, z] v w ↔ (v = x ∧ w = y) ∨ (v = y ∧ w = z) ∨ (v = z ∧ w = x) := by
    intro x y z v w
    simp only [Edge, List.getElem?_cons_zero, List.getElem?_cons_succ, Option.some.injEq]
    simp only [eq_comm]
  have hcross : ∀ u v w : V3, cross (v - u) (w - u) = cross (w - v) (u - v) := by
    intro u v w; ext <;> simp [cross] <;> ring
  match i, hi with
  | 0, _ =>
    refine ⟨a0, a1, a2, rfl, Or.inl rfl, rfl, ?_, hE _ _ _, ?_, ?_⟩
    · ext <;> simp <;> ring
    · intro v; simp
    · simp; intro h1 h2 h3; exact ⟨h1, h2, h3⟩
  | 1, _ =>
    refine ⟨a1, a2, a0, rfl, Or.inr rfl, ?_, ?_, ?_, ?_, ?_⟩
    · unfold normal3d; rw [hcross]
    · ext <;> simp <;> ring
    · intro v w; rw [hE]; grind
    · intro v; simp; grind
    · simp; intro h1 h2 h3; exact ⟨h3, fun h => h1 h.symm, fun h => h2 h.symm⟩
  | 2, _ =>
    refine ⟨a2, a0, a1, rfl, Or.inl rfl, ?_, ?_, ?_, ?_, ?_⟩
    · unfold normal3d; rw [hcross, hcross]
    · ext <;> simp <;> ring
    · intro v w; rw [hE]; grind
    · intro v; simp; grind
    · simp; intro h1 h2 h3; exact ⟨fun h => h2 h.symm, fun h => h3 h.symm, h1⟩

/-- the pair found by `commonIndex` -/
theorem commonIndex_spec (a b : Elem) (ha : a.length = 3) (hb : b.length = 3) :
    (∀ i j, commonIndex a b = some (i, j) → i < 3 ∧ j < 3 ∧ a[i]? = b[j]?) ∧
    (commonIndex a b = none → ∀ v, v ∈ a → v ∉ b) := by
  constructor
  · intro i j h
    unfold commonIndex at h
    have h1 := List.mem_of_getLast? h
    rw [List.mem_filter] at h1
    obtain ⟨h2, h3⟩ := h1
    have : i < 3 ∧ j < 3 := by
      simp only [List.mem_cons, Prod.mk.injEq, List.not_mem_nil, or_false] at h2
      omega
    exact ⟨this.1, this.2, by simpa using h3⟩
  · intro h v hva hvb
    unfold commonIndex at h
    rw [List.getLast?_eq_none_iff, List.filter_eq_nil_iff] at h
    obtain ⟨i, hi⟩ := List.mem_iff_getElem?.1 hva
    obtain ⟨j, hj⟩ := List.mem_iff_getElem?.1 hvb
    have hi3 : i < 3 := by rw [← ha]; exact (List.getElem?_eq_some_iff.1 hi).1
    have hj3 : j < 3 := by rw [← hb]; exact (List.getElem?_eq_some_iff.1 hj).1
    apply h (i, j)
    · simp only [List.mem_cons, Prod.mk.injEq, List.not_mem_nil, or_false]
      omega
    · simp [hi, hj]

/-- Different edges that leave a common corner have different directions (to within the tolerance
of the code); corners of a triangle do not coincide. -/
def NoParallel (pts : List V3) (ts : List Elem) : Prop :=
  ∀ a ∈ ts, ∀ b ∈ ts, ∀ c x y, c ∈ a → c ∈ b → x ∈ a → y ∈ b → x ≠ c → y ≠ c → x ≠ y →
    1e-14 ≤ |dot (unit (rpt pts x - rpt pts c)) (unit (rpt pts y - rpt pts c)) - 1|

/-- The triangle has three different corners that are not on a line. -/
def ProperTri (pts : List V3) (t : Elem) : Prop :=
  ∃ a b c, t = [a, b, c] ∧ [a, b, c].Nodup ∧
    cross (rpt pts b - rpt pts a) (rpt pts c - rpt pts a) ≠ 0

theorem properTri_view (pts : List V3) (t : Elem) (h : ProperTri pts t) (i : Nat) (hi : i < 3) :
    ∃ c n p a0 a1 a2, t = [a0, a1, a2] ∧ t.getD i 0 = c ∧
      (otherVertices t i = [n, p] ∨ otherVertices t i = [p, n]) ∧
      normal3d (rpt pts a0) (rpt pts a1) (rpt pts a2) =
        unit (cross (rpt pts n - rpt pts c) (rpt pts p - rpt pts c)) ∧
      (1/3 : ℝ) * (rpt pts a0 + rpt pts a1 + rpt pts a2) - rpt pts c =
        (1/3 : ℝ) * ((rpt pts n - rpt pts c) + (rpt pts p - rpt pts c)) ∧
      (∀ v w, Edge t v w ↔ (v = c ∧ w = n) ∨ (v = n ∧ w = p) ∨ (v = p ∧ w = c)) ∧
      (∀ v, v ∈ t ↔ v = c ∨ v = n ∨ v = p) ∧ c ≠ n ∧ c ≠ p ∧ n ≠ p ∧
      cross (rpt pts n - rpt pts c) (rpt pts p - rpt pts c) ≠ 0 := by
  obtain ⟨a0, a1, a2, rfl, hnd, hcr⟩ := h
  obtain ⟨c, n, p, h1, h2, h3, h4, h5, h6, h7⟩ := tri_view pts a0 a1 a2 i hi
  obtain ⟨h8, h9, h10⟩ := h7 hnd
  refine ⟨c, n, p, a0, a1, a2, rfl, h1, h2, h3, h4, h5, h6, h8, h9, h10, ?_⟩
  intro h0
  -- the normals are equal, so would be zero
  have hn : unit (cross (rpt pts a1 - rpt pts a0) (rpt pts a2 - rpt pts a0)) = unit 0 := by
    have := h3; unfold normal3d at this; rw [this, h0]
  have h11 := dot_unit_self hcr
  rw [hn] at h11
  simp [unit, dot] at h11

theorem commonEdge_cases {es fs : List V3} :
    (∀ e, commonEdge es fs = some e → ∃ f ∈ fs, e ∈ es ∧ |dot e f - 1| < 1e-14) ∧
    (commonEdge es fs = none → ∀ e ∈ es, ∀ f ∈ fs, ¬ |dot e f - 1| < 1e-14) := by
  constructor
  · intro e h
    unfold commonEdge at h
    rw [Option.map_eq_some_iff] at h
    obtain ⟨⟨e', f⟩, h1, rfl⟩ := h
    have h2 := List.mem_of_getLast? h1
    rw [List.mem_filter] at h2
    obtain ⟨h3, h4⟩ := h2
    rw [List.mem_flatMap] at h3
    obtain ⟨e2, he2, h5⟩ := h3
    obtain ⟨f2, hf2, h6⟩ := List.mem_map.1 h5
    cases h6
    exact ⟨f, hf2, he2, by simpa using h4⟩
  · intro h e he f hf hlt
    unfold commonEdge at h
    rw [Option.map_eq_none_iff, List.getLast?_eq_none_iff, List.filter_eq_nil_iff] at h
    exact h (e, f) (List.mem_flatMap.2 ⟨e, he, List.mem_map.2 ⟨f, hf, rfl⟩⟩) (by simpa using hlt)

/-- **The orientation test**, complete description. -/
theorem triOrientationEqual_spec (pts : List V3) (a b : Elem) (ha : ProperTri pts a)
    (hb : ProperTri pts b)
    (hnp : ∀ c x y, c ∈ a → c ∈ b → x ∈ a → y ∈ b → x ≠ c → y ≠ c → x ≠ y →
      1e-14 ≤ |dot (unit (rpt pts x - rpt pts c)) (unit (rpt pts y - rpt pts c)) - 1|) :
    (ShareEdge a b → ∃ r, triOrientationEqual pts a b = some r ∧
      (r = true ↔ ∀ v w, Edge a v w → ¬ Edge b v w)) ∧
    (¬ ShareEdge a b → triOrientationEqual pts a b = none) := by
  have hla : a.length = 3 := by obtain ⟨_, _, _, rfl, _⟩ := ha; rfl
  have hlb : b.length = 3 := by obtain ⟨_, _, _, rfl, _⟩ := hb; rfl
  obtain ⟨hci, hcn⟩ := commonIndex_spec a b hla hlb
  cases hc : commonIndex a b with
  | none =>
    have hdis := hcn hc
    constructor
    · intro h
      obtain ⟨v, h1, h2⟩ := shareEdge_mem h
      exact absurd h2 (hdis v h1)
    · intro _
      obtain ⟨_, _, _, rfl, _⟩ := ha
      obtain ⟨_, _, _, rfl, _⟩ := hb
      simp only [triOrientationEqual, hc]
  | some ij =>
    obtain ⟨i, j⟩ := ij
    obtain ⟨hi, hj, hij⟩ := hci i j hc
    obtain ⟨c, n, p, a0, a1, a2, hta, hca, hoa, hna, hma, hEa, hVa, d1, d2, d3, hcra⟩ :=
      properTri_view pts a ha i hi
    obtain ⟨c', n', p', b0, b1, b2, htb, hcb, hob, hnb, hmb, hEb, hVb, d1', d2', d3', hcrb⟩ :=
      properTri_view pts b hb j hj
    have hcc : c' = c := by
      rw [← hca, ← hcb, List.getD_eq_getElem?_getD, List.getD_eq_getElem?_getD, hij]
    subst hcc
    have hval : triOrientationEqual pts a b =
        (match commonEdge ((otherVertices a i).map (fun v => unit (rpt pts v - rpt pts c')))
          ((otherVertices b j).map (fun v => unit (rpt pts v - rpt pts c'))) with
        | none => none
        | some e => some (decide (dot (cross ((1/3 : ℝ) * ((rpt pts n - rpt pts c') + (rpt pts p - rpt pts c'))) e)
              (unit (cross (rpt pts n - rpt pts c') (rpt pts p - rpt pts c'))) > 0) ==
            decide (dot (cross e ((1/3 : ℝ) * ((rpt pts n' - rpt pts c') + (rpt pts p' - rpt pts c'))))
              (unit (cross (rpt pts n' - rpt pts c') (rpt pts p' - rpt pts c'))) > 0))) := by
      rw [← hna, ← hnb, ← hma, ← hmb]
      subst hta htb
      simp only [triOrientationEqual, hc, hca]
      split <;> simp_all
    have hmemo : ∀ (t : Elem) (k x y : Nat), (otherVertices t k = [x, y] ∨ otherVertices t k = [y, x]) →
        ∀ v, v ∈ otherVertices t k ↔ v = x ∨ v = y := by
      intro t k x y h v
      rcases h with h | h <;> rw [h] <;> simp [or_comm]
    have hma' := hmemo a i n p hoa
    have hmb' := hmemo b j n' p' hob
    obtain ⟨hsome, hnone⟩ := commonEdge_cases
      (es := (otherVertices a i).map (fun v => unit (rpt pts v - rpt pts c')))
      (fs := (otherVertices b j).map (fun v => unit (rpt pts v - rpt pts c')))
    have hcA : c' ∈ a := (hVa c').2 (Or.inl rfl)
    have hcB : c' ∈ b := (hVb c').2 (Or.inl rfl)
    have hne0 : ∀ v, v ∈ otherVertices a i → rpt pts v - rpt pts c' ≠ 0 := by
      intro v hv
      rcases (hma' v).1 hv with rfl | rfl
      · exact cross_ne_left hcra
      · exact cross_ne_right hcra
    cases hce : commonEdge ((otherVertices a i).map (fun v => unit (rpt pts v - rpt pts c')))
          ((otherVertices b j).map (fun v => unit (rpt pts v - rpt pts c'))) with
    | none =>
      rw [hce] at hval
      refine ⟨fun hsh => ?_, fun _ => hval⟩
      exfalso
      -- a common vertex other than c'
      obtain ⟨x, hxa, hxb, hxc⟩ : ∃ x, x ∈ a ∧ x ∈ b ∧ x ≠ c' := by
        obtain ⟨v, w, h1, h2⟩ := hsh
        have hv : v ∈ a ∧ w ∈ a := by
          rcases h1 with h | h
          · exact edge_mem h
          · exact (edge_mem h).symm
        have hw : v ∈ b ∧ w ∈ b := by
          rcases h2 with h | h
          · exact edge_mem h
          · exact (edge_mem h).symm
        by_cases hvc : v = c'
        · refine ⟨w, hv.2, hw.2, ?_⟩
          rintro rfl
          subst hvc
          rcases h1 with h | h <;> rw [hEa] at h <;> grind
        · exact ⟨v, hv.1, hw.1, hvc⟩
      have hx1 : x ∈ otherVertices a i := (hma' x).2 (by rcases (hVa x).1 hxa with h | h | h; exact absurd h hxc; exact Or.inl h; exact Or.inr h)
      have hx2 : x ∈ otherVertices b j := (hmb' x).2 (by rcases (hVb x).1 hxb with h | h | h; exact absurd h hxc; exact Or.inl h; exact Or.inr h)
      apply hnone hce _ (List.mem_map.2 ⟨x, hx1, rfl⟩) _ (List.mem_map.2 ⟨x, hx2, rfl⟩)
      rw [dot_unit_self (hne0 x hx1)]
      norm_num
    | some e =>
      rw [hce] at hval
      obtain ⟨f, hf, he, hlt⟩ := hsome e hce
      obtain ⟨x, hx, rfl⟩ := List.mem_map.1 he
      obtain ⟨y, hy, rfl⟩ := List.mem_map.1 hf
      have hx' := (hma' x).1 hx
      have hy' := (hmb' y).1 hy
      have hxa : x ∈ a := (hVa x).2 (Or.inr hx')
      have hyb : y ∈ b := (hVb y).2 (Or.inr hy')
      have hxc : x ≠ c' := by rcases hx' with h | h <;> rw [h] <;> [exact d1.symm; exact d2.symm]
      have hyc : y ≠ c' := by rcases hy' with h | h <;> rw [h] <;> [exact d1'.symm; exact d2'.symm]
      have hxy : x = y := by
        by_contra hne
        have := hnp c' x y hcA hcB hxa hyb hxc hyc hne
        linarith
      subst hxy
      have hsh : ShareEdge a b := by
        refine ⟨c', x, ?_, ?_⟩
        · rw [hEa, hEa]; rcases hx' with h | h <;> simp [h]
        · rw [hEb, hEb]; rcases hy' with h | h <;> simp [h]
      refine ⟨fun _ => ⟨_, hval, ?_⟩, fun h => absurd hsh h⟩
      have s1 := sign1 hcra
      have s2 := sign2 hcra
      have s1' := sign1 hcrb
      have s2' := sign2 hcrb
      simp only [dot_cross_swap (unit (rpt pts x - rpt pts c'))]
      rw [beq_iff_eq, decide_eq_decide]
      rcases hx' with rfl | rfl <;> rcases hy' with hx2 | hx2 <;> subst hx2
      · constructor
        · intro h; exfalso
          have := h.2 (by linarith); linarith
        · intro h
          exact absurd ((hEb c' x).2 (Or.inl ⟨rfl, rfl⟩)) (h c' x ((hEa c' x).2 (Or.inl ⟨rfl, rfl⟩)))
      · constructor
        · intro _ v w hv hw
          rw [hEa] at hv; rw [hEb] at hw
          grind
        · intro _; constructor <;> (intro h; linarith)
      · constructor
        · intro _ v w hv hw
          rw [hEa] at hv; rw [hEb] at hw
          grind
        · intro _; constructor <;> (intro h; linarith)
      · constructor
        · intro h; exfalso
          have := h.1 (by linarith); linarith
        · intro h
          exact absurd ((hEb x c').2 (Or.inr (Or.inr ⟨rfl, rfl⟩))) (h x c' ((hEa x c').2 (Or.inr (Or.inr ⟨rfl, rfl⟩))))

end Traceon
