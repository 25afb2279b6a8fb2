import Verif.Model.RealGeo
import Verif.Spec.Volume
import Mathlib.Algebra.BigOperators.Group.List.Basic

/-!
# The flux sums that decide about the orientation
-/
namespace Traceon
open V3 Spec

theorem lineFluxTerm_flip (pts : List V3) (l : Elem) (h : l.length = 2 ∨ l.length = 4) :
    lineFluxTerm pts (flipLine l) = - lineFluxTerm pts l := by
  have key : ∀ a b : Nat, ∀ r r', lineFluxTerm pts (b :: a :: r) = - lineFluxTerm pts (a :: b :: r') := by
    intro a b r r'
    simp only [lineFluxTerm, List.getD_cons_zero, List.getD_cons_succ]
    have h1 : norm (rpt pts a - rpt pts b) = norm (rpt pts b - rpt pts a) := by
      unfold norm dot; congr 1; simp only [sub_x, sub_y, sub_z]; ring
    rw [h1]
    have h2 : ((rpt pts a).z - (rpt pts b).z) * ((rpt pts a).z - (rpt pts b).z) +
        -((rpt pts a).x - (rpt pts b).x) * -((rpt pts a).x - (rpt pts b).x) =
        ((rpt pts b).z - (rpt pts a).z) * ((rpt pts b).z - (rpt pts a).z) +
        -((rpt pts b).x - (rpt pts a).x) * -((rpt pts b).x - (rpt pts a).x) := by ring
    rw [h2]; ring
  match l, h with
  | [a, b], _ => exact key a b _ _
  | [a, b, c, d], _ => exact key a b _ _

theorem cross_anti (a b : V3) : cross b a = -cross a b := by
  ext <;> simp only [cross, neg_x, neg_y, neg_z] <;> ring

theorem norm_neg (a : V3) : norm (-a) = norm a := by
  unfold norm dot; simp only [neg_x, neg_y, neg_z]; congr 1; ring

theorem triFluxTerm_flip (pts : List V3) (t : Elem) (h : t.length = 3) :
    triFluxTerm pts (flipTri t) = - triFluxTerm pts t := by
  match t, h with
  | [a, b, c], _ =>
    simp only [flipTri, triFluxTerm, List.getD_cons_zero, List.getD_cons_succ]
    rw [cross_anti (rpt pts b - rpt pts a), norm_neg]
    simp only [neg_x]; ring

theorem sum_map_neg' {α : Type _} (f g : α → ℝ) (l : List α) (h : ∀ x ∈ l, g x = - f x) :
    (l.map g).sum = - (l.map f).sum := by
  induction l with
  | nil => simp
  | cons a l ih =>
    rw [List.map_cons, List.map_cons, List.sum_cons, List.sum_cons, h a (by simp),
      ih (fun x hx => h x (by simp [hx]))]; ring

theorem lineFlux_flip (pts : List V3) (ls : List Elem) (h : ∀ l ∈ ls, l.length = 2 ∨ l.length = 4) :
    lineFlux pts (ls.map flipLine) = - lineFlux pts ls := by
  unfold lineFlux
  rw [List.map_map]
  exact sum_map_neg' _ _ _ (fun l hl => lineFluxTerm_flip pts l (h l hl))

theorem triFlux_flip (pts : List V3) (ls : List Elem) (h : ∀ l ∈ ls, l.length = 3) :
    triFlux pts (ls.map flipTri) = - triFlux pts ls := by
  unfold triFlux
  rw [List.map_map]
  exact sum_map_neg' _ _ _ (fun l hl => triFluxTerm_flip pts l (h l hl))

theorem perm_swap_sum_zero {α : Type _} (es : List (α × α)) (f : α × α → ℝ)
    (hf : ∀ e, f e.swap = - f e) (h : es.Perm (es.map Prod.swap)) : (es.map f).sum = 0 := by
  have h1 := (h.map f).sum_eq
  rw [List.map_map, sum_map_neg' f (f ∘ Prod.swap) es (fun x _ => hf x)] at h1
  linarith

/-- A triangle flux term without the square roots. -/
theorem triFluxTerm_eq (pts : List V3) (t : Elem)
    (hn : cross (rpt pts (t.getD 1 0) - rpt pts (t.getD 0 0)) (rpt pts (t.getD 2 0) - rpt pts (t.getD 0 0)) ≠ 0) :
    triFluxTerm pts t = ((corner pts t 0).x + (corner pts t 1).x + (corner pts t 2).x) / 6 *
      (cross (corner pts t 1 - corner pts t 0) (corner pts t 2 - corner pts t 0)).x := by
  have := (norm_pos hn).ne'
  unfold triFluxTerm
  simp only [corner]
  unfold rpt at *
  field_simp
  ring

theorem sum_map_add' {α : Type _} (f g : α → ℝ) (l : List α) :
    (l.map (fun x => f x + g x)).sum = (l.map f).sum + (l.map g).sum := by
  induction l with
  | nil => simp
  | cons a l ih => simp only [List.map_cons, List.sum_cons, ih]; ring

theorem sum_flatMap' {α β : Type _} (g : α → List β) (f : β → ℝ) (l : List α) :
    ((l.flatMap g).map f).sum = (l.map (fun x => ((g x).map f).sum)).sum := by
  induction l with
  | nil => simp
  | cons a l ih => simp only [List.flatMap_cons, List.map_append, List.sum_append, List.map_cons, List.sum_cons, ih]

/-- For a closed surface the flux is the enclosed volume. -/
theorem triFlux_closed (pts : List V3) (ts : List Elem) (hc : ClosedSurface ts)
    (hn : ∀ t ∈ ts, cross (rpt pts (t.getD 1 0) - rpt pts (t.getD 0 0))
      (rpt pts (t.getD 2 0) - rpt pts (t.getD 0 0)) ≠ 0) :
    triFlux pts ts = signedVolume pts ts := by
  let f : Nat × Nat → ℝ := fun e =>
    ((rpt pts e.1).x + (rpt pts e.2).x) * ((rpt pts e.1).y * (rpt pts e.2).z - (rpt pts e.1).z * (rpt pts e.2).y) / 6
  have h0 : ((ts.flatMap dirEdges).map f).sum = 0 := by
    apply perm_swap_sum_zero _ _ _ hc
    intro e; simp only [f, Prod.fst_swap, Prod.snd_swap]; ring
  rw [sum_flatMap'] at h0
  have h1 : triFlux pts ts = (ts.map (fun t => det3 (corner pts t 0) (corner pts t 1) (corner pts t 2) / 6 +
      ((dirEdges t).map f).sum)).sum := by
    unfold triFlux
    congr 1
    apply List.map_congr_left
    intro t ht
    rw [triFluxTerm_eq pts t (hn t ht)]
    simp only [dirEdges, List.map_cons, List.map_nil, List.sum_cons, List.sum_nil, f, det3, dot, cross, corner, rpt,
      sub_x, sub_y, sub_z]
    ring
  rw [h1, sum_map_add', h0]
  unfold signedVolume; ring

theorem signedVolume_translate (pts : List V3) (d : V3) (ts : List Elem) (hc : ClosedSurface ts)
    (hi : ∀ t ∈ ts, ∀ k, t.getD k 0 < pts.length) :
    signedVolume (pts.map (· + d)) ts = signedVolume pts ts := by
  let q := fun e : Nat × Nat => (⟨(rpt pts e.1).y * (rpt pts e.2).z - (rpt pts e.1).z * (rpt pts e.2).y,
    (rpt pts e.1).z * (rpt pts e.2).x - (rpt pts e.1).x * (rpt pts e.2).z,
    (rpt pts e.1).x * (rpt pts e.2).y - (rpt pts e.1).y * (rpt pts e.2).x⟩ : V3)
  let f : Nat × Nat → ℝ := fun e => dot d (q e) / 6
  have h0 : ((ts.flatMap dirEdges).map f).sum = 0 := by
    apply perm_swap_sum_zero _ _ _ hc
    intro e; simp only [f, q, dot, Prod.fst_swap, Prod.snd_swap]; ring
  rw [sum_flatMap'] at h0
  have h1 : signedVolume (pts.map (· + d)) ts =
      (ts.map (fun t => det3 (corner pts t 0) (corner pts t 1) (corner pts t 2) / 6 +
      ((dirEdges t).map f).sum)).sum := by
    unfold signedVolume
    congr 1
    apply List.map_congr_left
    intro t ht
    have hck : ∀ k, corner (pts.map (· + d)) t k = corner pts t k + d := by
      intro k
      have := hi t ht k
      unfold corner
      rw [List.getElem?_map, List.getElem?_eq_getElem this]; rfl
    rw [hck, hck, hck]
    simp only [dirEdges, List.map_cons, List.map_nil, List.sum_cons, List.sum_nil, f, q, det3, dot, cross, corner, rpt,
      add_x, add_y, add_z]
    ring
  rw [h1, sum_map_add', h0]
  unfold signedVolume; ring

/-- A line flux term without square roots. -/
theorem lineFluxTerm_eq (pts : List V3) (l : Elem) (hy : (corner pts l 0).y = (corner pts l 1).y)
    (hn : ¬ ((corner pts l 0).x = (corner pts l 1).x ∧ (corner pts l 0).z = (corner pts l 1).z)) :
    lineFluxTerm pts l = ((corner pts l 0).x + (corner pts l 1).x) / 2 * ((corner pts l 1).z - (corner pts l 0).z) := by
  have hne : corner pts l 1 - corner pts l 0 ≠ 0 := by
    intro h; rw [V3.sub_eq_zero] at h; rw [h] at hn; simp at hn
  have hp := (norm_pos hne).ne'
  have hs : Real.sqrt (((corner pts l 1).z - (corner pts l 0).z) * ((corner pts l 1).z - (corner pts l 0).z) +
      -((corner pts l 1).x - (corner pts l 0).x) * -((corner pts l 1).x - (corner pts l 0).x)) =
      norm (corner pts l 1 - corner pts l 0) := by
    unfold norm dot; congr 1; simp only [sub_x, sub_y, sub_z, hy]; ring
  have : lineFluxTerm pts l = ((corner pts l 0).x + (corner pts l 1).x) / 2 *
      (((corner pts l 1).z - (corner pts l 0).z) / Real.sqrt (((corner pts l 1).z - (corner pts l 0).z) * ((corner pts l 1).z - (corner pts l 0).z) +
      -((corner pts l 1).x - (corner pts l 0).x) * -((corner pts l 1).x - (corner pts l 0).x))) *
      norm (corner pts l 1 - corner pts l 0) := rfl
  rw [this, hs]
  field_simp

theorem sum_filter_zero {α : Type _} (l : List α) (f : α → ℝ) (p : α → Bool) (h : ∀ x ∈ l, p x = false → f x = 0) :
    ((l.filter p).map f).sum = (l.map f).sum := by
  induction l with
  | nil => rfl
  | cons a l ih =>
    have ih' := ih (fun x hx => h x (by simp [hx]))
    cases hp : p a with
    | true => rw [List.filter_cons_of_pos hp]; simp only [List.map_cons, List.sum_cons, ih']
    | false =>
      rw [List.filter_cons_of_neg (by simp [hp])]
      simp only [List.map_cons, List.sum_cons, ih', h a (by simp) hp, zero_add]

/-- For a closed curve in a plane y = const the flux is the enclosed area. -/
theorem lineFlux_closed (pts : List V3) (ls : List Elem) (hc : ClosedCurve pts ls)
    (hy : ∀ l ∈ ls, (corner pts l 0).y = (corner pts l 1).y)
    (hn : ∀ l ∈ ls, ¬ ((corner pts l 0).x = (corner pts l 1).x ∧ (corner pts l 0).z = (corner pts l 1).z)) :
    lineFlux pts ls = signedArea pts ls := by
  let f : Nat → ℝ := fun v => (rpt pts v).x * (rpt pts v).z / 2
  have h0 := (hc.map f).sum_eq
  rw [sum_filter_zero _ _ _ (fun v _ hv => by
      have : (rpt pts v).x = 0 := by simpa [rpt] using hv
      simp [f, this]),
    sum_filter_zero _ _ _ (fun v _ hv => by
      have : (rpt pts v).x = 0 := by simpa [rpt] using hv
      simp [f, this]), List.map_map, List.map_map] at h0
  have h1 : lineFlux pts ls + (ls.map (f ∘ fun l => l.getD 0 0)).sum =
      signedArea pts ls + (ls.map (f ∘ fun l => l.getD 1 0)).sum := by
    unfold lineFlux signedArea
    rw [← sum_map_add', ← sum_map_add']
    congr 1
    apply List.map_congr_left
    intro l hl
    rw [lineFluxTerm_eq pts l (hy l hl) (hn l hl)]
    simp only [Function.comp, f, corner, rpt]
    ring
  linarith

/-- The order of points in exact arithmetic is an order. -/
theorem realGeo_lawful (trunc : V3 → V3) : (realGeo trunc).Lawful := by
  refine ⟨?_, ?_, ?_⟩
  · intro a b
    simp only [realGeo, V3.lexLe, decide_eq_true_eq]
    rcases lt_trichotomy a.z b.z with h | h | h
    · exact Or.inl (Or.inl h)
    · rcases lt_trichotomy a.y b.y with h' | h' | h'
      · exact Or.inl (Or.inr ⟨h, Or.inl h'⟩)
      · rcases le_total a.x b.x with h'' | h''
        · exact Or.inl (Or.inr ⟨h, Or.inr ⟨h', h''⟩⟩)
        · exact Or.inr (Or.inr ⟨h.symm, Or.inr ⟨h'.symm, h''⟩⟩)
      · exact Or.inr (Or.inr ⟨h.symm, Or.inl h'⟩)
    · exact Or.inr (Or.inl h)
  · intro a b c
    simp only [realGeo, V3.lexLe, decide_eq_true_eq]
    rintro (h1 | ⟨h1, h2 | ⟨h2, h3⟩⟩) (g1 | ⟨g1, g2 | ⟨g2, g3⟩⟩)
    · exact Or.inl (h1.trans g1)
    · exact Or.inl (by rw [← g1]; exact h1)
    · exact Or.inl (by rw [← g1]; exact h1)
    · exact Or.inl (by rw [h1]; exact g1)
    · exact Or.inr ⟨h1.trans g1, Or.inl (h2.trans g2)⟩
    · exact Or.inr ⟨h1.trans g1, Or.inl (by rw [← g2]; exact h2)⟩
    · exact Or.inl (by rw [h1]; exact g1)
    · exact Or.inr ⟨h1.trans g1, Or.inl (by rw [h2]; exact g2)⟩
    · exact Or.inr ⟨h1.trans g1, Or.inr ⟨h2.trans g2, h3.trans g3⟩⟩
  · intro a b
    simp only [realGeo, V3.lexLe, decide_eq_true_eq]
    constructor
    · rintro rfl; simp
    · rintro ⟨h1 | ⟨h1, h2 | ⟨h2, h3⟩⟩, g1 | ⟨g1, g2 | ⟨g2, g3⟩⟩⟩
      all_goals first | (exfalso; linarith) | exact V3.ext (le_antisymm h3 g3) h2 h1

end Traceon
