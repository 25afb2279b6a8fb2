import Verif.Spec.Planar
import Mathlib.Tactic.Linarith
import Mathlib.Tactic.Ring
import Mathlib.Tactic.FieldSimp
import Mathlib.Tactic.LinearCombination

/-!
# Cutting a parallelogram in triangles
-/
namespace Traceon
open Spec

/-- the corner `o + a A + b B` -/
def para (o A B : ℝ × ℝ) (a b : ℝ) : ℝ × ℝ := (o.1 + a * A.1 + b * B.1, o.2 + a * A.2 + b * B.2)

/-- the same triangles as in `threeTriangles`, the extra point a fraction `t` along the first edge -/
def paraThree (o A B : ℝ × ℝ) (t : ℝ) : List Tri2 :=
  [(para o A B 0 0, para o A B t 0, para o A B 0 1), (para o A B t 0, para o A B 1 1, para o A B 0 1),
   (para o A B t 0, para o A B 1 0, para o A B 1 1)]

def paraTwo (o A B : ℝ × ℝ) : List Tri2 :=
  [(para o A B 0 0, para o A B 1 0, para o A B 1 1), (para o A B 0 0, para o A B 1 1, para o A B 0 1)]

/-- cross product of the sides -/
def paraCross (A B : ℝ × ℝ) : ℝ := A.1 * B.2 - A.2 * B.1

theorem twiceArea_para (o A B : ℝ × ℝ) (a b c d e f : ℝ) :
    twiceArea (para o A B a b, para o A B c d, para o A B e f) = ((c - a) * (f - b) - (d - b) * (e - a)) * paraCross A B := by
  simp only [twiceArea, para, paraCross]; ring

/-- the fractions of a point are determined when the sides are independent -/
theorem para_unique {o A B : ℝ × ℝ} (h : paraCross A B ≠ 0) {a b c d : ℝ} (e : para o A B a b = para o A B c d) : a = c ∧ b = d := by
  simp only [para, Prod.mk.injEq] at e
  obtain ⟨e1, e2⟩ := e
  unfold paraCross at h
  constructor
  · have : (a - c) * (A.1 * B.2 - A.2 * B.1) = 0 := by linear_combination B.2 * e1 - B.1 * e2
    rcases mul_eq_zero.1 this with h' | h'
    · linarith
    · exact absurd h' h
  · have : (b - d) * (A.1 * B.2 - A.2 * B.1) = 0 := by linear_combination A.1 * e2 - A.2 * e1
    rcases mul_eq_zero.1 this with h' | h'
    · linarith
    · exact absurd h' h

theorem inTri_para {o A B : ℝ × ℝ} {a b c d e f : ℝ} {p : ℝ × ℝ}
    (h : InTri p (para o A B a b, para o A B c d, para o A B e f)) :
    ∃ x y z : ℝ, 0 ≤ x ∧ 0 ≤ y ∧ 0 ≤ z ∧ x + y + z = 1 ∧ p = para o A B (x * a + y * c + z * e) (x * b + y * d + z * f) := by
  obtain ⟨x, y, z, hx, hy, hz, hs, h1, h2⟩ := h
  refine ⟨x, y, z, hx, hy, hz, hs, ?_⟩
  have hz' : z = 1 - x - y := by linarith
  subst hz'
  simp only [para] at h1 h2 ⊢
  ext
  · rw [h1]; ring
  · rw [h2]; ring

theorem strict_para {o A B : ℝ × ℝ} {a b c d e f : ℝ} {p : ℝ × ℝ}
    (h : StrictlyInTri p (para o A B a b, para o A B c d, para o A B e f)) :
    ∃ x y z : ℝ, 0 < x ∧ 0 < y ∧ 0 < z ∧ x + y + z = 1 ∧ p = para o A B (x * a + y * c + z * e) (x * b + y * d + z * f) := by
  obtain ⟨x, y, z, hx, hy, hz, hs, h1, h2⟩ := h
  refine ⟨x, y, z, hx, hy, hz, hs, ?_⟩
  have hz' : z = 1 - x - y := by linarith
  subst hz'
  simp only [para] at h1 h2 ⊢
  ext
  · rw [h1]; ring
  · rw [h2]; ring

theorem para_inTri {o A B : ℝ × ℝ} {a b c d e f α β x y z : ℝ} (hx : 0 ≤ x) (hy : 0 ≤ y) (hz : 0 ≤ z) (hs : x + y + z = 1)
    (h1 : α = x * a + y * c + z * e) (h2 : β = x * b + y * d + z * f) :
    InTri (para o A B α β) (para o A B a b, para o A B c d, para o A B e f) := by
  refine ⟨x, y, z, hx, hy, hz, hs, ?_, ?_⟩
  · simp only [para]; subst h1 h2; linear_combination (-o.1) * hs
  · simp only [para]; subst h1 h2; linear_combination (-o.2) * hs

structure TilesPara (ts : List Tri2) (o A B : ℝ × ℝ) : Prop where
  orient : ∀ t ∈ ts, twiceArea t < 0
  inside : ∀ t ∈ ts, ∀ p, InTri p t → ∃ a b, 0 ≤ a ∧ a ≤ 1 ∧ 0 ≤ b ∧ b ≤ 1 ∧ p = para o A B a b
  cover : ∀ a b : ℝ, 0 ≤ a → a ≤ 1 → 0 ≤ b → b ≤ 1 → ∃ t ∈ ts, InTri (para o A B a b) t
  disjoint : ts.Pairwise (fun t t' => ∀ p, ¬ (StrictlyInTri p t ∧ StrictlyInTri p t'))
  area : (ts.map twiceArea).sum = 2 * paraCross A B

theorem paraTwo_tiles {o A B : ℝ × ℝ} (h : paraCross A B < 0) : TilesPara (paraTwo o A B) o A B where
  orient := by
    intro t ht
    simp only [paraTwo, List.mem_cons, List.not_mem_nil, or_false] at ht
    rcases ht with rfl | rfl <;> rw [twiceArea_para] <;> linarith
  inside := by
    intro t ht p hp
    simp only [paraTwo, List.mem_cons, List.not_mem_nil, or_false] at ht
    rcases ht with rfl | rfl <;> obtain ⟨x, y, z, hx, hy, hz, hs, rfl⟩ := inTri_para hp <;>
      exact ⟨_, _, by linarith, by linarith, by linarith, by linarith, rfl⟩
  cover := by
    intro a b h0 h1 h2 h3
    rcases le_total b a with hab | hab
    · exact ⟨_, List.mem_cons_self, para_inTri (x := 1 - a) (y := a - b) (z := b) (by linarith) (by linarith) h2 (by ring) (by ring) (by ring)⟩
    · refine ⟨(para o A B 0 0, para o A B 1 1, para o A B 0 1), by simp [paraTwo], para_inTri (x := 1 - b) (y := a) (z := b - a) (by linarith) h0 (by linarith) (by ring) (by ring) (by ring)⟩
  disjoint := by
    simp only [paraTwo, List.pairwise_cons, List.mem_cons, List.not_mem_nil, or_false, forall_eq, List.Pairwise.nil,
      and_true, false_imp_iff, implies_true]
    rintro p ⟨h1, h2⟩
    obtain ⟨x, y, z, hx, hy, hz, hs, e1⟩ := strict_para h1
    obtain ⟨x', y', z', hx', hy', hz', hs', e2⟩ := strict_para h2
    obtain ⟨e3, e4⟩ := para_unique h.ne (e1.symm.trans e2)
    linarith
  area := by
    simp only [paraTwo, List.map_cons, List.map_nil, List.sum_cons, List.sum_nil, twiceArea_para]; ring

theorem paraThree_tiles {o A B : ℝ × ℝ} {t : ℝ} (h : paraCross A B < 0) (t0 : 0 < t) (t1 : t < 1) :
    TilesPara (paraThree o A B t) o A B where
  orient := by
    intro s hs
    simp only [paraThree, List.mem_cons, List.not_mem_nil, or_false] at hs
    rcases hs with rfl | rfl | rfl <;> rw [twiceArea_para] <;> nlinarith
  inside := by
    intro s hs p hp
    simp only [paraThree, List.mem_cons, List.not_mem_nil, or_false] at hs
    rcases hs with rfl | rfl | rfl <;> obtain ⟨x, y, z, hx, hy, hz, hs, rfl⟩ := inTri_para hp <;>
      exact ⟨_, _, by nlinarith, by nlinarith, by nlinarith, by nlinarith, rfl⟩
  cover := by
    intro a b h0 h1 h2 h3
    by_cases c1 : a ≤ t * (1 - b)
    · refine ⟨_, List.mem_cons_self, para_inTri (x := 1 - b - a / t) (y := a / t) (z := b) ?_ (by positivity) h2 (by ring) (by field_simp; ring) (by ring)⟩
      have : a / t ≤ 1 - b := by rw [div_le_iff₀ t0]; linarith
      linarith
    · push Not at c1
      by_cases c2 : a ≤ b + t * (1 - b)
      · refine ⟨_, List.mem_cons_of_mem _ List.mem_cons_self, para_inTri (x := 1 - b) (y := a - t * (1 - b)) (z := b - (a - t * (1 - b)))
          (by linarith) (by linarith) (by linarith) (by ring) (by ring) (by ring)⟩
      · push Not at c2
        have t2 : 0 < 1 - t := by linarith
        refine ⟨(para o A B t 0, para o A B 1 0, para o A B 1 1), by simp [paraThree], para_inTri (x := (1 - a) / (1 - t)) (y := 1 - b - (1 - a) / (1 - t)) (z := b)
          (div_nonneg (by linarith) t2.le) ?_ h2 (by ring) (by field_simp; ring) (by ring)⟩
        have : (1 - a) / (1 - t) ≤ 1 - b := by rw [div_le_iff₀ t2]; nlinarith
        linarith
  disjoint := by
    simp only [paraThree, List.pairwise_cons, List.mem_cons, List.not_mem_nil, or_false, forall_eq, List.Pairwise.nil,
      and_true, false_imp_iff, implies_true, forall_eq_or_imp]
    refine ⟨⟨?_, ?_⟩, ?_⟩ <;> rintro p ⟨h1, h2⟩ <;>
    · obtain ⟨x, y, z, hx, hy, hz, hs, e1⟩ := strict_para h1
      obtain ⟨x', y', z', hx', hy', hz', hs', e2⟩ := strict_para h2
      obtain ⟨e3, e4⟩ := para_unique h.ne (e1.symm.trans e2)
      nlinarith
  area := by
    simp only [paraThree, List.map_cons, List.map_nil, List.sum_cons, List.sum_nil, twiceArea_para]; ring

end Traceon
