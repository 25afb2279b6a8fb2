import Verif.Props.FieldOps

/-!
# C38 for the Python operators `a + b`, `k*a`, `a*k` and `-a` on sets of point charges
-/
namespace Traceon
open PyObj EffCharges

/-- **C38**, the operators as Python evaluates them, three dimensions: `a + b` superposes, `k*a`, `a*k` scale, `-a` negates. -/
theorem C38_operators_threeD (a b : EffCharges V3) (ha : a.Wf) (hb : b.Wf) (h : a.nquad = b.nquad) (k : ℝ) :
    (∃ c, add (eff3 a) (eff3 b) = some (eff3 c) ∧ c.Wf ∧ Spec.Superposes3D 1 1 a b c) ∧
    (∃ c, mul (num k) (eff3 a) = some (eff3 c) ∧ c.Wf ∧ Spec.Superposes3D k 0 a a c) ∧
    (∃ c, mul (eff3 a) (num k) = some (eff3 c) ∧ c.Wf ∧ Spec.Superposes3D k 0 a a c) ∧
    (∃ c, PyObj.neg (eff3 a) = some (eff3 c) ∧ c.Wf ∧ Spec.Superposes3D (-1) 0 a a c) := by
  obtain ⟨⟨c, e1, w1, s1⟩, ⟨d, e2, w2, s2⟩, ⟨n, e3, w3, s3⟩⟩ := C38_threeD a b ha hb h k
  refine ⟨⟨c, ?_, w1, s1⟩, ⟨d, ?_, w2, s2⟩, ⟨d, ?_, w2, s2⟩, ⟨n, ?_, w3, s3⟩⟩
  · simp [PyObj.add, binary, method, effMethod, e1]
  · simp [PyObj.mul, binary, method, reflected, sameClass, effMethod, e2]
  · simp [PyObj.mul, binary, method, effMethod, e2]
  · simp [PyObj.neg, e3]

/-- **C38**, the operators as Python evaluates them, radial symmetry. -/
theorem C38_operators_radial (a b : EffCharges (ℝ × ℝ)) (ha : a.Wf) (hb : b.Wf) (h : a.nquad = b.nquad) (k : ℝ) :
    (∃ c, add (eff2 a) (eff2 b) = some (eff2 c) ∧ c.Wf ∧ Spec.SuperposesRadial 1 1 a b c) ∧
    (∃ c, mul (num k) (eff2 a) = some (eff2 c) ∧ c.Wf ∧ Spec.SuperposesRadial k 0 a a c) ∧
    (∃ c, mul (eff2 a) (num k) = some (eff2 c) ∧ c.Wf ∧ Spec.SuperposesRadial k 0 a a c) ∧
    (∃ c, PyObj.neg (eff2 a) = some (eff2 c) ∧ c.Wf ∧ Spec.SuperposesRadial (-1) 0 a a c) := by
  obtain ⟨⟨c, e1, w1, s1⟩, ⟨d, e2, w2, s2⟩, ⟨n, e3, w3, s3⟩⟩ := C38_radial a b ha hb h k
  refine ⟨⟨c, ?_, w1, s1⟩, ⟨d, ?_, w2, s2⟩, ⟨d, ?_, w2, s2⟩, ⟨n, ?_, w3, s3⟩⟩
  · simp [PyObj.add, binary, method, effMethod, e1]
  · simp [PyObj.mul, binary, method, reflected, sameClass, effMethod, e2]
  · simp [PyObj.mul, binary, method, effMethod, e2]
  · simp [PyObj.neg, e3]

/-- Point charges have no `-`: `a - b` raises, although `a + (-b)` does not. -/
theorem C38_no_subtraction (a b : EffCharges V3) (c d : EffCharges (ℝ × ℝ)) :
    sub (eff3 a) (eff3 b) = none ∧ sub (eff2 c) (eff2 d) = none := by
  constructor <;> simp [PyObj.sub, binary, method, effMethod, reflected, sameClass]

/-- One triangle's worth of charges meets the hypotheses. -/
example : ∃ a : EffCharges V3, a.Wf ∧ a.len = 1 := by
  refine ⟨⟨12, [1], [List.replicate 12 1], [List.replicate 12 ⟨1, 2, 3⟩]⟩, ⟨rfl, ?_, rfl, ?_⟩, rfl⟩ <;> simp

end Traceon
