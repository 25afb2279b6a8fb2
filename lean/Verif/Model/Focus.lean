import Verif.Model.Tracer

/-!
# Model of `traceon/focus.py`
-/
namespace Traceon

/-- One row of a system of linear equations in three unknowns, `c0*u0 + c1*u1 + c2*u2 = rhs`. [focus.py:31-39] -/
structure LinRow where
  c0 : ℝ
  c1 : ℝ
  c2 : ℝ
  rhs : ℝ

/-- The rows of the system solved in `focus_position` (focus.py:28-37), from the last rows of the trajectories. A
trajectory whose last velocity has no z component would give divisions by zero; the theorems exclude it. -/
noncomputable def focusSystem (last : List Phase) : List LinRow :=
  let angleX := fun p : Phase => p.vel.x / p.vel.z
  let angleY := fun p : Phase => p.vel.y / p.vel.z
  last.map (fun p => ⟨-angleX p, 1, 0, p.pos.x - p.pos.z * angleX p⟩) ++
  last.map (fun p => ⟨-angleY p, 0, 1, p.pos.y - p.pos.z * angleY p⟩)

/-- `focus_position` (focus.py:8-43). `lstsq` is `np.linalg.lstsq(...)[0]`; the three entries of its result are
called `z, x, y` in this order, and the function returns `[x, y, z]`. An empty trajectory raises `IndexError`. -/
noncomputable def focusPosition (lstsq : List LinRow → ℝ × ℝ × ℝ) (positions : List (List Phase)) : Option V3 := do
  let last ← positions.mapM List.getLast?
  let (z, x, y) := lstsq (focusSystem last)
  some ⟨x, y, z⟩

end Traceon
