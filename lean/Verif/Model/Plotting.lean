import Verif.Model.SolveField
import Verif.Model.RealGeo

/-!
# Model of `traceon.plotting`

What is handed to the plotting library vedo is recorded as a list of `Shape`s; what vedo does with these is not modelled. Line widths are left out. Calls that raise leave the figure as it is (in the code
a mesh with an index out of range may leave its triangles in the figure although the call raises).
-/
namespace Traceon.Plotting
open Traceon

/-- An object given to vedo. [plotting.py:40-230] -/
inductive Shape where
  /-- `vedo.Mesh` of triangles with a colour and possibly an entry in the legend -/
  | triangles (ts : List Tri3) (colour : String) (legend : Option String)
  /-- `vedo.Lines` with a colour and possibly an entry in the legend -/
  | lines (ls : List (V3 × V3)) (colour : String) (legend : Option String)
  /-- `vedo.shapes.Arrows` -/
  | arrows (as : List (V3 × V3))
  /-- `vedo.Grid`: rows of vertices with the values attached to them -/
  | grid (vs : List (List (V3 × Option ℝ))) (colourMap : String)
  /-- `grid.isolines(n)` -/
  | isolines (vs : List (List (V3 × Option ℝ))) (n : Nat) (colour : String)
  /-- `vedo.Mesh` with one value per triangle, which is coloured on the scale from `lo` to `hi` -/
  | chargedTriangles (ts : List (Tri3 × ℝ)) (lo hi : ℝ) (colourMap : String)
  /-- `vedo.Lines` with one value per line (the code repeats it for both ends), which is coloured on the scale from `lo` to `hi` -/
  | chargedLines (ls : List ((V3 × V3) × ℝ)) (lo hi : ℝ) (colourMap : String)

/-- plotting.py:23-28, `Figure` -/
structure Figure where
  showLegend : Bool := true
  is2d : Bool := true
  legendEntries : List Shape := []
  /-- `to_plot`, a list of objects and lists of objects -/
  toPlot : List (List Shape) := []

/-- plotting.py:252-260, `_create_point_to_physical_dict`, one dictionary of groups. A dictionary with points as keys is modelled by its lookup function; later assignments overwrite earlier ones. -/
def assignPoints (groups : Dict (List Nat)) (elements : List Elem) (d : Nat → Option String) : Option (Nat → Option String) :=
  groups.foldlM (fun d kv => kv.2.foldlM (fun d i => (elements[i]?).map fun e => e.foldl (fun d p => Function.update d p (some kv.1)) d) d) d

/-- plotting.py:252-260, `_create_point_to_physical_dict` -/
def pointToPhysical (m : Mesh V3) : Option (Nat → Option String) :=
  (assignPoints m.physLines m.lines fun _ => none).bind (assignPoints m.physTris m.triangles)

/-- plotting.py:269-273 and 365-368: the colour of an element with the given points. `default` is its colour if its points do not all have the same name, or no colour was given for the name. -/
def elementColour (colours : Dict String) (default : String) (d : Nat → Option String) (e : List Nat) : String :=
  match e.map d with
  | some n :: rest => if rest.all (· == some n) then (colours.get n).getD default else default
  | _ => default

/-- plotting.py:266, 273: `colors` is a numpy array made by `np.full(n, '#CCCCCC')`, whose entries hold seven characters; what is assigned is cut off. -/
def cut7 (s : String) : String := String.ofList (s.toList.take 7)

/-- plotting.py:282-284 and 387-389: the entry in the legend is the first name with the colour. -/
def legendOf (colours : Dict String) (c : String) : Option String := (colours.find? fun kc => c == kc.2).map (·.1)

/-- plotting.py:262-288, the triangles. `order` is the order in which Python iterates over a set of strings. -/
def drawTriangles (order : List String → List String) (m : Mesh V3) (colours : Dict String) : Option (List Shape) := do
  let d ← pointToPhysical m
  let tris := m.triangles.map (·.take 3)
  let verts ← tris.mapM (triVerts m.points)
  let cs := tris.map fun t => cut7 (elementColour colours "#CCCCCC" d t)
  return (order cs).map fun c => .triangles (compress (cs.map (· == c)) verts) c (legendOf colours c)

/-- plotting.py:290-297, the arrow for the normal of a triangle. -/
noncomputable def triangleArrow (t : Tri3) : V3 × V3 :=
  let middle : V3 := (1 / 3 : ℝ) * (t.v0 + t.v1 + t.v2)
  let area := 1 / 2 * V3.norm (V3.cross (t.v1 - t.v0) (t.v2 - t.v0))
  let side := Real.sqrt (4 * area / Real.sqrt 3)
  (middle, middle + (0.75 * side) * normal3d t.v0 t.v1 t.v2)

/-- plotting.py:262-264, 290-299, the normals of the triangles -/
noncomputable def drawTriangleNormals (m : Mesh V3) : Option Shape := do
  let verts ← (m.triangles.map (·.take 3)).mapM (triVerts m.points)
  return .arrows (verts.map triangleArrow)

/-- The two ends of a line (plotting.py:353, 370). -/
def lineEnds (pts : List V3) (e : Elem) : Option (V3 × V3) :=
  match e.take 2 with
  | [a, b] => do return (← pts[a]?, ← pts[b]?)
  | _ => none

/-- plotting.py:352-391, the lines. The colours are in an array of objects and are not cut off. (The default colour has one C less than that for triangles.) -/
def drawLines (order : List String → List String) (m : Mesh V3) (colours : Dict String) : Option (List Shape) := do
  let d ← pointToPhysical m
  let ends ← m.lines.mapM (lineEnds m.points)
  let cs := m.lines.map fun l => elementColour colours "#CCCCC" d (l.take 2)
  return (order cs).map fun c => .lines (compress (cs.map (· == c)) ends) c (legendOf colours c)

/-- plotting.py:375-376, 393-397, the arrow for the normal of a line. -/
noncomputable def lineArrow (l : V3 × V3) : V3 × V3 :=
  let n := normal2d (l.1.x, l.1.z) (l.2.x, l.2.z)
  let middle : V3 := (1 / 2 : ℝ) * (l.1 + l.2)
  (middle, middle + (3 * V3.norm (l.2 - l.1)) * (⟨n.1, 0, n.2⟩ : V3))

/-- plotting.py:375-376, 391-399, the normals of the lines -/
noncomputable def drawLineNormals (m : Mesh V3) : Option Shape := do
  let ends ← m.lines.mapM (lineEnds m.points)
  return .arrows (ends.map lineArrow)

/-- plotting.py:30-63, `Figure.plot_mesh` -/
noncomputable def Figure.plotMesh (order : List String → List String) (m : Mesh V3) (showNormals : Bool) (colours : Dict String) (f : Figure) : Option Figure := do
  if m.triangles = [] ∧ m.lines = [] then none else
  let ts ← if m.triangles = [] then some none else (drawTriangles order m colours).map some
  let tn ← if m.triangles = [] then some none else (drawTriangleNormals m).map some
  let ls ← if m.lines = [] then some none else (drawLines order m colours).map some
  let ln ← if m.lines = [] then some none else (drawLineNormals m).map some
  return { f with
    legendEntries := f.legendEntries ++ ts.getD [] ++ ls.getD []
    toPlot := f.toPlot ++ ts.toList ++ ls.toList ++ if showNormals then tn.toList.map (fun a => [a]) ++ ln.toList.map (fun a => [a]) else []
    is2d := f.is2d && m.is2d realThirds }

/-- plotting.py:240-250, `_get_vedo_grid`: `vedo.Grid` has a vertex for every pair of coordinates, the code moves it to the point of the surface and attaches the potential. `potential p = none`: the call
raises. `N ≥ 2` for each direction. -/
noncomputable def getGrid (potential : V3 → Option ℝ) (surface : ℝ → ℝ → V3) (length1 length2 : ℝ) (N0 N1 : Nat) : Option (List (List (V3 × Option ℝ))) :=
  let xs := (List.range N0).map fun (i : Nat) => length1 * (i / (N0 - 1 : ℝ))
  let ys := (List.range N1).map fun (j : Nat) => length2 * (j / (N1 - 1 : ℝ))
  ys.mapM fun y => xs.mapM fun x => (potential (surface x y)).map fun v => (surface x y, some v)

/-- plotting.py:65-90, `Figure.plot_equipotential_lines` -/
noncomputable def Figure.plotEquipotentialLines (potential : V3 → Option ℝ) (surface : ℝ → ℝ → V3) (length1 length2 : ℝ) (N0 N1 : Nat) (colourMap : String) (n : Nat) (colour : String) (f : Figure) : Option Figure := do
  let g ← getGrid potential surface length1 length2 N0 N1
  return { f with toPlot := f.toPlot ++ [[.grid g colourMap], [.isolines g n colour]] }

/-- The optional bounds `xmin, xmax, …` of `plot_trajectories`. [plotting.py:92-110] -/
structure Limits where
  xmin : Option ℝ := none
  xmax : Option ℝ := none
  ymin : Option ℝ := none
  ymax : Option ℝ := none
  zmin : Option ℝ := none
  zmax : Option ℝ := none

open Classical in
/-- plotting.py:119-132, one entry of `mask` -/
noncomputable def Limits.mask (b : Limits) (p : V3) : Bool :=
  let a := true
  let a := match b.xmin with | some v => a && decide (p.x ≥ v) | none => a
  let a := match b.xmax with | some v => a && decide (p.x ≤ v) | none => a
  let a := match b.ymin with | some v => a && decide (p.y ≥ v) | none => a
  let a := match b.ymax with | some v => a && decide (p.y ≤ v) | none => a
  let a := match b.zmin with | some v => a && decide (p.z ≥ v) | none => a
  let a := match b.zmax with | some v => a && decide (p.z ≤ v) | none => a
  a

/-- plotting.py:114-139, the loop over the trajectories; of each point only the position is used. -/
noncomputable def Figure.plotTrajectories (ts : List (List V3)) (b : Limits) (colour : String) (f : Figure) : Figure :=
  ts.foldl (fun f t =>
    if t = [] then f else
    let t := compress (t.map b.mask) t
    if t = [] then f else
    { f with toPlot := f.toPlot ++ [[.lines (t.dropLast.zip t.tail) colour none]] }) f

/-- `np.min`, `np.max` (raise for an empty array). [plotting.py:311, 336] -/
noncomputable def minMax (cs : List ℝ) : Option (ℝ × ℝ) :=
  match cs with
  | [] => none
  | c :: cs => some (cs.foldl min c, cs.foldl max c)

/-- plotting.py:304-309 and 328-333: the elements, names and charges that are shown. -/
def shownCharges (x : Excitation ℝ V3) (elec mag : List ℝ) : Option ((List (List V3) × Dict (List Nat)) × List ℝ) :=
  if x.isElectrostatic then (x.activeElements .electrostatic).map fun a => (a, elec) else (x.activeElements .magnetostatic).map fun a => (a, mag)

/-- plotting.py:302-325, `_get_vedo_charge_density_3d`. The array of vertices has to have three points per element, otherwise `np.reshape` raises; for elements with four points (lines of higher order) the
first three are used. -/
noncomputable def chargeDensity3d (x : Excitation ℝ V3) (elec mag : List ℝ) (colourMap : String) : Option (List Shape) := do
  let ((verts, names), charges) ← shownCharges x elec mag
  let (lo, hi) ← minMax charges
  names.mapM fun ni => do
    let vs ← gather verts ni.2
    let ts ← vs.mapM fun v => match v.take 3 with | [a, b, c] => some (⟨a, b, c⟩ : Tri3) | _ => none
    let cs ← gather charges ni.2
    return .chargedTriangles (ts.zip cs) lo hi colourMap

/-- plotting.py:327-349, `_get_vedo_charge_density_2d` -/
noncomputable def chargeDensity2d (x : Excitation ℝ V3) (elec mag : List ℝ) (colourMap : String) : Option (List Shape) := do
  let ((verts, names), charges) ← shownCharges x elec mag
  if verts.length ≠ charges.length then none else
  let (lo, hi) ← minMax charges
  names.mapM fun ni => do
    let vs ← gather verts ni.2
    let ls ← vs.mapM fun v => match v with | a :: b :: _ => some (a, b) | _ => none
    let cs ← gather charges ni.2
    return .chargedLines (ls.zip cs) lo hi colourMap

/-- plotting.py:141-166, `Figure.plot_charge_density`; `elec` and `mag` are the charges of the field's two sets of point charges. -/
noncomputable def Figure.plotChargeDensity (x : Excitation ℝ V3) (elec mag : List ℝ) (colourMap : String) (f : Figure) : Option Figure := do
  if x.mesh.triangles = [] ∧ x.mesh.lines = [] then none else
  let ts ← if x.mesh.triangles = [] then some none else (chargeDensity3d x elec mag colourMap).map some
  let ls ← if x.mesh.lines = [] then some none else (chargeDensity2d x elec mag colourMap).map some
  return { f with toPlot := f.toPlot ++ ts.toList ++ ls.toList, is2d := f.is2d && x.mesh.is2d realThirds }

/-- A call of one of the four methods of `Figure` that draw, with its arguments (plotting.py:30, 65, 92, 141). -/
inductive Cmd where
  | mesh (m : Mesh V3) (showNormals : Bool) (colours : Dict String)
  | equipotentialLines (potential : V3 → Option ℝ) (surface : ℝ → ℝ → V3) (length1 length2 : ℝ) (N0 N1 : Nat) (colourMap : String) (n : Nat) (colour : String)
  | trajectories (ts : List (List V3)) (b : Limits) (colour : String)
  | chargeDensity (x : Excitation ℝ V3) (elec mag : List ℝ) (colourMap : String)

/-- The call of a method of `Figure` (plotting.py:30, 65, 92, 141); `none`: it raises. -/
noncomputable def Figure.run (order : List String → List String) (f : Figure) : Cmd → Option Figure
  | .mesh m sn cs => f.plotMesh order m sn cs
  | .equipotentialLines p s l1 l2 N0 N1 cm n c => f.plotEquipotentialLines p s l1 l2 N0 N1 cm n c
  | .trajectories ts b c => some (f.plotTrajectories ts b c)
  | .chargeDensity x e m cm => f.plotChargeDensity x e m cm

/-- plotting.py:168-185, `Figure.show`: what is in the window: the objects, the legend, and whether axes for two dimensions are shown. -/
structure Window where
  objects : List Shape
  legend : Option (List Shape)
  axes2d : Bool

/-- plotting.py:168-185, `Figure.show` -/
def Figure.show (f : Figure) : Window := ⟨f.toPlot.flatten, if f.showLegend then some f.legendEntries else none, f.is2d⟩

/-- The state of the module: plotting.py:21, `_current_figures`, and the windows that have been opened. -/
structure State where
  figures : List Figure := []
  windows : List Window := []

/-- plotting.py:187-201, `new_figure` -/
def State.newFigure (showLegend : Bool) (s : State) : State := { s with figures := s.figures ++ [{ showLegend := showLegend }] }

/-- plotting.py:203-213, `get_current_figure` makes sure that there is a figure. -/
def State.ensure (s : State) : State := if s.figures.length = 0 then s.newFigure true else s

/-- plotting.py:215-229, `plot_mesh`, `plot_charge_density`, `plot_equipotential_lines`, `plot_trajectories`: the method is called on the last figure (which the list refers to). If the method raises, the
caller is assumed to catch this. -/
noncomputable def State.plot (order : List String → List String) (c : Cmd) (s : State) : State :=
  let s := s.ensure
  match s.figures.getLast? with
  | some f => match f.run order c with
    | some f' => { s with figures := s.figures.dropLast ++ [f'] }
    | none => s
  | none => s

/-- plotting.py:231-238, `show` -/
def State.show (s : State) : State := { figures := [], windows := s.windows ++ s.figures.map Figure.show }

/-- A call of a function of the module. [plotting.py:187-238] -/
inductive Call where
  | newFigure (showLegend : Bool)
  | plot (c : Cmd)
  | show

/-- plotting.py:187-238, a call of a function of the module -/
noncomputable def State.call (order : List String → List String) (s : State) : Call → State
  | .newFigure b => s.newFigure b
  | .plot c => s.plot order c
  | .show => s.show

/-- A sequence of calls [user code, calling plotting.py:187-238] -/
noncomputable def State.calls (order : List String → List String) (s : State) (cs : List Call) : State := cs.foldl (fun s c => s.call order c) s

end Traceon.Plotting
