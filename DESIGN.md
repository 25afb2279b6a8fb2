# A Lean 4 model of Traceon, and what is proved about it

The code base is `leon-vv/Traceon` (Python with a C back end) in `/repo`.
Nothing is executed; the model is written by reading the source, and every
definition carries a comment `-- models /repo/traceon/<file>:<lines>`.

## Layout

* `lean/Verif/Model/*.lean`  – the model, function by function.
* `lean/Verif/Spec/*.lean`   – small independent specifications (what the English
  property means), not using helpers of the model.
* `lean/Verif/Lemmas/*.lean` – helper lemmas.
* `lean/Verif/Props/*.lean`  – the property theorems `Cnn_…`, each followed by an
  `example` showing that a concrete non-trivial case meets the hypotheses, and the
  refutations (`Cnn_…_fails`) where the code violates the English claim.
* `properties.jsonl`, `MANIFEST.json`, `seeded/LOG.jsonl` – claims, status, mutation log.

## Trusted base

* Lean's kernel (4.33.0), and the axioms `propext`, `Classical.choice`, `Quot.sound`
  only (checked by `#print axioms`/vcheck). No own axioms, no compiled evaluation.
* The reading of the Python/C source into the model.
* Conventions used everywhere:
  - Python exceptions (assert, IndexError, TypeError, …) are values: `Except`/`Option`.
  - numpy index arrays are `List Nat`; dictionaries are association lists in insertion
    order, with update-in-place semantics like CPython's.
  - coordinates: for de-duplication they are IEEE bit patterns (`BitVec 64`) because the
    code clears bits; everywhere else they are real numbers. **Floating point rounding,
    overflow and NaN are not modelled**, except NaN in the tracer (C102) and rounding in the
    potentials and fields of point charges (C106).
  - A Python thread is a step of a schedule; the model of `split_collect` quantifies
    over all completion orders. C36 interleaves single loads and stores to
    matrix cells; other data races inside C code and the GIL are not modelled.
  - `scipy`, `numpy.linalg.solve`, `meshio`, `vedo`, gmsh are external. They appear as
    parameters, with the assumption used stated in the theorem.
* Of plotting.py, what is handed to vedo is modelled, and not what vedo does with it (nor line
  widths). Not modelled at all: the loading of the
  compiled back end, performance. Memory safety is C105: which numbers the C code uses is
  modelled, lifetimes of arrays and overflow of `int` counters are not.

### Which code is modelled where

| module of `lean/Verif/Model` | code in `/repo/traceon` |
|------|------|
| Basic, Mesh, Bits | mesher.py: `GeometricObject`, `Mesh` (constructor, de-duplication, degenerate triangles, `+`, `extract_physical_group`, `flip_normals`, connected elements, re-orientation, meshio) |
| IntGeo, RealGeo, Vec | the geometric predicates used by the orientation code (`triangle_orientation_is_equal`, flux sums), over ℤ for evaluated witnesses and over ℝ for the theorems |
| HigherOrder | mesher.py `_lines_to_higher_order`, utilities_2d.c `higher_order_normal_radial`, `position_and_jacobian_radial` |
| Path, Surface, Collections | geometry.py: `Path`, `Surface`, collections, all constructors and transforms |
| SurfaceMesh, SurfaceMeshReal | mesher.py: `PointStack`, `_subdivide_quads`, `_mesh`, `_copy_over_edge`, `to_triangles` |
| Excitation, Solve, Threads | excitation.py, solver.py (right hand side, superposition, matrix chunks), util.py `split_collect` |
| Charges, FieldObj, Coil, Axial, Spline | solver.py (effective charges, field classes), interpolation.py, radial.c, radial_ring.c, three_d.c, three_d_point.c (potentials, fields, axial derivatives) |
| Tracer, TracerNaN, Focus, Logging | tracing.py, tracing.c, focus.py, logging.py |
| GetTracer | `get_tracer` of the field classes (solver.py, interpolation.py), `Tracer*.__call__` (tracing.py 149-178) |
| Kronrod, Triangle, Matrix3D | kronrod.c, triangle.c, tracing.c `fill_matrix_3d` |
| MatrixRadial, ElementCharge | radial.c `fill_matrix_radial` and self terms, solver.py `get_matrix`, `area_of_element(s)`, `charge_on_element(s)` |
| GroupCharge | solver.py:633-646 `charge_on_elements` on fields, with the names of `get_electrostatic_active_elements` (excitation.py:291-304) |
| Irregular | geometry.py 84-146 `from_irregular_function`, `spline_through_points`, `average`, 527-546 `ellipse` |
| Axial3D | three_d.c 90-297 `axial_coefficients_3d`, `potential_3d_derivs`, `field_3d_derivs`; tracing.c `field_3d_derivs_traceable`; solver.py/interpolation.py callers |
| Plotting | plotting.py |
| Memory | the array accesses of radial.c, radial_ring.c, three_d.c, tracing.c, utilities_2d.c and the checks of their wrappers in backend/__init__.py |
| Rounding | three_d.c `potential_3d`, `field_3d`, three_d_point.c, radial.c `current_potential_axial`, `potential_radial`, radial_ring.c `potential_radial_ring`, elliptic.c `ellipkm1` with rounded operations |
| Saveable | util.py 12-30 |
| Printing | `__str__` of `Mesh`, `Excitation`, `ExcitationType`, `FieldBEM` |
| SolveField | solver.py 67-337, 397-403, 435-464: constructors of the solvers, `get_matrix`, `solve_matrix`, `charges_to_field`, `solve_direct` |
| SuperpositionField | solver.py 188-208, 405-433: `solve_matrix` with several right hand sides, `solve_direct_superposition` down to the field objects |

## Plan per property

| id | what is modelled | how it is proved |
|----|------------------|------------------|
| C01 | `Mesh.__init__` (drop degenerate triangles, deduplicate, assertions) | invariant of each phase; constructor never returns the error value |
| C02 | `_deduplicate_points` on bit patterns, lexsort as a stable sort of indices | the position map of the sort + run starts; induction on the sorted list |
| C03 | idem | pairwise distinct keys of run representatives |
| C04 | `_remove_degenerate_triangles` (mask, cumulative sum renumbering) | rank lemma `filter`/`cumsum` by induction |
| C05 | `Mesh.__add__`, `_merge_dicts`, `_concat_arrays` | refinement to "list of corner coordinates per name" |
| C06 | `_get_connected_elements`, `_compute_vertex_to_indices` | loop invariant of the work list; components = equivalence classes of the reflexive transitive closure |
| C07 | `_reorient_lines` and helpers | loop invariant against an arbitrary consistent orientation |
| C08 | `_ensure_*_orientation`, flux sums over ℝ | antisymmetry of the flux under reversal, translation invariance for closed surfaces |
| C09 | `triangle_orientation_is_equal` over ℝ | case analysis over the shared corner and sign identities of cross products |
| C10 | `extract_physical_group` | rank lemma; refutation for names used twice |
| C11 | `flip_normals` then the constructor | proved for meshes without named groups; refuted for named groups |
| C12 | `_lines_to_higher_order`, `position_and_jacobian_radial` | list lemma + `ring` |
| C13 | inward orientation, then upgrade | refutation with a concrete square; positive when no upgrade is needed |
| C14 | `to_meshio`/`from_meshio` | round trip for unnamed normalised meshes; refutation for names |
| C15 | `discretize_path` over ℝ | induction over breakpoints |
| C16 | `Path.mesh` index computation | arithmetic on sample counts |
| C17 | `PointStack` | invariant over all operation sequences |
| C18 | `_subdivide_quads` | refutation (hole) by a concrete history; area/tiling invariant for the cases where the split direction has unit width; surfaces without bulges (`Spec.Tame`); refutation for a bulging contour and a constant mesh size |
| C19 | `_mesh`'s section bookkeeping, `_sections` | index arithmetic; refutation for 2×2 sections |
| C20 | `to_triangles` | signed area + point-in-triangle case analysis |
| C21–C24 | `Path` as (function, length, breakpoints) | real arithmetic, `toIcoMod`-like modulus |
| C25–C30 | lines, arcs, transforms, revolve, extrude, box over ℝ | trigonometric identities, `ring`, refutations by points |
| C31 | collections operators | object semantics of `+`, `+=` |
| C32 | `Excitation` as a state machine | invariant over all call sequences |
| C33 | `_get_active_elements` | rank lemma |
| C34 | `Solver.__init__`, right hand side | fold lemma over the dictionary |
| C35 | `_split_for_superposition`, `solve_direct_superposition` with an abstract matrix (Model/Solve.lean) and down to the returned fields (Model/SuperpositionField.lean) | the same matrix for all unit excitations; linearity (C84) iterated over the names; refutations for magnetostatic potentials, currents, zero voltages by evaluation |
| C36 | `get_matrix` chunking + C loops | every row in exactly one chunk; in radial symmetry the exact set of rows computed (the first 2 (n - T) when chunks of one row occur); refutation for chunks of one row |
| C37 | `split_collect` with an arbitrary schedule | permutation of writes to distinct slots |
| C38–C40 | `EffectivePointCharges`, `FieldBEM` operators, dispatch | finite sums; error values |
| C41 | `get_current_charges` | finite sums |
| C42 | `flux_density_to_charge_factor` | field arithmetic |
| C43 | `potential_3d`, `field_3d` | `HasDerivAt` of finite sums |
| C44, C45 | force and RKF45 step | algebra |
| C46 | `trace_particle` loop (fuel) | loop invariant |
| C47 | `trace_particle_wrapper` | induction on the number of blocks |
| C48 | traceable field functions and bounds | case analysis; refutations |
| C49 | `plane_intersection` | induction over the trajectory |
| C50 | velocity helpers | algebra with `Real.sqrt` |
| C51 | ring recurrences | induction on `n` with iterated derivatives |
| C52 | radial series | `HasDerivAt` of polynomials |
| C53 | index computation | floor arithmetic; refutation at the last sample |
| C54 | curved elements | polynomial identities |
| C55 | frames and integrands | inner products; derivative of the antiderivative; accuracy: Legendre expansion (and, for the flux, its cube) is a polynomial in the position, C56_accuracy |
| C56 | adaptive quadrature work list (fuel) | loop invariant; accuracy: Chebyshev coefficients of a bounded polynomial and exact rational errors of the tabulated rule |
| C57 | `focus_position` | linear algebra over lists |
| C58 | radial field wrappers | rotation algebra |
| C59 | `fill_matrix_3d` rows | case analysis on element pairs |
| C60 | logging levels | case analysis |
| C61 | `map_points` | corollary of the constructor theorems |
| C62 | clearing of low mantissa bits on `BitVec 64` | bit-vector lemmas, idempotence |
| C63 | `_reorient_triangles` | loop invariant as in C07, with the orientation test of C09; refuted for pieces touching in a corner |
| C64 | rectangle, disk, sphere constructors | explicit parametrisation, image of the rectangle of parameters |
| C65 | `extrude_boundary`, `revolve_boundary` etc. (caps) | the boundary of the surface collection, per axis; refuted for y |
| C66 | the refinement loop | a measure: quads only shrink, bounded by mesh size |
| C67 | the whole `_mesh` pipeline | composition of C17–C20; every extruded, revolved, spanned, disc, box, sphere and (thin) torus surface with a constant mesh size; refutation for a bulging contour |
| C68 | `potential_radial_ring`, `dr1_…`, `dz1_…` | integral over the ring, elliptic integral identities, differentiation under the integral |
| C69 | `current_potential_axial…`, current field | same, for the vector field of Biot–Savart |
| C70 | the RKF45 tableau | Butcher's order conditions for every tree (evaluated in ℚ by the kernel), exactness on linear systems |
| C71 | the evaluation of spline coefficients | continuity at the knots from the interpolation property of scipy |
| C72 | `fill_matrix_radial`, the diagonal, magnetostatic right hand side | sums over threads from C36; the singular integrals from a decomposition continuous + log × continuous |
| C73 | `area_of_element`, `charge_on_elements`, `charge_radial`, `triangle_areas` | direct; limits of sums at infinity; curved elements: the speed expanded to a polynomial of degree 31 |
| C74 | `from_irregular_function`, `spline_through_points`, `ellipse`, `average`; `CubicSpline` by a contract, met by Lagrange interpolation | intermediate value theorem; exact integrals |
| C75 | `ellipkm1`, `ellipem1`, `ellipk`, `ellipe` and the ring routines that use them | the differential equation of K has a maximum principle: a reference approximation of degree 13, whose residual is bounded by interval certificates over integers (`decide +kernel`), is within 2e-14 of K; the code's polynomials are compared with it; limits at p → 0 by dominated convergence |
| C76 | the tables `GAUSS_QUAD_*`, `QUAD_*`, the buffers made from them, `potential_3d`, `field_3d`, the far test of `fill_matrix_3d` | moments computed exactly in rational arithmetic; Taylor's theorem for smooth functions on a line element; for a distant triangle the Legendre/Gegenbauer expansion of 1/r and 1/r³ to degree 6, whose remainder is bounded by a differential inequality; the far test is refuted for long triangles |
| C77 | `axial_coefficients_3d` with its two tables, `potential_3d_derivs`, `field_3d_derivs`, `field_3d_derivs_traceable` | the table entries rewritten as polynomials in the sine of the angle under which the charge is seen (32 identities); even derivatives of powers of the distance computed symbolically; the sum of all terms of degree below 8 is the Legendre expansion, remainder by a differential inequality, terms of degree 8 to 13 bounded by Bernstein certificates; gradient by real and imaginary parts of (x+iy)^m |
| C78 | the whole tracer (`trace_particle`, the wrapper, the forces of the 3D and radial tracers) as a one-step method | the one-step map and the exact flow expanded over rooted trees to order five (C70 gives equal weights), remainder by Taylor's theorem on a tube around the trajectory; stability and a discrete Gronwall argument over all steps; smoothness of the fields off charges, rings and coils |
| C79 | the loop of `trace_particle` and of the wrapper, with the step control; the forces | the error estimate is at most D h² for bounded forces, so trial steps shrink geometrically until accepted and never below a positive length; the weights of Fehlberg's method and their products with the coefficients are non-negative, so each step does at least as well as a uniform deceleration, and energy along n is not lost; induction on the time left in the box |
| C80 | `solve_direct` from the calls that build the excitation to the field object (composition of the models of C32, C36, C59, C72, C12, C39) | characterisation of the vertex, type and value arrays of the solver by the loop over the names; rows of the matrix from C59 and C72; refutation of the combination in 3D from the missing addition of 3D fields; `Spec/FewLines.lean` states what is solved when a thread gets one row |
| C81 | two runs of the model of `solve_direct` of C80, on problems related by a motion and a bijection of the excited triangles (`Spec/Rigid.lean`) | the coordinates of a triangle used by the integration routines are invariant; matrices are equal up to the renumbering (linear systems reindexed by a bijection); refutation for meshes in the plane y = 0 by the upgrade to higher order |
| C82 | `line_to`, `arc_to`, `close`, `middle_point` (Model/Path.lean) | from C21, C22, C25 |
| C83 | `remove_lines`, `remove_triangles` (Model/Mesh.lean) | from the relation of a constructed mesh to its input (Lemmas/Shape.lean); a counterexample by evaluation |
| C84 | `solve_direct` (Model/SolveField.lean), all symmetries | the matrix entries depend only on kinds and material constants, the right hand side is linear in the excitation, the linear system has one solution; lifted through charges, coils and dictionary of fields (Props/Linear*.lean) |
| C85 | tracers of Model/Tracer.lean with the fields of Model/Field*.lean | the energy is constant along exact solutions because the field is minus the gradient of the potential (C43) and the magnetic force is orthogonal to the velocity; C78 and a Lipschitz bound of the energy near the compact trajectory give the drift of the rows (Props/Energy*.lean); Picard–Lindelöf shows that the hypotheses are met in every field |
| C86 | Model/SolveField.lean, MatrixRadial.lean, Charges.lean | potentials of rings are homogeneous of degree 0 and their derivatives of degree -1; rows of the matrix for voltages scale with k and rows for materials with 1, so all charges scale with 1/k (linSolve_scaled); a line in the other direction has the same quadrature sums because the rule is symmetric; a reflection changes the sign of the derivative in z, and of the radial component of the field of a coil, of the normal of a line unless it is turned (Props/Similar*.lean). A problem with a plane of symmetry is its own mirror image (Props/Similar8.lean) |
| C87 | Model/GroupCharge.lean | the names returned for the active elements are positions in the sorted list of excited elements (active_spec), the charges of the field are in the same order (C80); areas by C73; far away by C73; linearity by solveField_lin (Props/GroupCharge*.lean) |
| C88 | Model/SolveField.lean and below | the row of such an element is minus the identity (the factor of radial_ring.c vanishes at 1) with right hand side zero, so its charge is zero and the equation can be dropped (linSolve_drop, in both directions); the excited elements without the materials are a sublist of those with them (Props/Invisible*.lean) |
| C89 | Model/GetTracer.lean, Model/Tracer.lean | the directions of the line or plane are a linear subspace; all stages of a Runge-Kutta step stay in it (Props/TracerSymmetry2.lean), and the force does by C58 (axis), by the form of the radial field (planes), or by C81 applied to a problem that is its own image (Props/TracerSymmetry3.lean) |
| C90 | Model/GetTracer.lean, Model/Tracer.lean | one step of the method, its error (a maximum over coordinates, hence the restriction to motions which keep coordinate axes) and the next step length commute with the motion and the change of speed (Props/TracerSymmetry.lean); the force does by C81, C84, C86, C58 (Props/TracerSymmetry3.lean) |
| C91 | Model/Mesh.lean, Model/Excitation.lean, Model/SolveField.lean | no new model: that elements have at most one name is an invariant of every mesh operation (Props/Pipeline.lean; the rank of a kept triangle is injective, the shift of an addition is beyond the old numbers), hence the name that decides about an element is its own; composed with C31 (sums), C32 (histories), C12 (upgrade) and C80 (solutions) |
| C92 | `MeshioMesh` (points, cell blocks, cell sets) and `from_meshio`; the file's content is specified in `Spec/MeshFile.lean` without reference to the code | the constructor's effect on shapes (`Mesh.build_shapes`) on the blocks gathered by `cells_dict`; witness that a file with both kinds of lines loses one |
| C93 | no new model; `Spec/Vacuum.lean` states divergence, curl and Laplace's equation with Fréchet derivatives | gradients of the kernels of `three_d_point.c` (second derivatives of 1/r), summed over the charges; the quadrature points lie on the excited triangles (C80) |
| C94 | `Model/Plotting.lean`: what is handed to vedo is a list of shapes; the order of iteration over a set of colours is a parameter | the shapes painted in each colour partition the elements (a permutation); the dictionary from points to names holds, for each point, some group the point is in; `Spec/Plot.lean` says what is painted |
| C95 | as C94 | vector algebra on the arrow of one triangle and one line; the list of arrows is the image of the list of elements |
| C96 | `Model/Plotting.lean` | the mask is a filter by the limits; neighbours in a filtered list are separated only by what was filtered out |
| C97 | `Model/Plotting.lean` on `Model/Excitation.lean` | the specification of the active elements (C33) gives the place of each element of a group among the charges |
| C98 | `Model/Plotting.lean`: the list of figures and the windows opened so far are the state | induction over the history |
| C99 | `Model/Plotting.lean`; vedo's `Grid(s=(x, y))` is taken to have one vertex for each pair of the coordinates, as documented | entries of nested lists |
| C100 | `Model/Saveable.lean`: files are byte lists, a write is opening (which empties the file) and appending, and may be cut short after any number of bytes | case analysis on the last step that concerns the file |
| C101 | `Model/SurfaceMesh.lean` | all quads of one round are cells of one grid, so the decision is the same for all of them (`Lemmas/Uniform.lean`); the table holds nodes of the last grid only, so no edge has a middle; no node is inside a side or diagonal of a cell. `C101_refuted`: evaluation over ℚ, carried to ℝ by `rawMesh_map` |
| C102 | `Model/TracerNaN.lean` | values are `Option ℝ`, `none` is NaN and absorbs sums and products, all comparisons with it are false; invariant of the loop: the row before the last has a position within the bounds, so it is a number, and a velocity that is not a number makes the next position one. `C102_refuted`: an electron that starts at a point charge |
| C103 | `Model/Spline.lean`, `Model/Axial.lean`, `Spec/NotAKnot.lean`, `Spec/SplineDoc.lean` | repeated use of Rolle-type bounds for a function with triple zeros at both ends (quintic pieces); stability of the tridiagonal system of a not-a-knot spline and extrapolation at the ends (cubic pieces); combined with the radial series (C52), whose constants are uniform on bounded parts of the axis |
| C104 | `Model/Irregular.lean`, `Spec/NotAKnot.lean`, `Spec/ArcLength.lean` | error of the derivative of the splines through the samples (h^3); the spline through the perturbed speeds is stable (Lemmas/CubicSpline4.lean), so the speed found, and its slope, are close to the true ones; the spline from lengths to parameters is close to the inverse function of the length together with its derivative, hence increasing |
| C105 | `Spec/Memory.lean`, `Model/Memory.lean` | every C function as the list of its uses (array, offset), every wrapper as its checks and the sizes of the arrays; loop bounds by linear arithmetic for all sizes, the tracer by induction over its rounds with the invariant 1 <= N < block size |
| C106 | `Spec/Rounding.lean`, `Model/Rounding.lean` | the formulas as expressions in which every operation may be rounded differently; relative errors of positive sums, products, quotients, roots composed (factors between (1-u)^k and (1-u)^-k), sums in any order by induction; for the rings, where differences cancel, absolute errors relative to the distances, through the logarithm and the series of the elliptic integral |
| C107 | `Spec/Gauss.lean` | the flux of a point charge through a face computed with an explicit antiderivative (arctan), corner by corner; summed over the quadrature points, which are convex combinations of the corners; charges of groups as in C87 |
| C108 | `Spec/MeshSize.lean` | what the last look at each quad measured bounds its sides; the inserted midpoints lie between the corners because the surface does not turn back within a quarter of a section; chords of lines and arcs grow with the parameter |
| C109 | `Spec/Vacuum.lean` and `ClearOfRings`, `ClearOfLoops`, `OffSourcesRadial`, `ClearOfCoils` beside the theorems | derivatives of the two complete elliptic integrals, then the cylindrical form of divergence and curl of one ring; superposition; on the axis differentiation under the integral over the ring; the distance to the returned values is C75 |
| C110 | `loopsField` (Biot–Savart) and `Spec.coils` | fundamental theorem of calculus with C51; limits of the potential of one ring; the total of the weights is C41 |
| C111 | `Spec/RingSurface.lean` (`surfacePotential`, `SeenFrom`, `quadratureBound`) | expansion of 1/r in Legendre polynomials to 31 terms with a bound for the remainder (|Pₙ| ≤ 1 by the sum of cosines), integrated around the axis, gives a polynomial of degree 31 along the element, for which the 16-point rule is exact up to the rounding of its table (C76); the elliptic integrals by C75; the own element by dominated integrals |
| C112 | `Spec/GaussRadial.lean` (`coulombRing`, `coulombRings`, `RingInside`), `SweptBy` | Fubini on the six faces (continuous after clamping to the face) reduces the flux of a ring to that of its points (C107); linear over the rings; the field by differentiating the potential under the integral, uniqueness of the gradient and C75 |
| C113 | `Spec/Region.lean` (`ExtremesOnBoundary`) | Laplace's equation (C93) and the second derivative test, with a small multiple of the squared distance added; for rings, uniform limits of Riemann sums of point charges, so that the axis needs no special case; C75 for the computed values |
| C114 | `Model/Printing.lean`, texts as lists of characters | a separator that does not occur in a field determines where it ends; a list joined with commas determines its items; decimal notation is injective |
| C115 | the superposition sums of `Model/Charges.lean` | the kernels are symmetric or antisymmetric when target and source are exchanged (for rings, weighted with the radius); the order of a double sum is exchanged |
| C116 | the field of the coils (`Model/Charges.lean`) | the field of each piece of wire is the curl of dl/(4π\|p-q\|), so its flux through each face is a difference of integrals over the edges, which cancel; the integrals over the loop and over the faces are exchanged |
| C117 | the field of the coils (`Model/Charges.lean`) | the field has no curl off the loops (C109), so by Green's theorem the rectangle can be enlarged until three of its sides are far away, where the field is bounded by r/D²; the fourth is the axis (C110) |
| C118 | the tracer (`Model/Tracer.lean`), the field of the coils (`Model/Charges.lean`) | the vector potential of a loop; its gradient under the integral sign and integration by parts along the loop give the flux function; for charged rings the flux through the disk, differentiated under the integral sign, with the equivariance under rotations and the divergence zero (C109); the derivative of angular momentum plus flux along the equation of motion; the convergence of the tracer (C78) |

## Disagreements between the English properties and the code

Found while reading. Those marked with a theorem are kept as a negated theorem with a
concrete witness, next to the part that does hold (`_partial`); the others are outside the
model and are only noted.

1. `Path.__rshift__` does not shift `other.breakpoints` (C22_refuted).
2. `Path + PathCollection` builds a nested list and fails its assertion (C31_refuted).
3. `PathCollection.__iadd__`/`SurfaceCollection.__iadd__` return `None` (C31_refuted).
4. `rotate()` with all angles zero reads an unbound local (C26_zero_angle_refuted).
5. `revolve_y` turns opposite to `rotate(Ry=…)` (C27_y_refuted, C65_y_refuted).
6. `extrude_boundary_by_path` passes a path to `extrude` (C28).
7. `from_boundary_paths` is not a Coons patch: edges are reproduced only for straight,
   uniformly parametrised boundary paths (C29_refuted).
8. `_mesh` indexes sections `j*Nx+i` while they are produced u-major (C19_refuted).
9. `FieldBEM` `-`, `*`, unary minus are broken, `Field3D_BEM.__add__` calls its
   constructor with three arguments, `+` drops field bounds,
   `interpolation.FieldRadialAxial.__add__/__mul__` call the constructor with the wrong
   arguments (C39_refuted, C39_add_forgets_bounds).
10. `Tracer3D_BEM` ignores field bounds; radial tracing ignores the z bounds;
    `electrostatic_field_at_point` ignores bounds (C48_refuted).
11. Axial interpolation reads one row past the coefficient array at the last sample
    (C53_refuted); the Python wrapper of `field_3d_derivs` has no `return`.
12. `fill_matrix_radial` asserts `start < end`, so a one-row chunk is never filled
    (C36_refuted); with two excited lines and two threads `solve_direct` then returns a field that
    solves another problem (C80_radial_refuted: two discs at 10 V, each charged as if it were alone).
13. `fill_matrix_3d` overwrites the self potential it just computed (C59).
14. `ellipk(k)` for `k ≤ -1` divides by the root of a negative number (noted only).
15. `_potential_integrand` has the wrong sign in the small-distance branch for negative
    limits; likewise `_flux_integrand` (C55_potential_branch_refuted, C55_flux_refuted).
16. The `Mesh` constructor re-orients named groups, so `flip_normals` is undone and inward
    normals are lost in the upgrade to higher order (C11_named_refuted, C13_refuted).
17. `extract_physical_group`: a name used for lines and triangles gives only the lines
    (C10_both_kinds_refuted).
18. `to_meshio` drops names; the constructor is not idempotent (C14_names_refuted).
19. `_subdivide_quads` leaves holes when a widened quad is split in the other direction
    (C18_refuted).
20. `to_triangles` treats a quad with several edge points as having one (C20 proves what
    is then done).
21. Superposition: magnetostatic potentials are not split, and unit current fields use the
    full current charges (C35_refuted).
22. `add_electrostatic_boundary` re-orients the user's mesh in place; calls with several
    keywords that fail halfway stay applied halfway (C32 states what is applied).
23. `kronrod_adaptive` returns 0 for b ≤ a (C56_empty), its tolerance is no error bound
    (C56_tolerance_no_bound), and it need not return for unbounded integrands.
24. The wrappers of `higher_order_normal_radial` pass `v[:, :2]` views (noted only).
25. Triangles connected through a corner only are not made consistent (C63_corner_refuted).
26. `Path.arc` is 0/0 for half circles (C25_half_circle_refuted); `spanned_by_paths` is
    undefined for paths sharing both end points (C28_spanned_refuted).
27. A varying mesh size gives holes (C18_refuted), so do breakpoints along both parameters
    (C19_refuted).
28. `add_voltage` on a name of the wrong dimension raises `KeyError` later
    (C33_wrong_dimension).
29. `TRACEON_THREADS ≤ 0` raises (C37_refuted).
30. The 3D magnetostatic right hand side uses `normals[i,1]` with `field[2]`, the formula
    of the radial geometry (noted only).
31. Between 0 and 1e-10 from the axis the radial component is set to 0 (C58).
32. `set_bounds` with integers gives a field that is zero everywhere (C48_refuted).
33. `plane_intersection` misses a trajectory that ends exactly in the plane
    (C49_touching); a one-row trajectory aborts.
34. The tracer loops forever if the particle is at rest at the start of a block; the
    maximal step and `h` are reset per block (C46, C47 state this).
35. `focus_position` for rays on one line gives the point closest to the origin
    (C57_same_line).
36. `self_potential_triangle` lacks the factor 1/(4π) of the other entries (value unused).
37. The "far" test of `fill_matrix_3d` looks at the side v0v1 only: long triangles count as
    far even when the target lies on them (C59_far_refuted).
38. The breakpoints of `from_irregular_function` are documented as parameters between 0 and 1, but
    are multiplied by the length: other points become corners of the mesh (C74_breakpoints_refuted).
39. `backend.field_3d_derivs` in Python computes the field but has no `return` statement: it gives None
    (backend/__init__.py:484-489). And as in item on C53 the last sample of the range reads outside of the
    coefficients (C77_last_sample_refuted).
40. In three dimensions an excitation with both voltages and magnetic potentials cannot be solved: `solve_direct` adds the
    two fields at the end (solver.py:452-456) and the addition of 3D fields always raises (C80_mixed_refuted, see C39).
41. A three dimensional mesh that lies in the plane y = 0 is taken to be two dimensional (`is_2d`, mesher.py:441-449) and
    `solve_direct` raises (C81_plane); after any rotation out of this plane the same problem is solved.
42. `remove_lines` and `remove_triangles` turn normals that were made inward (add_electrostatic_boundary) outward again
    (C83_normals_refuted).
43. `from_meshio` on a file with both `line` and `line4` cells silently drops the `line4` cells and their names (`C92_mixed_lines_refuted`).

44. `Surface.extrude_boundary_by_path` calls `extrude(path)` instead of `extrude_by_path(path)` and therefore raises for every surface and path (`C65_by_path_refuted`).

45. `plot_mesh` looks up the colour of an element through its points: an element that shares a point with a later group is grey even if its group has a colour (`C94_refuted`), and an element in no group whose points are all in a group takes its colour (`C94_free_refuted`).

46. `plot_mesh` keeps seven characters of a triangle's colour ("lightblue" becomes "lightbl", and its legend entry is lost, `C94_long_refuted`), and the default colour of lines is "#CCCCC", with five digits (`C94_grey_refuted`).

47. `plot_trajectories` with limits joins the point where a trajectory leaves the limits with that where it comes back (`C96_refuted`).

48. `plot_charge_density` raises for radial problems with coils when lines are straight (`C97_coil_refuted`); with lines of higher order it draws triangles out of three of the four points of each line (`C97_higher_refuted`). It raises for coils alone (`C97_none`).

49. `Saveable.write` empties the file before it writes: a program stopped meanwhile loses the old mesh (`C100_refuted`).
50. Surface meshes have cracks where a section, or a quad, borders on one that is refined more than once more: `to_triangles` uses a point in the middle of an edge only, and of one edge of a quad only (`C101_refuted`).
51. A constant mesh size does not protect a curved surface from holes either: with mesh size 0.98 the part `circle_xz(0,1,1,angle=4*pi/3).revolve_x(2*pi/3)` of a torus is meshed with a hole, because a quad is split along one parameter on the strength of its own middle edge only while its neighbours are split along the other (`C18_bulge_refuted`, `C67_refuted`). Surfaces on which the parts of the sides never bulge beyond the whole are meshed without holes (`C18_tame_partial`, `C67_tame_partial`).
52. The mesh of a disk can have gaps: with mesh size 0.36 the quads around the centre of `disk_xy(0,0,1)` span 45 degrees where the next ring spans 22.5 degrees, and the points between the chords lie in no triangle (`C101_disk_refuted`).
53. A NaN in the error of a tracing step counts as no error (`fabs(err) > max` is false), so the step is accepted: an electron at a point charge, or where a Python field function returns NaN, ends with a row of NaN, and the intersection with a plane that it never reached is NaN instead of missing (`C102_refuted`, `C102_plane_refuted`).
54. Field bounds given as an array stored by columns (such as `np.array([minima, maxima]).T`) are read by the tracer in the order of memory, because `data_as` ignores strides, while `field_at_point` uses them as given (C48_columns_refuted). An array of 32-bit integers is read beyond its end (Mem.C105_field_bounds_refuted).
55. `plane_intersection` with an empty trajectory reads the row before the first one; `charge_radial` reads four vertices whatever the number given; `position_and_jacobian_radial` accepts 2-vectors but reads their third number; interpolated fields read beyond the coefficients at the last sample (item on C53) and beyond `z` if there is one sample; the radial tracer accepts coil charges whose positions have two coordinates and reads three (C105).

## Mutation tests

`seeded/LOG.jsonl` has one line per edit of the model that was tried in a scratch copy,
with the theorems that stopped building. The edits are made in the model only; a failing
lemma means that the property theorems resting on it no longer go through.
