import json
P=[]
def p(title, statement, quantifier, why, anchors):
    P.append(dict(id=f"C{len(P)+1:02d}", title=title, statement=statement, quantifier=quantifier, why_tests_cant=why, anchors=anchors))
M="traceon/mesher.py"; G="traceon/geometry.py"; E="traceon/excitation.py"; S="traceon/solver.py"; B="traceon/backend/__init__.py"; T="traceon/tracing.py"; U="traceon/util.py"; I="traceon/interpolation.py"; F="traceon/focus.py"
BC="traceon/backend/"
p("A mesh built from valid arrays is valid",
  "Building a Mesh from points, lines, triangles and named groups whose indices are all in range never fails one of the constructor's index assertions, and in the resulting mesh every line and triangle refers to an existing point and every named group refers to existing elements.",
  "all point arrays, line arrays (2 or 4 columns), triangle arrays and group dictionaries with in-range indices",
  "the constructor drops, renumbers and merges in one pass; an off-by-one only shows for particular interleavings of degenerate triangles and duplicate points",
  [f"{M}: Mesh.__init__", f"{M}: Mesh._remove_degenerate_triangles", f"{M}: Mesh._deduplicate_points"])
p("Merging duplicate points never moves an element",
  "After construction, the k-th line (and k-th surviving triangle) of the mesh has, corner by corner, the coordinates of the k-th input element with the low 16 mantissa bits cleared; merging points changes indices only, never the geometry.",
  "all meshes, all elements, all corners",
  "needs every permutation produced by the lexicographic sort and every pattern of duplicates",
  [f"{M}: Mesh._deduplicate_points"])
p("No two points of a mesh coincide and no input point is lost",
  "After construction the point array contains no two points with equal coordinates, its length is at most the input length, and every input point (low bits cleared) occurs in it.",
  "all point arrays",
  "duplicate patterns are unbounded", [f"{M}: Mesh._deduplicate_points"])
p("Removing degenerate triangles keeps names attached to the right triangles",
  "Construction keeps exactly the non-degenerate input triangles, in order, and a named group afterwards lists exactly its own non-degenerate triangles, in the original order.",
  "all triangle lists, all degeneracy patterns, all groups (overlapping or not)",
  "the renumbering by cumulative sums must be right for every pattern of removed triangles",
  [f"{M}: Mesh._remove_degenerate_triangles"])
p("Mesh addition keeps every named electrode intact",
  "In mesh1 + mesh2 the group called n consists of the elements of n in mesh1 followed by the elements of n in mesh2 (same corner coordinates); groups present in only one mesh are unchanged; no element is lost; adding the empty mesh changes nothing.",
  "all pairs of meshes of compatible order, all names",
  "index offsets interact with empty operands and with names shared by both meshes",
  [f"{M}: Mesh.__add__", f"{M}: Mesh._merge_dicts", f"{M}: _concat_arrays"])
p("Connected pieces are exactly the connected components",
  "Splitting an electrode in connected pieces returns non-empty, pairwise disjoint index sets covering all elements, and two elements are in the same piece iff one can be reached from the other through elements sharing a vertex.",
  "all element lists (lines or triangles), all connectivity graphs",
  "a graph search is only right if it is right on every graph",
  [f"{M}: _get_connected_elements", f"{M}: _compute_vertex_to_indices"])
p("Lines of a connected orientable piece end up consistently oriented",
  "Re-orienting the lines of a connected piece for which a consistent orientation exists yields a consistent orientation: any two lines that share an end point are traversed head to tail; each line is only ever reversed, never altered otherwise.",
  "all connected consistently orientable line sets, of any length and in any storage order, 2- and 4-point lines",
  "the walk order and the self-flip of the first line depend on storage order",
  [f"{M}: _reorient_lines", f"{M}: _line_orientation_equal", f"{M}: _get_element_neighbours"])
p("Normals point outward (inward) after being asked to",
  "After ensure_outward_normals (ensure_inward_normals) on an electrode consisting of one connected piece, the signed flux sum used to decide orientation is >= 0 (<= 0), and strictly so unless it is zero; for a closed surface this sum is independent of translating the object.",
  "all connected line and triangle pieces, all coordinates",
  "sign conventions must hold for every geometry", [f"{M}: _ensure_line_orientation", f"{M}: _ensure_triangle_orientation", f"{M}: _are_triangle_normals_pointing_outwards", f"{M}: _are_line_normals_pointing_outwards"])
p("The geometric triangle orientation test agrees with edge traversal",
  "For two non-degenerate triangles that share an edge (and whose other edges at the shared corner are not parallel), the orientation test reports equal orientation iff the shared edge is traversed in opposite directions by the two triangles, and it is invariant under moving and scaling.",
  "all pairs of triangles in space sharing an edge", "real-valued coordinates, all vertex orders",
  [f"{BC}triangle.c: triangle_orientation_is_equal"])
p("Extracting a named group returns exactly that group",
  "extract_physical_group(name) returns a mesh whose elements are exactly the elements carrying that name (no duplicates, same coordinates) and whose points are exactly those used.",
  "all meshes and names, including names used for both lines and triangles and groups with repeated indices",
  "renumbering through masks must be right for every subset", [f"{M}: Mesh.extract_physical_group", f"{M}: Mesh.read_file"])
p("flip_normals reverses every element",
  "flip_normals returns a mesh in which every line and triangle has the opposite orientation, and applying it twice restores the mesh.",
  "all meshes, named groups or not", "the constructor re-orients named groups, which depends on geometry",
  [f"{M}: Mesh.flip_normals", f"{M}: Mesh.__init__"])
p("Upgrading lines to higher order does not change the geometry",
  "Converting a mesh of straight lines to 4-point lines keeps point order, line order and end points, and the curved element through the four points is exactly the original segment traversed at constant speed.",
  "all straight line meshes and all parameters in [-1, 1]", "a polynomial identity over all coordinates and parameters",
  [f"{M}: Mesh._lines_to_higher_order", f"{BC}utilities_2d.c: position_and_jacobian_radial"])
p("Solving respects requested normals",
  "The normals requested with add_electrostatic_boundary (inward) are the normals used by solve_direct, whether or not the mesh has to be upgraded to higher order first.",
  "all 2D meshes and boundaries", "depends on the history: orientation call, then implicit mesh conversion",
  [f"{E}: Excitation.add_electrostatic_boundary", f"{S}: _excitation_to_higher_order", f"{M}: Mesh._to_higher_order_mesh"])
p("Writing a mesh to file and reading it back",
  "to_meshio followed by from_meshio returns a mesh with the same points, lines, triangles and named groups.",
  "all meshes", "round-trip over all meshes", [f"{M}: Mesh.to_meshio", f"{M}: Mesh.from_meshio"])
p("Meshing a path never skips a corner and respects the mesh size",
  "Discretising a path of length L with ordered breakpoints returns a strictly increasing list starting at 0 and ending at L, containing every breakpoint, with at least three elements per section and no element longer than the mesh size.",
  "all lengths, breakpoint lists, mesh sizes, mesh size factors and element orders", "real-valued inputs and arbitrary breakpoint lists",
  [f"{G}: discretize_path"])
p("A path mesh is one unbroken chain of line elements",
  "Path.mesh produces elements that join consecutive sample points: element k starts where element k-1 ends, the first starts at the path's starting point, the last ends at its end point; higher order elements use the two intermediate samples in order, and the internal shape assertion never fails.",
  "all paths, mesh sizes and orders", "holds for every number of samples", [f"{G}: Path.mesh"])
p("Mesh vertices of a surface lie on the surface at their grid position",
  "While refining a surface mesh, in every reachable state of the point table, the point stored for grid position (depth, i, j) is the surface evaluated at that grid position; positions shared between depths share the point.",
  "all surfaces, all sequences of refinement operations", "invariant over unbounded refinement histories",
  [f"{M}: PointStack"])
p("Refinement of a surface covers the surface",
  "Subdividing a surface into quads until the mesh size is reached yields quads that tile the parameter square: no holes and no overlaps.",
  "all surfaces and mesh size functions", "depends on the history of horizontal/vertical splits", [f"{M}: _subdivide_quads"])
p("Neighbouring sections of a surface are joined along their common edge",
  "When a surface has breakpoints, the mesher identifies points only along edges that adjacent sections really share, so that every triangle corner is a surface point of the right section.",
  "all surfaces with any number of breakpoints in either direction", "all section grids Nx x Ny", [f"{M}: _mesh", f"{M}: _copy_over_edge", f"{G}: Surface._sections"])
p("A quad is split in triangles that tile it",
  "Converting quads to triangles: the triangles of a quad (with or without an extra point on one edge) tile the quad in parameter space, all with the same orientation, and only use points that exist.",
  "all quads and all patterns of existing edge points", "all index tables", [f"{M}: PointsWithQuads.to_triangles"])
p("Joining paths",
  "p1 >> p2 has length |p1|+|p2|, starts where p1 starts, ends where p2 ends, follows p1 on [0,|p1|] and p2 after that; joining is associative.",
  "all pairs (triples) of joinable paths and all parameters", "functions on a continuum", [f"{G}: Path.__rshift__"])
p("Corners of joined paths are kept as breakpoints",
  "Every breakpoint (corner) of p1 and of p2, and the joint itself, is a breakpoint of p1 >> p2 at the same location in space, so that it is always included in the mesh.",
  "all pairs of joinable paths with any breakpoints", "depends on the construction history of both operands", [f"{G}: Path.__rshift__"])
p("Cutting a path and joining the parts gives back the path",
  "For 0 <= l <= L, path.cut(l) returns two paths of length l and L-l that together trace the original path, share the cut point, and keep all breakpoints at the same location in space.",
  "all paths, cut positions and parameters", "functions on a continuum", [f"{G}: Path.cut"])
p("Adding a phase to a closed path only shifts the starting point",
  "add_phase(l) on a closed path of length L gives a closed path of length L tracing the same set of points, starting at distance l, whose breakpoints are the old breakpoints plus the old starting point, at the same locations in space and in ascending order.",
  "all closed paths, all phases (including negative or > L)", "modular arithmetic on reals", [f"{G}: Path.add_phase"])
p("Lines and arcs start and end where asked and are parametrised by length",
  "Path.line(a,b) starts at a, ends at b and the distance between path(s) and path(t) is |s-t|; Path.arc(c,a,b) starts at a, stays at distance |a-c| from c, and ends at b when |b-c|=|a-c|, also when reversed; circle paths stay on the circle.",
  "all points and parameters", "real-valued inputs", [f"{G}: Path.line", f"{G}: Path.arc", f"{G}: Path.circle_xy"])
p("Moves, rotations and mirrors are rigid and invertible",
  "move, rotate and mirror preserve all distances; moving back, rotating by the opposite angle about the same origin and mirroring twice give back the object; rotations about one axis add up; rotation by angle 0 is the identity.",
  "all points, angles, origins and displacement vectors", "real-valued inputs", [f"{M}: GeometricObject.move", f"{M}: GeometricObject.rotate", f"{M}: GeometricObject.mirror_xz"])
p("A revolved path is the path rotated, consistently with rotate",
  "path.revolve_x/y/z(angle) starts at the path and ends at the path rotated counter clockwise by the angle about that axis, i.e. at path.rotate(axis=angle), so that the end caps of revolve_boundary_* fit.",
  "all paths, angles and parameters", "real-valued inputs", [f"{G}: Path.revolve_x", f"{G}: Path.revolve_y", f"{G}: Path.revolve_z", f"{G}: Surface.revolve_boundary_y"])
p("Extrusion and spanned surfaces have the advertised edges",
  "path.extrude(v) starts at the path and ends at the path moved by v; extrude_by_path starts at the path; Surface.spanned_by_paths(p1,p2) has p1 and p2 as opposite edges and straight lines between.",
  "all paths, vectors and parameters", "functions on a continuum", [f"{G}: Path.extrude", f"{G}: Path.extrude_by_path", f"{G}: Surface.spanned_by_paths"])
p("A surface from four boundary paths has these paths as its boundary",
  "Surface.from_boundary_paths(p1,p2,p3,p4) with matching corners restricted to its four edges is p1, p2, p3, p4.",
  "all quadruples of paths with matching corners", "functions on a continuum", [f"{G}: Surface.from_boundary_paths"])
p("A box is the boundary of the box",
  "Every point of the three surfaces returned by Surface.box lies on the boundary of the box spanned by the two corners, and every boundary point is covered.",
  "all corner pairs with non-zero extents, all parameters", "real-valued inputs", [f"{G}: Surface.box"])
p("Collections combine like lists",
  "+ on paths/path collections and surfaces/surface collections concatenates the members in order; += appends in place; assigning a name to a collection names every member; operations on a collection are the operations on each member.",
  "all collections", "all histories of + / +=", [f"{G}: Path.__add__", f"{G}: PathCollection", f"{G}: Surface.__add__", f"{G}: SurfaceCollection"])
p("An excitation only mentions electrodes of its mesh",
  "After any sequence of add_* calls (failed ones included), every name in the excitation is an electrode of the mesh, every name carries exactly one excitation (the last one successfully assigned), and other names are untouched.",
  "all meshes and all sequences of add_* calls", "histories of calls with partial failures", [f"{E}: Excitation.add_voltage", f"{E}: Excitation.add_current", f"{E}: Excitation.add_dielectric", f"{E}: Excitation.add_magnetizable"])
p("Active elements keep their names",
  "get_electrostatic_active_elements / get_magnetostatic_active_elements return exactly the elements carrying an excitation of that kind (each once, in mesh order), and names[n] indexes exactly the elements of group n in the returned array.",
  "all meshes, groups and excitations", "renumbering by cumulative sums for every subset", [f"{E}: Excitation._get_active_elements"])
p("Every matrix element gets the type and value of its electrode",
  "In the linear system, the element belonging to one excited electrode n has the excitation type of n and as right hand side its voltage (function value at its centre for voltage functions), and 0 for dielectrics.",
  "all meshes and excitations", "loops over dictionaries with index arrays", [f"{S}: Solver.__init__", f"{S}: ElectrostaticSolver.get_right_hand_side"])
p("Superposition of unit fields reproduces the full solution",
  "The fields returned by solve_direct_superposition, weighted by the voltages/currents originally assigned, add up to the field of solve_direct.",
  "all excitations without voltage functions", "all voltage settings", [f"{E}: Excitation._split_for_superposition", f"{S}: solve_direct_superposition"])
p("The matrix is completely filled for any number of threads",
  "Whatever the number of threads, every row of the BEM matrix is computed exactly once.",
  "all matrix sizes and thread counts", "depends on machine core count", [f"{S}: Solver.get_matrix", f"{U}: split_collect", f"{B}: fill_matrix_radial", f"{B}: fill_matrix_3d"])
p("Threaded evaluation is independent of scheduling",
  "split_collect returns the per-chunk results in chunk order for every interleaving of the threads, and for element-wise functions their concatenation equals the unsplit result; at least one thread is always used.",
  "all arrays, thread counts and schedules", "schedules cannot be enumerated by tests", [f"{U}: split_collect", f"{U}: get_number_of_threads"])
p("Adding charge distributions superposes potentials",
  "The potential of the sum of two sets of effective point charges is the sum of their potentials at every point; scaling scales it; negation negates it.",
  "all charge sets (same or different element positions), all points", "real-valued inputs, both branches of +", [f"{S}: EffectivePointCharges.__add__", f"{S}: EffectivePointCharges.__mul__", f"{BC}three_d.c: potential_3d"])
p("Fields support +, - and * as documented",
  "For fields f, g of the same kind and a number a: f+g, f-g, a*f, f*a and -f are fields whose potentials are the corresponding combinations.",
  "all fields and numbers, for radial, 3D and axial fields", "operator dispatch over all operand kinds", [f"{S}: FieldBEM.__add__", f"{S}: FieldBEM.__sub__", f"{S}: FieldBEM.__mul__", f"{S}: FieldBEM.__neg__", f"{I}: FieldAxial.__add__"])
p("field_at_point refuses ambiguous fields",
  "field_at_point / potential_at_point return the electrostatic (magnetostatic) value iff the field is purely electrostatic (magnetostatic), and raise otherwise; potential and field always make the same choice.",
  "all fields", "all flag combinations and class implementations", [f"{S}: Field.field_at_point", f"{S}: Field.potential_at_point"])
p("The total current of a coil is the requested current",
  "The current assigned to a coil is distributed over its triangles such that the quadrature sum of the current density over the coil is exactly the requested current, independent of the mesh.",
  "all triangulations with non-zero area", "all meshes", [f"{S}: MagnetostaticSolver.get_current_charges"])
p("Dielectric interface condition",
  "The factor relating mean flux density to surface charge satisfies sigma = D2 - D1 for D2 = K D1 and mean (D1+D2)/2; it is zero for vacuum (K=1) and -2 for a boundary (K=0).",
  "all K != -1 and all field values", "real-valued inputs", [f"{BC}radial_ring.c: flux_density_to_charge_factor"])
p("The 3D electric field is minus the gradient of the potential",
  "At every point not coinciding with a charge, the field returned by electrostatic_field_at_point of a 3D BEM field is minus the gradient of electrostatic_potential_at_point.",
  "all charge distributions and points", "a derivative over a continuum", [f"{BC}three_d.c: field_3d", f"{BC}three_d.c: potential_3d", f"{BC}three_d_point.c: dx1_potential_3d_point"])
p("Magnetic fields do no work",
  "The magnetic part of the force used for tracing is perpendicular to the velocity, and the force is E + mu_0 v x (H_mag + H_current).",
  "all velocities and fields", "real-valued inputs", [f"{BC}utilities_3d.c: combine_elec_magnetic_field"])
p("Uniform fields are traced exactly",
  "One step of the integrator in a uniform electric field (in particular without field) gives exactly the parabola x + v h + a h^2/2, v + a h with zero error estimate.",
  "all states, step sizes and uniform fields", "real-valued inputs", [f"{BC}tracing.c: trace_particle", f"{BC}tracing.c: produce_new_y", f"{BC}tracing.c: produce_new_k"])
p("A trajectory stays in bounds, advances in time and meets the tolerance",
  "In the arrays returned by a tracer: the first row is the initial state at time 0, times strictly increase, all positions but the last lie within the tracer bounds, the last lies outside, no step is longer than the maximum step and every accepted step has estimated error <= atol.",
  "all fields, bounds, tolerances and initial states for which the tracer returns", "unbounded number of steps", [f"{BC}tracing.c: trace_particle"])
p("Long trajectories are glued without gaps or duplicates",
  "When a trajectory needs several blocks, the concatenated result contains the initial state once, each accepted step once, in order, for every number of blocks, including a trajectory that leaves the bounds exactly at the end of a block.",
  "all trajectories and block counts", "needs trajectories of more than 100000 steps", [f"{B}: trace_particle_wrapper"])
p("Outside the field bounds there is no field",
  "After set_bounds the particle feels no force outside the bounds, in x, y and z, for radial and 3D fields.",
  "all bounds, points and fields", "real-valued inputs", [f"{S}: FieldBEM.set_bounds", f"{BC}tracing.c: field_radial_traceable", f"{BC}tracing.c: field_3d_traceable", f"{T}: Tracer3D_BEM.__call__"])
p("Plane intersection finds the last crossing",
  "plane_intersection returns a point that lies in the plane, on the segment between two consecutive trajectory points, namely the last such pair on different sides; it raises iff no consecutive pair changes sides.",
  "all trajectories and planes", "trajectories of any length", [f"{BC}tracing.c: plane_intersection", f"{T}: plane_intersection"])
p("Initial velocities carry the requested energy",
  "The velocity used for tracing after velocity_vec(eV, direction) has kinetic energy eV electron volt and points along direction; velocity_vec_spherical and velocity_vec_xz_plane point in the advertised directions.",
  "all energies > 0 and non-zero directions", "real-valued inputs", [f"{T}: velocity_vec", f"{T}: _convert_velocity_to_SI"])
p("Axial derivatives are the derivatives of the axial potential",
  "The n-th number returned by the axial derivative routines (charged rings and current rings) is the n-th derivative, with respect to position on the axis, of the axial potential of the ring.",
  "all rings off the axis point, all positions, all n", "an n-th derivative for all n", [f"{BC}radial_ring.c: axial_derivatives_radial_ring", f"{BC}radial_ring.c: current_axial_derivatives_radial_ring"])
p("The radial series field is minus the gradient of the radial series potential",
  "For axial interpolated fields, E_x and E_y are exactly minus the x and y derivatives of the potential at every point inside the interpolation range, and the series is the harmonic continuation of the axial potential.",
  "all coefficients and points", "derivative over a continuum", [f"{BC}radial.c: field_radial_derivs", f"{BC}radial.c: potential_radial_derivs"])
p("Axial interpolation reads coefficients that exist",
  "Evaluating an axially interpolated field at any z inside [z_first, z_last] uses the coefficients of the interval containing z, never an index outside the coefficient array; outside it returns zero.",
  "all sample grids and z", "boundary cases on a continuum", [f"{BC}radial.c: potential_radial_derivs", f"{BC}radial.c: field_radial_derivs", f"{BC}three_d.c: potential_3d_derivs"])
p("Curved line elements interpolate their four points",
  "The higher order line element passes through its four points at parameters -1, -1/3, 1/3, 1, its Jacobian is the speed of the parametrisation, its normal is perpendicular to the tangent and of unit length; reversing the element reverses the parametrisation.",
  "all points and parameters", "polynomial identities over the reals", [f"{BC}utilities_2d.c: position_and_jacobian_radial", f"{BC}utilities_2d.c: higher_order_normal_radial"])
p("Triangle integrals use an isometric frame and exact inner integrals",
  "The local frame used for the potential/flux of a triangle preserves distances to the target, the triangle height is positive, and the integrands are the exact inner integrals of 1/r resp. of the field components (including the special branch for small distance).",
  "all non-degenerate triangles and targets", "integrals over a continuum", [f"{BC}triangle.c: potential_triangle", f"{BC}triangle.c: _potential_integrand", f"{BC}triangle.c: _flux_integrand"])
p("Adaptive integration covers the interval",
  "If the adaptive quadrature returns, its result is the sum of the quadrature values over adjacent intervals that exactly partition [a,b], each of which met the tolerance; for b <= a it returns 0.",
  "all integrands, intervals and tolerances for which it returns", "unbounded refinement", [f"{BC}kronrod.c: kronrod_adaptive"])
p("Straight rays through one point are focused to that point",
  "focus_position applied to trajectories whose final straight extensions all pass through one point returns that point, provided not all are parallel.",
  "all bundles of rays", "all numbers of rays and directions", [f"{F}: focus_position"])
p("Radially symmetric fields are radially symmetric",
  "For radial fields the potential is unchanged and the field rotates along when the evaluation point is rotated about the z-axis; the field on the axis points along the axis.",
  "all charge distributions, points and angles", "real-valued inputs", [f"{BC}radial.c: field_radial", f"{BC}radial.c: potential_radial", f"{BC}radial.c: current_field"])
p("Matrix rows express the boundary conditions",
  "Row i of the 3D BEM matrix applied to a charge vector is the potential at the centre of triangle i (voltage elements) resp. the interface condition (dielectric elements); the diagonal is never counted twice.",
  "all meshes, excitations and charge vectors", "all triangle pairs and distance regimes", [f"{BC}tracing.c: fill_matrix_3d"])
p("Log messages are filtered by level",
  "A message of severity s is printed iff the current log level is at most s; an unknown or missing TRACEON_LOG_LEVEL means INFO.",
  "all levels, messages and environment values", "all strings", ["traceon/logging.py"])
p("Mapping points keeps the mesh structure",
  "Mapping the points of a mesh by an injective function that keeps mapped points distinguishable keeps the number and order of elements, the groups, and maps each corner coordinate by the function.",
  "all meshes and injective maps", "all meshes and maps", [f"{M}: Mesh.map_points"])
json_lines="\n".join(json.dumps(x, ensure_ascii=False) for x in P)+"\n"
open("/verif/properties.jsonl","w").write(json_lines)
print(len(P))
for x in P: print(x["id"], x["title"])
