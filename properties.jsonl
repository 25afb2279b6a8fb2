{"id": "C01", "title": "A mesh built from valid arrays is valid", "statement": "Building a Mesh from points, lines, triangles and named groups whose indices are all in range never fails one of the constructor's index assertions, and in the resulting mesh every line and triangle refers to an existing point and every named group refers to existing elements; whatever arrays it is given, the constructor returns no mesh with an index out of range.", "quantifier": "all point arrays, line arrays (2 or 4 columns), triangle arrays and group dictionaries with in-range indices", "why_tests_cant": "the constructor drops, renumbers and merges in one pass; an off-by-one only shows for particular interleavings of degenerate triangles and duplicate points", "anchors": ["traceon/mesher.py: Mesh.__init__", "traceon/mesher.py: Mesh._remove_degenerate_triangles", "traceon/mesher.py: Mesh._deduplicate_points"]}
{"id": "C02", "title": "Merging duplicate points never moves an element", "statement": "After construction, the k-th line (and k-th surviving triangle) of the mesh has, corner by corner, the coordinates of the k-th input element with the low 16 mantissa bits cleared; merging points changes indices only, never the geometry.", "quantifier": "all meshes, all elements, all corners", "why_tests_cant": "needs every permutation produced by the lexicographic sort and every pattern of duplicates", "anchors": ["traceon/mesher.py: Mesh._deduplicate_points"]}
{"id": "C03", "title": "No two points of a mesh coincide and no input point is lost", "statement": "After construction the point array contains no two points with equal coordinates, its length is at most the input length, and every input point (low bits cleared) occurs in it.", "quantifier": "all point arrays", "why_tests_cant": "duplicate patterns are unbounded", "anchors": ["traceon/mesher.py: Mesh._deduplicate_points"]}
{"id": "C04", "title": "Removing degenerate triangles keeps names attached to the right triangles", "statement": "Construction keeps exactly the non-degenerate input triangles, in order, and a named group afterwards lists exactly its own non-degenerate triangles, in the original order.", "quantifier": "all triangle lists, all degeneracy patterns, all groups (overlapping or not)", "why_tests_cant": "the renumbering by cumulative sums must be right for every pattern of removed triangles", "anchors": ["traceon/mesher.py: Mesh._remove_degenerate_triangles"]}
{"id": "C05", "title": "Mesh addition keeps every named electrode intact", "statement": "In mesh1 + mesh2 the group called n consists of the elements of n in mesh1 followed by the elements of n in mesh2 (same corner coordinates); groups present in only one mesh are unchanged; no element is lost; adding the empty mesh changes nothing.", "quantifier": "all pairs of meshes of compatible order, all names", "why_tests_cant": "index offsets interact with empty operands and with names shared by both meshes", "anchors": ["traceon/mesher.py: Mesh.__add__", "traceon/mesher.py: Mesh._merge_dicts", "traceon/mesher.py: _concat_arrays"]}
{"id": "C06", "title": "Connected pieces are exactly the connected components", "statement": "Splitting an electrode in connected pieces returns non-empty, pairwise disjoint index sets covering all elements, and two elements are in the same piece iff one can be reached from the other through elements sharing a vertex.", "quantifier": "all element lists (lines or triangles), all connectivity graphs", "why_tests_cant": "a graph search is only right if it is right on every graph", "anchors": ["traceon/mesher.py: _get_connected_elements", "traceon/mesher.py: _compute_vertex_to_indices"]}
{"id": "C07", "title": "Lines of a connected orientable piece end up consistently oriented", "statement": "Re-orienting the lines of a connected piece for which a consistent orientation exists yields a consistent orientation: any two lines that share an end point are traversed head to tail; each line is only ever reversed, never altered otherwise.", "quantifier": "all connected consistently orientable line sets, of any length and in any storage order, 2- and 4-point lines", "why_tests_cant": "the walk order and the self-flip of the first line depend on storage order", "anchors": ["traceon/mesher.py: _reorient_lines", "traceon/mesher.py: _line_orientation_equal", "traceon/mesher.py: _get_element_neighbours"]}
{"id": "C08", "title": "Normals point outward (inward) after being asked to", "statement": "After ensure_outward_normals (ensure_inward_normals) on an electrode consisting of one connected piece, the signed flux sum used to decide orientation is >= 0 (<= 0), and strictly so unless it is zero; for a closed surface this sum is independent of translating the object.", "quantifier": "all connected line and triangle pieces, all coordinates", "why_tests_cant": "sign conventions must hold for every geometry", "anchors": ["traceon/mesher.py: _ensure_line_orientation", "traceon/mesher.py: _ensure_triangle_orientation", "traceon/mesher.py: _are_triangle_normals_pointing_outwards", "traceon/mesher.py: _are_line_normals_pointing_outwards"]}
{"id": "C09", "title": "The geometric triangle orientation test agrees with edge traversal", "statement": "For two non-degenerate triangles that share an edge (and whose other edges at the shared corner are not parallel), the orientation test reports equal orientation iff the shared edge is traversed in opposite directions by the two triangles, and it is invariant under moving and scaling.", "quantifier": "all pairs of triangles in space sharing an edge", "why_tests_cant": "real-valued coordinates, all vertex orders", "anchors": ["traceon/backend/triangle.c: triangle_orientation_is_equal"]}
{"id": "C10", "title": "Extracting a named group returns exactly that group", "statement": "extract_physical_group(name) returns a mesh whose elements are exactly the elements carrying that name (no duplicates, same coordinates) and whose points are exactly those used.", "quantifier": "all meshes and names, including names used for both lines and triangles and groups with repeated indices", "why_tests_cant": "renumbering through masks must be right for every subset", "anchors": ["traceon/mesher.py: Mesh.extract_physical_group", "traceon/mesher.py: Mesh.read_file"]}
{"id": "C11", "title": "flip_normals reverses every element", "statement": "flip_normals returns a mesh in which every line and triangle has the opposite orientation, and applying it twice restores the mesh.", "quantifier": "all meshes, named groups or not", "why_tests_cant": "the constructor re-orients named groups, which depends on geometry", "anchors": ["traceon/mesher.py: Mesh.flip_normals", "traceon/mesher.py: Mesh.__init__"]}
{"id": "C12", "title": "Upgrading lines to higher order does not change the geometry", "statement": "Converting a mesh of straight lines to 4-point lines keeps point order, line order and end points, and the curved element through the four points is exactly the original segment traversed at constant speed.", "quantifier": "all straight line meshes and all parameters in [-1, 1]", "why_tests_cant": "a polynomial identity over all coordinates and parameters", "anchors": ["traceon/mesher.py: Mesh._lines_to_higher_order", "traceon/backend/utilities_2d.c: position_and_jacobian_radial"]}
{"id": "C13", "title": "Solving respects requested normals", "statement": "The normals requested with add_electrostatic_boundary (inward) are the normals used by solve_direct, whether or not the mesh has to be upgraded to higher order first.", "quantifier": "all 2D meshes and boundaries", "why_tests_cant": "depends on the history: orientation call, then implicit mesh conversion", "anchors": ["traceon/excitation.py: Excitation.add_electrostatic_boundary", "traceon/solver.py: _excitation_to_higher_order", "traceon/mesher.py: Mesh._to_higher_order_mesh"]}
{"id": "C14", "title": "Writing a mesh to file and reading it back", "statement": "to_meshio followed by from_meshio returns a mesh with the same points, lines, triangles and named groups.", "quantifier": "all meshes", "why_tests_cant": "round-trip over all meshes", "anchors": ["traceon/mesher.py: Mesh.to_meshio", "traceon/mesher.py: Mesh.from_meshio"]}
{"id": "C15", "title": "Meshing a path never skips a corner and respects the mesh size", "statement": "Discretising a path of length L with ordered breakpoints returns a strictly increasing list starting at 0 and ending at L, containing every breakpoint, with at least three elements per section and no element longer than the mesh size.", "quantifier": "all lengths, breakpoint lists, mesh sizes, mesh size factors and element orders", "why_tests_cant": "real-valued inputs and arbitrary breakpoint lists", "anchors": ["traceon/geometry.py: discretize_path"]}
{"id": "C16", "title": "A path mesh is one unbroken chain of line elements", "statement": "Path.mesh produces elements that join consecutive sample points: element k starts where element k-1 ends, the first starts at the path's starting point, the last ends at its end point; higher order elements use the two intermediate samples in order, and the internal shape assertion never fails.", "quantifier": "all paths, mesh sizes and orders", "why_tests_cant": "holds for every number of samples", "anchors": ["traceon/geometry.py: Path.mesh"]}
{"id": "C17", "title": "Mesh vertices of a surface lie on the surface at their grid position", "statement": "While refining a surface mesh, in every reachable state of the point table, the point stored for grid position (depth, i, j) is the surface evaluated at that grid position; positions shared between depths share the point.", "quantifier": "all surfaces, all sequences of refinement operations", "why_tests_cant": "invariant over unbounded refinement histories", "anchors": ["traceon/mesher.py: PointStack"]}
{"id": "C18", "title": "Refinement of a surface covers the surface", "statement": "Subdividing a surface into quads until the mesh size is reached yields quads that tile the parameter square: no holes and no overlaps.", "quantifier": "all surfaces and mesh size functions", "why_tests_cant": "depends on the history of horizontal/vertical splits", "anchors": ["traceon/mesher.py: _subdivide_quads"]}
{"id": "C19", "title": "Neighbouring sections of a surface are joined along their common edge", "statement": "When a surface has breakpoints, the mesher identifies points only along edges that adjacent sections really share, so that every triangle corner is a surface point of the right section.", "quantifier": "all surfaces with any number of breakpoints in either direction", "why_tests_cant": "all section grids Nx x Ny", "anchors": ["traceon/mesher.py: _mesh", "traceon/mesher.py: _copy_over_edge", "traceon/geometry.py: Surface._sections"]}
{"id": "C20", "title": "A quad is split in triangles that tile it", "statement": "Converting quads to triangles: the triangles of a quad (with or without an extra point on one edge) tile the quad in parameter space, all with the same orientation, and only use points that exist.", "quantifier": "all quads and all patterns of existing edge points", "why_tests_cant": "all index tables", "anchors": ["traceon/mesher.py: PointsWithQuads.to_triangles"]}
{"id": "C21", "title": "Joining paths", "statement": "p1 >> p2 has length |p1|+|p2|, starts where p1 starts, ends where p2 ends, follows p1 on [0,|p1|] and p2 after that; joining is associative.", "quantifier": "all pairs (triples) of joinable paths and all parameters", "why_tests_cant": "functions on a continuum", "anchors": ["traceon/geometry.py: Path.__rshift__"]}
{"id": "C22", "title": "Corners of joined paths are kept as breakpoints", "statement": "Every breakpoint (corner) of p1 and of p2, and the joint itself, is a breakpoint of p1 >> p2 at the same location in space, so that it is always included in the mesh.", "quantifier": "all pairs of joinable paths with any breakpoints", "why_tests_cant": "depends on the construction history of both operands", "anchors": ["traceon/geometry.py: Path.__rshift__"]}
{"id": "C23", "title": "Cutting a path and joining the parts gives back the path", "statement": "For 0 <= l <= L, path.cut(l) returns two paths of length l and L-l that together trace the original path, share the cut point, and keep all breakpoints at the same location in space.", "quantifier": "all paths, cut positions and parameters", "why_tests_cant": "functions on a continuum", "anchors": ["traceon/geometry.py: Path.cut"]}
{"id": "C24", "title": "Adding a phase to a closed path only shifts the starting point", "statement": "add_phase(l) on a closed path of length L gives a closed path of length L tracing the same set of points, starting at distance l, whose breakpoints are the old breakpoints plus the old starting point, at the same locations in space and in ascending order.", "quantifier": "all closed paths, all phases (including negative or > L)", "why_tests_cant": "modular arithmetic on reals", "anchors": ["traceon/geometry.py: Path.add_phase"]}
{"id": "C25", "title": "Lines and arcs start and end where asked and are parametrised by length", "statement": "Path.line(a,b) starts at a, ends at b and the distance between path(s) and path(t) is |s-t|; Path.arc(c,a,b) starts at a, stays at distance |a-c| from c, and ends at b when |b-c|=|a-c|, also when reversed; circle paths stay on the circle.", "quantifier": "all points and parameters", "why_tests_cant": "real-valued inputs", "anchors": ["traceon/geometry.py: Path.line", "traceon/geometry.py: Path.arc", "traceon/geometry.py: Path.circle_xy"]}
{"id": "C26", "title": "Moves, rotations and mirrors are rigid and invertible", "statement": "move, rotate and mirror preserve all distances; moving back, rotating by the opposite angle about the same origin and mirroring twice give back the object; rotations about one axis add up; rotation by angle 0 is the identity.", "quantifier": "all points, angles, origins and displacement vectors", "why_tests_cant": "real-valued inputs", "anchors": ["traceon/mesher.py: GeometricObject.move", "traceon/mesher.py: GeometricObject.rotate", "traceon/mesher.py: GeometricObject.mirror_xz"]}
{"id": "C27", "title": "A revolved path is the path rotated, consistently with rotate", "statement": "path.revolve_x/y/z(angle) starts at the path and ends at the path rotated counter clockwise by the angle about that axis, i.e. at path.rotate(axis=angle), so that the end caps of revolve_boundary_* fit.", "quantifier": "all paths, angles and parameters", "why_tests_cant": "real-valued inputs", "anchors": ["traceon/geometry.py: Path.revolve_x", "traceon/geometry.py: Path.revolve_y", "traceon/geometry.py: Path.revolve_z", "traceon/geometry.py: Surface.revolve_boundary_y"]}
{"id": "C28", "title": "Extrusion and spanned surfaces have the advertised edges", "statement": "path.extrude(v) starts at the path and ends at the path moved by v; extrude_by_path starts at the path; Surface.spanned_by_paths(p1,p2) has p1 and p2 as opposite edges and straight lines between.", "quantifier": "all paths, vectors and parameters", "why_tests_cant": "functions on a continuum", "anchors": ["traceon/geometry.py: Path.extrude", "traceon/geometry.py: Path.extrude_by_path", "traceon/geometry.py: Surface.spanned_by_paths"]}
{"id": "C29", "title": "A surface from four boundary paths has these paths as its boundary", "statement": "Surface.from_boundary_paths(p1,p2,p3,p4) with matching corners restricted to its four edges is p1, p2, p3, p4.", "quantifier": "all quadruples of paths with matching corners", "why_tests_cant": "functions on a continuum", "anchors": ["traceon/geometry.py: Surface.from_boundary_paths"]}
{"id": "C30", "title": "A box is the boundary of the box", "statement": "Every point of the three surfaces returned by Surface.box lies on the boundary of the box spanned by the two corners, and every boundary point is covered.", "quantifier": "all corner pairs with non-zero extents, all parameters", "why_tests_cant": "real-valued inputs", "anchors": ["traceon/geometry.py: Surface.box"]}
{"id": "C31", "title": "Collections combine like lists", "statement": "+ on paths/path collections and surfaces/surface collections concatenates the members in order; += appends in place; assigning a name to a collection names every member; operations on a collection are the operations on each member.", "quantifier": "all collections", "why_tests_cant": "all histories of + / +=", "anchors": ["traceon/geometry.py: Path.__add__", "traceon/geometry.py: PathCollection", "traceon/geometry.py: Surface.__add__", "traceon/geometry.py: SurfaceCollection"]}
{"id": "C32", "title": "An excitation only mentions electrodes of its mesh", "statement": "After any sequence of add_* calls (failed ones included), every name in the excitation is an electrode of the mesh, every name carries exactly one excitation (the last one successfully assigned), and other names are untouched.", "quantifier": "all meshes and all sequences of add_* calls", "why_tests_cant": "histories of calls with partial failures", "anchors": ["traceon/excitation.py: Excitation.add_voltage", "traceon/excitation.py: Excitation.add_current", "traceon/excitation.py: Excitation.add_dielectric", "traceon/excitation.py: Excitation.add_magnetizable"]}
{"id": "C33", "title": "Active elements keep their names", "statement": "get_electrostatic_active_elements / get_magnetostatic_active_elements return exactly the elements carrying an excitation of that kind (each once, in mesh order), and names[n] indexes exactly the elements of group n in the returned array.", "quantifier": "all meshes, groups and excitations", "why_tests_cant": "renumbering by cumulative sums for every subset", "anchors": ["traceon/excitation.py: Excitation._get_active_elements"]}
{"id": "C34", "title": "Every matrix element gets the type and value of its electrode", "statement": "In the linear system, the element belonging to one excited electrode n has the excitation type of n and as right hand side its voltage (function value at its centre for voltage functions), and 0 for dielectrics.", "quantifier": "all meshes and excitations", "why_tests_cant": "loops over dictionaries with index arrays", "anchors": ["traceon/solver.py: Solver.__init__", "traceon/solver.py: ElectrostaticSolver.get_right_hand_side"]}
{"id": "C35", "title": "Superposition of unit fields reproduces the full solution", "statement": "The fields returned by solve_direct_superposition, weighted by the voltages/currents originally assigned, add up to the field of solve_direct.", "quantifier": "all excitations without voltage functions", "why_tests_cant": "all voltage settings", "anchors": ["traceon/excitation.py: Excitation._split_for_superposition", "traceon/solver.py: solve_direct_superposition"]}
{"id": "C36", "title": "The matrix is completely filled for any number of threads", "statement": "Whatever the number of threads, every row of the BEM matrix is computed exactly once.", "quantifier": "all matrix sizes and thread counts", "why_tests_cant": "depends on machine core count", "anchors": ["traceon/solver.py: Solver.get_matrix", "traceon/util.py: split_collect", "traceon/backend/__init__.py: fill_matrix_radial", "traceon/backend/__init__.py: fill_matrix_3d"]}
{"id": "C37", "title": "Threaded evaluation is independent of scheduling", "statement": "split_collect returns the per-chunk results in chunk order for every interleaving of the threads, and for element-wise functions their concatenation equals the unsplit result; at least one thread is always used.", "quantifier": "all arrays, thread counts and schedules", "why_tests_cant": "schedules cannot be enumerated by tests", "anchors": ["traceon/util.py: split_collect", "traceon/util.py: get_number_of_threads"]}
{"id": "C38", "title": "Adding charge distributions superposes potentials", "statement": "The potential of the sum of two sets of effective point charges is the sum of their potentials at every point; scaling scales it; negation negates it.", "quantifier": "all charge sets (same or different element positions), all points", "why_tests_cant": "real-valued inputs, both branches of +", "anchors": ["traceon/solver.py: EffectivePointCharges.__add__", "traceon/solver.py: EffectivePointCharges.__mul__", "traceon/backend/three_d.c: potential_3d"]}
{"id": "C39", "title": "Fields support +, - and * as documented", "statement": "For fields f, g of the same kind and a number a: f+g, f-g, a*f, f*a and -f are fields whose potentials are the corresponding combinations.", "quantifier": "all fields and numbers, for radial, 3D and axial fields", "why_tests_cant": "operator dispatch over all operand kinds", "anchors": ["traceon/solver.py: FieldBEM.__add__", "traceon/solver.py: FieldBEM.__sub__", "traceon/solver.py: FieldBEM.__mul__", "traceon/solver.py: FieldBEM.__neg__", "traceon/interpolation.py: FieldAxial.__add__"]}
{"id": "C40", "title": "field_at_point refuses ambiguous fields", "statement": "field_at_point / potential_at_point return the electrostatic (magnetostatic) value iff the field is purely electrostatic (magnetostatic), and raise otherwise; potential and field always make the same choice.", "quantifier": "all fields", "why_tests_cant": "all flag combinations and class implementations", "anchors": ["traceon/solver.py: Field.field_at_point", "traceon/solver.py: Field.potential_at_point"]}
{"id": "C41", "title": "The total current of a coil is the requested current", "statement": "The current assigned to a coil is distributed over its triangles such that the quadrature sum of the current density over the coil is exactly the requested current, independent of the mesh.", "quantifier": "all triangulations with non-zero area", "why_tests_cant": "all meshes", "anchors": ["traceon/solver.py: MagnetostaticSolver.get_current_charges"]}
{"id": "C42", "title": "Dielectric interface condition", "statement": "The factor relating mean flux density to surface charge satisfies sigma = D2 - D1 for D2 = K D1 and mean (D1+D2)/2; it is zero for vacuum (K=1) and -2 for a boundary (K=0).", "quantifier": "all K != -1 and all field values", "why_tests_cant": "real-valued inputs", "anchors": ["traceon/backend/radial_ring.c: flux_density_to_charge_factor"]}
{"id": "C43", "title": "The 3D electric field is minus the gradient of the potential", "statement": "At every point not coinciding with a charge, the field returned by electrostatic_field_at_point of a 3D BEM field is minus the gradient of electrostatic_potential_at_point.", "quantifier": "all charge distributions and points", "why_tests_cant": "a derivative over a continuum", "anchors": ["traceon/backend/three_d.c: field_3d", "traceon/backend/three_d.c: potential_3d", "traceon/backend/three_d_point.c: dx1_potential_3d_point"]}
{"id": "C44", "title": "Magnetic fields do no work", "statement": "The magnetic part of the force used for tracing is perpendicular to the velocity, and the force is E + mu_0 v x (H_mag + H_current), with the measured values of mu_0 and of the charge over mass of the electron.", "quantifier": "all velocities and fields", "why_tests_cant": "real-valued inputs", "anchors": ["traceon/backend/utilities_3d.c: combine_elec_magnetic_field"]}
{"id": "C45", "title": "Uniform fields are traced exactly", "statement": "One step of the integrator in a uniform electric field (in particular without field) gives exactly the parabola x + v h + a h^2/2, v + a h with zero error estimate.", "quantifier": "all states, step sizes and uniform fields", "why_tests_cant": "real-valued inputs", "anchors": ["traceon/backend/tracing.c: trace_particle", "traceon/backend/tracing.c: produce_new_y", "traceon/backend/tracing.c: produce_new_k"]}
{"id": "C46", "title": "A trajectory stays in bounds, advances in time and meets the tolerance", "statement": "In the arrays returned by a tracer: the first row is the initial state at time 0, times strictly increase, all positions but the last lie within the tracer bounds, the last lies outside, no step is longer than the maximum step and every accepted step has estimated error <= atol.", "quantifier": "all fields, bounds, tolerances and initial states for which the tracer returns", "why_tests_cant": "unbounded number of steps", "anchors": ["traceon/backend/tracing.c: trace_particle"]}
{"id": "C47", "title": "Long trajectories are glued without gaps or duplicates", "statement": "When a trajectory needs several blocks, the concatenated result contains the initial state once, each accepted step once, in order, for every number of blocks, including a trajectory that leaves the bounds exactly at the end of a block.", "quantifier": "all trajectories and block counts", "why_tests_cant": "needs trajectories of more than 100000 steps", "anchors": ["traceon/backend/__init__.py: trace_particle_wrapper"]}
{"id": "C48", "title": "Outside the field bounds there is no field", "statement": "After set_bounds the particle feels no force outside the bounds, in x, y and z, for radial and 3D fields.", "quantifier": "all bounds, points and fields", "why_tests_cant": "real-valued inputs", "anchors": ["traceon/solver.py: FieldBEM.set_bounds", "traceon/backend/tracing.c: field_radial_traceable", "traceon/backend/tracing.c: field_3d_traceable", "traceon/tracing.py: Tracer3D_BEM.__call__"]}
{"id": "C49", "title": "Plane intersection finds the last crossing", "statement": "plane_intersection returns a point that lies in the plane, on the segment between two consecutive trajectory points, namely the last such pair on different sides; it raises iff no consecutive pair changes sides.", "quantifier": "all trajectories and planes", "why_tests_cant": "trajectories of any length", "anchors": ["traceon/backend/tracing.c: plane_intersection", "traceon/tracing.py: plane_intersection"]}
{"id": "C50", "title": "Initial velocities carry the requested energy", "statement": "The velocity used for tracing after velocity_vec(eV, direction) has kinetic energy eV electron volt and points along direction; velocity_vec_spherical and velocity_vec_xz_plane point in the advertised directions.", "quantifier": "all energies > 0 and non-zero directions", "why_tests_cant": "real-valued inputs", "anchors": ["traceon/tracing.py: velocity_vec", "traceon/tracing.py: _convert_velocity_to_SI"]}
{"id": "C51", "title": "Axial derivatives are the derivatives of the axial potential", "statement": "The n-th number returned by the axial derivative routines (charged rings and current rings) is the n-th derivative, with respect to position on the axis, of the axial potential of the ring.", "quantifier": "all rings off the axis point, all positions, all n", "why_tests_cant": "an n-th derivative for all n", "anchors": ["traceon/backend/radial_ring.c: axial_derivatives_radial_ring", "traceon/backend/radial_ring.c: current_axial_derivatives_radial_ring"]}
{"id": "C52", "title": "The radial series field is minus the gradient of the radial series potential", "statement": "For axial interpolated fields, E_x and E_y are exactly minus the x and y derivatives of the potential at every point inside the interpolation range, and the series is the harmonic continuation of the axial potential.", "quantifier": "all coefficients and points", "why_tests_cant": "derivative over a continuum", "anchors": ["traceon/backend/radial.c: field_radial_derivs", "traceon/backend/radial.c: potential_radial_derivs"]}
{"id": "C53", "title": "Axial interpolation reads coefficients that exist", "statement": "Evaluating an axially interpolated field at any z inside [z_first, z_last] uses the coefficients of the interval containing z, never an index outside the coefficient array; outside it returns zero.", "quantifier": "all sample grids and z", "why_tests_cant": "boundary cases on a continuum", "anchors": ["traceon/backend/radial.c: potential_radial_derivs", "traceon/backend/radial.c: field_radial_derivs", "traceon/backend/three_d.c: potential_3d_derivs"]}
{"id": "C54", "title": "Curved line elements interpolate their four points", "statement": "The higher order line element passes through its four points at parameters -1, -1/3, 1/3, 1, its Jacobian is the speed of the parametrisation, its normal is perpendicular to the tangent and of unit length; reversing the element reverses the parametrisation.", "quantifier": "all points and parameters", "why_tests_cant": "polynomial identities over the reals", "anchors": ["traceon/backend/utilities_2d.c: position_and_jacobian_radial", "traceon/backend/utilities_2d.c: higher_order_normal_radial"]}
{"id": "C55", "title": "Triangle integrals use an isometric frame and exact inner integrals", "statement": "The local frame used for the potential/flux of a triangle preserves distances to the target, the triangle height is positive, and the integrands are the exact inner integrals of 1/r resp. of the field components (including the special branch for small distance). For a target outside a sphere around the triangle (radius rho < 1 times the distance d of the target from the centre), the potential that is returned differs from the surface integral of 1/r by at most (2 area/d)(2 rho^23 (1+rho)/(1-rho)^2 + 2.3e-14/(1-rho)).", "quantifier": "all non-degenerate triangles and targets", "why_tests_cant": "integrals over a continuum", "anchors": ["traceon/backend/triangle.c: potential_triangle", "traceon/backend/triangle.c: _potential_integrand", "traceon/backend/triangle.c: _flux_integrand"]}
{"id": "C56", "title": "Adaptive integration covers the interval", "statement": "If the adaptive quadrature returns, its result is the sum of the quadrature values over adjacent intervals that exactly partition [a,b], each of which met the tolerance; for b <= a it returns 0. Whatever the tolerances and however the interval was divided, if a polynomial of degree at most 23 bounded by B is within eps of the integrand on [a,b], the result is within (b-a)(2 eps + 2.3e-14 B) of the integral.", "quantifier": "all integrands, intervals and tolerances for which it returns", "why_tests_cant": "unbounded refinement", "anchors": ["traceon/backend/kronrod.c: kronrod_adaptive"]}
{"id": "C57", "title": "Straight rays through one point are focused to that point", "statement": "focus_position applied to trajectories whose final straight extensions all pass through one point returns that point, provided not all are parallel.", "quantifier": "all bundles of rays", "why_tests_cant": "all numbers of rays and directions", "anchors": ["traceon/focus.py: focus_position"]}
{"id": "C58", "title": "Radially symmetric fields are radially symmetric", "statement": "For radial fields the potential is unchanged and the field rotates along when the evaluation point is rotated about the z-axis; the field on the axis points along the axis.", "quantifier": "all charge distributions, points and angles", "why_tests_cant": "real-valued inputs", "anchors": ["traceon/backend/radial.c: field_radial", "traceon/backend/radial.c: potential_radial", "traceon/backend/radial.c: current_field"]}
{"id": "C59", "title": "Matrix rows express the boundary conditions", "statement": "Row i of the 3D BEM matrix applied to a charge vector is the potential at the centre of triangle i (voltage elements) resp. the interface condition (dielectric elements); the diagonal is never counted twice. The potential that the row stands for is that of the uniformly charged triangles.", "quantifier": "all meshes, excitations and charge vectors", "why_tests_cant": "all triangle pairs and distance regimes", "anchors": ["traceon/backend/tracing.c: fill_matrix_3d"]}
{"id": "C60", "title": "Log messages are filtered by level", "statement": "A message of severity s is printed iff the current log level is at most s; an unknown or missing TRACEON_LOG_LEVEL means INFO.", "quantifier": "all levels, messages and environment values", "why_tests_cant": "all strings", "anchors": ["traceon/logging.py"]}
{"id": "C61", "title": "Mapping points keeps the mesh structure", "statement": "Mapping the points of a mesh by an injective function that keeps mapped points distinguishable keeps the number and order of elements, the groups, and maps each corner coordinate by the function.", "quantifier": "all meshes and injective maps", "why_tests_cant": "all meshes and maps", "anchors": ["traceon/mesher.py: Mesh.map_points"]}
{"id": "C62", "title": "Clearing low bits moves points by a negligible, one-sided amount", "statement": "Constructing a mesh moves each coordinate towards zero by less than 2^16 units in the last place, never changes its sign (in terms of the numbers: by a relative amount of at most 2^-36, or by 2^-1058 for numbers that are subnormal), and constructing again moves nothing. Points are sorted by their z, then y, then x coordinate as numbers.", "quantifier": "all doubles (bit patterns)", "why_tests_cant": "2^64 bit patterns", "anchors": ["traceon/mesher.py: Mesh._deduplicate_points"]}
{"id": "C63", "title": "Triangles of a connected orientable piece end up consistently oriented", "statement": "Re-orienting the triangles of a connected piece for which a consistent orientation exists yields a consistent orientation: two triangles that share an edge traverse it in opposite directions; triangles are only ever turned over.", "quantifier": "all connected consistently orientable triangle sets in general position, any size and storage order", "why_tests_cant": "the walk order depends on the numbering of all elements; only an invariant covers all triangulations", "anchors": ["traceon/mesher.py:_reorient_triangles", "traceon/mesher.py:Mesh.ensure_outward_normals", "traceon/backend/triangle.c:triangle_orientation_is_equal"]}
{"id": "C64", "title": "Rectangles, disks and spheres are the sets their names say", "statement": "The points of the paths rectangle_xz/yz/xy are exactly the outline of the rectangle and the paths are closed; the points of Surface.rectangle_xz/yz/xy, disk_xz/yz/xy and sphere are exactly the filled rectangle, the filled disk and the sphere with the given extents, and every point is defined.", "quantifier": "all extents with xmin < xmax etc., all radii > 0, all parameters", "why_tests_cant": "real-valued inputs, set equality", "anchors": ["traceon/geometry.py: Path.rectangle_xz, Path.rectangle_yz, Path.rectangle_xy, Surface.rectangle_xz, Surface.disk_xz, Surface.sphere"]}
{"id": "C65", "title": "Extruded or revolved boundaries fit their caps", "statement": "extrude_boundary, extrude_boundary_by_path and revolve_boundary_x/y/z return the surface, one side per boundary path, and (if enclosed and not a full turn) a cap; every side starts on its edge of the surface and ends on the same edge of the cap, so the result is watertight along those edges.", "quantifier": "all surfaces, vectors, angles and edge parameters", "why_tests_cant": "real-valued inputs and arbitrary user supplied surface functions", "anchors": ["traceon/geometry.py: Surface.extrude_boundary, Surface.extrude_boundary_by_path, Surface.revolve_boundary_x, Surface.revolve_boundary_y, Surface.revolve_boundary_z, Surface.get_boundary_paths"]}
{"id": "C66", "title": "Meshing a surface finishes", "statement": "For a surface whose function is defined on its parameter rectangle and does not move infinitely fast (Lipschitz), and a mesh size bounded from below by a positive number, Surface.mesh terminates and gives a valid mesh in which the given name is the name of all triangles.", "quantifier": "all Lipschitz surfaces, all breakpoints, all mesh size functions bounded from below", "why_tests_cant": "termination for all inputs", "anchors": ["traceon/mesher.py: _subdivide_quads", "traceon/mesher.py: _mesh", "traceon/geometry.py: Surface.mesh"]}
{"id": "C67", "title": "The mesh of a surface covers the surface", "statement": "Every point of the surface is represented in its mesh: for each (u, v) of the parameter rectangle there is a triangle whose corners are surface points at parameters surrounding (u, v); for flat surfaces the triangles cover the surface in space.", "quantifier": "all surfaces, mesh sizes and breakpoints", "why_tests_cant": "all points of all surfaces", "anchors": ["traceon/mesher.py: _mesh", "traceon/mesher.py: _subdivide_quads", "traceon/mesher.py: PointsWithQuads.to_triangles"]}
{"id": "C68", "title": "Radial potentials and fields are those of charged rings", "statement": "For radially symmetric charge distributions, apart from the approximation of the complete elliptic integrals, potential_at_point is the superposition of the potentials of uniformly charged rings and the field is minus its gradient.", "quantifier": "all charge distributions and all points not on a ring (and not within 1e-10 of the axis but off it)", "why_tests_cant": "derivatives and integrals over a continuum", "anchors": ["traceon/backend/radial_ring.c: potential_radial_ring", "traceon/backend/radial_ring.c: dr1_potential_radial_ring", "traceon/backend/radial_ring.c: dz1_potential_radial_ring", "traceon/backend/radial.c: field_radial"]}
{"id": "C69", "title": "The current field obeys the law of Biot and Savart", "statement": "Apart from the approximation of the complete elliptic integrals, current_field_at_point is the superposition of the Biot-Savart fields of circular current loops around the axis.", "quantifier": "all current distributions and all points not on a loop (and not within 1e-10 of the axis but off it)", "why_tests_cant": "integrals over a continuum", "anchors": ["traceon/backend/radial_ring.c: current_field_radial_ring", "traceon/backend/radial.c: current_field"]}
{"id": "C70", "title": "The integrator is a fifth order method with a fourth order error estimate", "statement": "Each step of a tracer is a step of Fehlberg's embedded Runge-Kutta pair: the advanced state satisfies all order conditions up to order five and the state it is compared with those up to order four; on linear equations of motion the step equals the Taylor polynomial of the exact solution up to order five.", "quantifier": "all fields, states and step sizes; all rooted trees up to the order", "why_tests_cant": "a wrong coefficient only changes the order of convergence, for every input", "anchors": ["traceon/backend/tracing.c: trace_particle", "traceon/backend/tracing.c: produce_new_y"]}
{"id": "C71", "title": "Axially interpolated fields reproduce the samples and are continuous", "statement": "A field obtained by axial interpolation returns, at every sample position and any distance from the axis, the potential and field of the radial series with the exact axial derivatives, and its potential and field are continuous functions of the position throughout the interpolation range.", "quantifier": "all axial potentials, ranges and numbers of samples, all points with zmin <= z < zmax", "why_tests_cant": "continuity over a continuum, for every potential and every number of samples", "anchors": ["traceon/interpolation.py: _quintic_spline_coefficients", "traceon/interpolation.py: FieldRadialAxial._get_interpolation_coefficients", "traceon/backend/radial.c: potential_radial_derivs", "traceon/backend/radial.c: field_radial_derivs"]}
{"id": "C72", "title": "Radial matrix rows express the boundary conditions", "statement": "In a radially symmetric problem the row of the linear system of an element with a given potential, applied to any charges, is the potential at the centre of the element: that of the returned field object for all other elements plus the integral over the element itself. The row of a dielectric or magnetizable element holds exactly if the interface condition for the mean normal field (of the charges and, in magnetostatics, the coils) holds at its centre. The integrals over the element itself exist.", "quantifier": "all radially symmetric meshes, excitations, charge vectors and thread schedules", "why_tests_cant": "all element shapes, pairs and schedules; a wrong factor on the diagonal only shows up as a slightly wrong field", "anchors": ["traceon/backend/radial.c: fill_matrix_radial", "traceon/backend/radial.c: self_potential_radial", "traceon/backend/radial.c: self_field_dot_normal_radial", "traceon/solver.py: Solver.get_matrix", "traceon/solver.py: MagnetostaticSolver.get_right_hand_side"]}
{"id": "C73", "title": "Areas and charges of elements", "statement": "area_of_element is the area of the triangle (3D) or of the surface swept out around the axis (radial), up to the rounding of the tables and, for curved radial elements, an error that falls with the eighth power of the unevenness of the parameter along the element; area_of_elements and charge_on_elements are sums that do not depend on order or grouping; the total charge on all elements is the one which the potential shows far away: 4 pi |p| potential(p) tends to it in every direction.", "quantifier": "all meshes, charges and index lists", "why_tests_cant": "limit at infinity over all charge distributions", "anchors": ["traceon/solver.py: FieldBEM.area_of_elements", "traceon/solver.py: FieldBEM.charge_on_elements", "traceon/solver.py: FieldRadialBEM.area_of_element", "traceon/solver.py: Field3D_BEM.area_of_element", "traceon/backend/radial.c: charge_radial", "traceon/backend/three_d.c: triangle_areas"]}
{"id": "C74", "title": "Paths from an arbitrary parametrisation, and averages", "statement": "A path made from a parametrisation u -> point starts at u=0, ends at u=1, lies on the given curve and runs through the whole curve in order; a uniform straight segment gives the path Path.line gives; a spline through points meets all of them in their order; an ellipse is closed and lies on the ellipse; the breakpoints given are the points of those parameters; the average of a function along a path is linear, lies between its bounds, is the weighted average over joined paths.", "quantifier": "all parametrisations, sample counts, point lists, axes and functions", "why_tests_cant": "the curve, the number of samples and the averaged function are arbitrary; continuity decides whether points are met", "anchors": ["traceon/geometry.py: Path.from_irregular_function", "traceon/geometry.py: Path.spline_through_points", "traceon/geometry.py: Path.ellipse", "traceon/geometry.py: Path.average"]}
{"id": "C75", "title": "The elliptic integrals, and with them the radial fields, are accurate", "statement": "The elliptic integral routines differ from the complete elliptic integrals by at most 6e-13 for every parameter in range; the radial potential of a charge distribution differs from the exact potential of the charged rings by at most 4e-13 of the sum of the absolute contributions, the radial field and the current field differ from the exact gradient and the law of Biot and Savart by explicitly bounded amounts of the same order.", "quantifier": "all parameters in (0, 1], all charge and current distributions, all points off the rings (on the axis or at least 1e-10 from it)", "why_tests_cant": "the error of an approximation over a continuum, down to the singularity at p=0", "anchors": ["traceon/backend/elliptic.c: ellipkm1", "traceon/backend/elliptic.c: ellipem1", "traceon/backend/elliptic.c: ellipk", "traceon/backend/elliptic.c: ellipe", "traceon/backend/radial_ring.c: potential_radial_ring", "traceon/backend/radial.c: field_radial", "traceon/backend/radial.c: current_field"]}
{"id": "C76", "title": "The quadrature rules are accurate", "statement": "The sums over quadrature points that stand for integrals are accurate: the 16-point rule along a line element is exact up to rounding of its tables for polynomials to degree 31 and, for a function with bounded derivatives, has an explicitly bounded error; the 12-point rule on a triangle is exact up to degree 6; the potential and the field reported for uniformly charged triangles differ from the exact surface integrals by an error that falls with the seventh power of size over distance; the test with which the solver chooses the 12-point rule guarantees a small error.", "quantifier": "all polynomials, smooth functions, curved elements, triangles, charges, points and directions", "why_tests_cant": "an error bound over a continuum of functions, triangles and points", "anchors": ["traceon/backend/utilities_2d.c: GAUSS_QUAD_WEIGHTS, GAUSS_QUAD_POINTS", "traceon/backend/utilities_3d.c: QUAD_WEIGHTS, QUAD_B1, QUAD_B2", "traceon/backend/radial.c: fill_jacobian_buffer_radial, potential_radial", "traceon/backend/tracing.c: fill_jacobian_buffer_3d, fill_matrix_3d", "traceon/backend/three_d.c: potential_3d, field_3d"]}
{"id": "C77", "title": "The expansion of a 3D potential around the axis is right", "statement": "The coefficients that the back end computes for a point of the optical axis are those of the multipole expansion of the exact potential of the charges: their sum differs from the exact potential at distance r of the axis by a relative error of the eighth order in r/R (R the distance to the nearest charge); each coefficient is the continuation by the equation of Laplace of the lowest one of its multipole. The field computed from interpolated coefficients is minus the gradient of the potential computed from them, and the force on a traced electron is E + mu0 v x H of the two tables. Every point of the interpolation range can be evaluated.", "quantifier": "all charge distributions off the axis, all points nearer to the axis point than the charges, all tables of interpolation coefficients, positions and velocities", "why_tests_cant": "tables of 64 closed formulas and an error bound for every position of every charge; a gradient at every point", "anchors": ["traceon/backend/three_d.c: axial_coefficients_3d", "traceon/backend/three_d.c: potential_3d_derivs", "traceon/backend/three_d.c: field_3d_derivs", "traceon/backend/tracing.c: field_3d_derivs_traceable", "traceon/backend/__init__.py: axial_coefficients_3d, potential_3d_derivs, field_3d_derivs", "traceon/tracing.py: Tracer3DAxial"]}
{"id": "C78", "title": "Traced trajectories converge with order five", "statement": "Let Y be an exact solution of the equation of motion of the traced particle on [0,T], along which the force is smooth (for the 3D tracer: it meets none of the point charges; for the radial tracer: it stays off the axis, the charged rings and the coils). Then there are a constant C and a step length h1 such that, for every call of the tracer from the start of Y, with whatever box, tolerance and block size, each returned row up to which no step was longer than eta <= h1 differs from Y at the time of that row by at most C*t*eta^5.", "quantifier": "all exact trajectories, all charge distributions and coils, all boxes, tolerances and block sizes, all rows", "why_tests_cant": "a global error bound over all numbers of steps and all sequences of adaptively chosen step lengths", "anchors": ["traceon/backend/tracing.c: trace_particle, produce_new_y, produce_new_k", "traceon/backend/__init__.py: trace_particle_wrapper", "traceon/tracing.py: Tracer3D_BEM, TracerRadialBEM"]}
{"id": "C79", "title": "The tracer makes progress, and fast particles leave the box", "statement": "For a moving particle the compiled tracing routine never hangs: if the force is bounded near every state that the trajectory reaches inside the box (for the 3D tracer: it hits no point charge; for the radial tracer: no charged ring and no coil; the axis is allowed), every call returns after finitely many trial steps. If the acceleration is bounded, nowhere less than -g in a direction n, the box extends at most L in that direction, and the particle moves forward with v*v >= 2g(L+5 mm), then the whole trace returns, with any tolerance and block size; in particular if the force never points backwards.", "quantifier": "all forces, boxes, positive tolerances, block sizes, starting states", "why_tests_cant": "termination of a loop with adaptive steps for every force and start", "anchors": ["traceon/backend/tracing.c: trace_particle", "traceon/backend/__init__.py: trace_particle_wrapper", "traceon/tracing.py: TracerRadialBEM, Tracer3D_BEM"]}
{"id": "C80", "title": "The field returned by solve_direct does what the excitation asks for", "statement": "Build an excitation on a valid mesh with any sequence of add_voltage, add_current, add_dielectric, add_magnetizable, add_*_boundary calls and pass it to solve_direct, with any number of threads. If a field is returned, its charges sit on exactly those elements which carry an excitation of the respective kind, and every such element does what was asked for: at the centre of an element with a voltage (or magnetic potential) the potential is that voltage, at the centre of an element with a voltage function it is the value of the function there, and on dielectrics and magnetizable elements the interface condition holds, including the field of the coils. Voltages and magnetic potentials can be combined in one excitation.", "quantifier": "all valid meshes, all sequences of calls that build the excitation, all numbers of threads and all schedules", "why_tests_cant": "end-to-end correctness over all meshes, histories of calls and thread schedules", "anchors": ["traceon/solver.py: solve_direct, Solver.__init__, ElectrostaticSolver, MagnetostaticSolver, get_matrix, solve_matrix, charges_to_field", "traceon/excitation.py: Excitation", "traceon/backend/tracing.c: fill_matrix_3d", "traceon/backend/radial.c: fill_matrix_radial"]}
{"id": "C81", "title": "A moved or renumbered problem has the moved solution", "statement": "Move a three dimensional problem by a rotation and a translation (mesh, and the functions of the position that prescribe voltages), number its points and triangles differently, list or name its groups differently: solve_direct then gives the moved field, that is the potential at the moved point is the potential at the point and the field there is the rotated field. With the same problem the result does not depend on the number of threads nor on the schedule. Without dielectrics and magnetizable materials reflections are allowed too.", "quantifier": "all valid three dimensional problems without currents, all rigid motions, all renumberings, all numbers of threads and schedules", "why_tests_cant": "quantifies over pairs of runs on all meshes, motions and schedules", "anchors": ["traceon/solver.py: solve_direct, Solver, ElectrostaticSolver, MagnetostaticSolver", "traceon/backend/tracing.c: fill_matrix_3d, potential_3d, field_3d", "traceon/backend/triangle.c: potential_triangle, flux_triangle", "traceon/mesher.py: Mesh.is_2d"]}
{"id": "C82", "title": "Extending a path continues where it ends", "statement": "path.line_to(b), path.arc_to(c, b) and path.close() follow the path to its end and then the segment to b, the arc about c, or the segment back to the start; the lengths add up, the corner is a breakpoint, the result ends in b (for arcs: on the ray from c through b, in b if b is as far from c as the end) or, when closed, where it starts. middle_point halves the length of the path; for a line it is the mean of the ends.", "quantifier": "all paths and all points for which the arc is defined", "why_tests_cant": "all paths and positions, and every point along the curve", "anchors": ["traceon/geometry.py: Path.line_to, Path.arc_to, Path.close, Path.middle_point, Path.is_closed"]}
{"id": "C83", "title": "Removing lines or triangles leaves the rest of the mesh as it was", "statement": "mesh.remove_lines() has no lines and no groups of lines, and otherwise the same points, triangles and groups of triangles; mesh.remove_triangles() likewise for triangles. Normals keep their direction.", "quantifier": "all valid meshes", "why_tests_cant": "all meshes", "anchors": ["traceon/mesher.py: Mesh.remove_lines, Mesh.remove_triangles"]}
{"id": "C84", "title": "The solution of solve_direct is linear in the excitation", "statement": "If the voltages, voltage functions, magnetostatic potentials and currents of an excitation are a times those of a second plus b times those of a third excitation of the same groups of the same mesh (with the same material constants), and the second and third are solved, then the first is solved, and every potential and field of its solution at every point is a times that of the second plus b times that of the third. In particular a fully grounded problem has zero fields.", "quantifier": "all valid meshes (radial and 3D), all excitations, all numbers a and b, all thread counts and schedules, all points", "why_tests_cant": "all excitations, meshes and schedules; the matrix is filled by concurrent threads whose writes must be independent of the excitation values", "anchors": ["traceon/solver.py: solve_direct, Solver.get_right_hand_side, Solver.solve_matrix, charges_to_field, ElectrostaticSolverRadial, MagnetostaticSolverRadial, ElectrostaticSolver3D", "traceon/excitation.py: Excitation"]}
{"id": "C85", "title": "Traced electrons keep their energy", "statement": "The total energy (kinetic energy in electron volts minus the electrostatic potential returned by the field, in volts) of an electron traced through a 3D field of electrodes and magnetic material differs, in every row of the result, from its initial energy by at most a constant times t*eta^5, eta being the longest step, as long as the exact trajectory meets no charge; the exact trajectory keeps it exactly. In radially symmetric fields the same holds with an additional drift of at most the speed times the error of the elliptic integrals in the field; magnets and coils alone keep the speed in the same sense, and electrodes alone keep the angular momentum around the axis. An electron launched with velocity_vec(eV, d) starts with kinetic energy eV, and the tracers use the charge over mass ratio of the electron, with its sign.", "quantifier": "all charge distributions, initial positions and velocities, tolerances, bounds and numbers of steps", "why_tests_cant": "all fields and trajectories of any length; the claim relates the potential, the field, the equation of motion and the integrator", "anchors": ["traceon/tracing.py: Tracer.__call__, velocity_vec, _convert_velocity_to_SI", "traceon/backend/tracing.c: trace_particle, produce_new_k", "traceon/backend/definitions.c: EM", "traceon/solver.py: Field3DBEM, FieldRadialBEM"]}
{"id": "C86", "title": "Moving a radially symmetric problem along its axis, reflecting it, changing its unit of length or renumbering its lines changes the solution accordingly", "statement": "If the lines and coils of a radially symmetric problem are moved along the axis by the same distance, or reflected in a plane perpendicular to the axis (the sides of the materials being reflected too and the currents in coils getting the opposite sign), or all lengths are multiplied with the same factor k, or the lines are numbered, named or (for lines with a voltage or potential) directed differently, then solve_direct on the new problem returns whenever it returned on the old one; at the moved points the potentials are the same, and the electric and magnetic fields are reflected accordingly and divided by k. For a pure motion along the axis and a reflection this holds at every point; for a change of the unit of length at every point whose distance to the axis is below the built-in tolerance of 1e-10 both before and after, or neither. In particular a problem that is its own mirror image has a symmetric potential, and no axial field on the plane of symmetry.", "quantifier": "all valid meshes and excitations with radial symmetry, motions along the axis, reflections, factors k > 0, renumberings, thread counts and schedules, all points", "why_tests_cant": "all geometries, factors and numberings; the matrix is filled by threads and mixes rows of different dimension, which must all scale consistently", "anchors": ["traceon/solver.py: solve_direct, Solver.get_matrix, Solver.solve_matrix, MagnetostaticSolver.get_right_hand_side", "traceon/excitation.py: Excitation", "traceon/backend/radial.c: fill_matrix_radial, potential_radial, field_radial, current_field", "traceon/backend/radial_ring.c"]}
{"id": "C87", "title": "The charge on an electrode", "statement": "After solve_direct, field.charge_on_elements(names[n]), with names taken from excitation.get_electrostatic_active_elements() as documented, is the sum over the elements of physical group n of surface charge density times area, for the very densities whose potential the field computes; names of groups are never mixed up, whatever else the mesh contains. Groups which together contain every electrostatically excited element once have together the charge seen from far away (4 pi r phi). The charge on every group is linear in the voltages, so that capacitances are well defined.", "quantifier": "all valid meshes, sequences of excitation calls, groups, radial and 3D, thread counts and schedules", "why_tests_cant": "the index of an element among the excited elements depends on every group and excitation of the mesh; tests check one electrode", "anchors": ["traceon/solver.py: FieldBEM.charge_on_element, charge_on_elements, area_of_element, solve_direct", "traceon/excitation.py: Excitation.get_electrostatic_active_elements, _get_active_elements"]}
{"id": "C88", "title": "Materials that are vacuum are invisible", "statement": "Adding a dielectric with relative permittivity 1 or a magnetizable material with relative permeability 1 to a problem changes nothing that can be observed: solve_direct returns a field with such materials exactly if it returns one without them, and the two fields have the same electrostatic and magnetostatic potential and field at every point (potential_at_point and field_at_point too, as long as charges are left at all).", "quantifier": "all valid meshes, excitations, sets of such materials on elements without another excitation of the same kind, radial and 3D, thread counts and schedules", "why_tests_cant": "the additional elements renumber all rows of the matrix and change which thread fills which row; a test checks one geometry within a tolerance", "anchors": ["traceon/solver.py: solve_direct, Solver.get_matrix, Solver.solve_matrix", "traceon/backend/radial_ring.c: flux_density_to_charge_factor", "traceon/excitation.py: add_dielectric, add_magnetizable"]}
{"id": "C89", "title": "Electrons in an axis or plane of symmetry stay there", "statement": "An electron traced with field.get_tracer(bounds)(position, velocity) that starts on the axis of a radially symmetric field and moves along it stays exactly on the axis, in electrostatic and magnetostatic fields from charges, coils or the radial series, with or without field bounds. In a radially symmetric field without magnetic field an electron that starts in a plane through the axis and moves along it stays in this plane. In a three dimensional problem with a mirror plane or an axis of rotation the electron that starts in the plane or on the axis, moving along it, stays there (for mirror planes: without magnetic excitations). In a radially symmetric problem without magnetic excitations that is its own mirror image in a plane perpendicular to the axis, an electron that starts in this plane, moving along it, stays in it. All rows of the result are concerned, whatever the number of steps, rejected steps and blocks.", "quantifier": "all fields, symmetric problems, starting states, bounds, tolerances, block sizes and numbers of steps", "why_tests_cant": "a test follows one trajectory to a tolerance; a wrong component in one stage of the method or one component of a field shows only for particular directions", "anchors": ["traceon/tracing.py: TracerRadialBEM, TracerRadialAxial, Tracer3D_BEM", "traceon/solver.py: get_tracer", "traceon/backend/tracing.c: trace_particle, field_radial_traceable, field_3d_traceable, field_radial_derivs_traceable", "traceon/backend/radial.c: field_radial, current_field"]}
{"id": "C90", "title": "Trajectories move with the problem and scale with the voltages", "statement": "If a three dimensional problem is moved by a motion that takes coordinate axes to coordinate axes (a translation, quarter turns, reflections in coordinate planes if there are no magnetic excitations), and the bounds of the tracer and the initial position and velocity are moved likewise, the tracer returns the moved trajectory: the same times and the moved positions and velocities, row by row. The same holds for radially symmetric problems moved along the axis or (without magnetic excitations) reflected in a plane perpendicular to it, and for quarter turns of the initial state around the axis. If all voltages are multiplied with k^2 and the electron has k^2 times the energy, the tracer returns the same positions with velocities multiplied with k, at times divided by k.", "quantifier": "all problems that can be solved, motions of this kind, factors, starting states, bounds, tolerances, block sizes, thread counts and schedules", "why_tests_cant": "the adaptive step makes the number and the lengths of steps depend on all components of the field; a test compares two trajectories to a tolerance at their end", "anchors": ["traceon/tracing.py: Tracer, _convert_velocity_to_SI", "traceon/backend/tracing.c: trace_particle, produce_new_y, produce_new_k", "traceon/solver.py: solve_direct, get_tracer"]}
{"id": "C91", "title": "What is named is what is excited", "statement": "Make parts (paths, surfaces, or collections of them) that carry names, mesh and add them, build an excitation on the sum with any sequence of add_* calls (calls that raise included), and call solve_direct with any number of threads. If it returns, then the field consists of charges on exactly those elements of the parts whose name has an excitation of the kind solved for (for triangles: those that are not degenerate), each element once, and every one of them does what the excitation last granted to its name asks for: its potential is the voltage of its name (the voltage function at its centre), or the interface condition of its material holds. Neither the merging of points, nor the removal of degenerate triangles, nor the renumbering by additions, nor turning normals, nor the upgrade of straight lines gives an element the excitation of another name.", "quantifier": "all lists of parts whose elements carry at most one name, all histories of add_* calls, all numbers of threads and schedules", "why_tests_cant": "The pipeline renumbers elements and points at every stage; a test sees a few geometries, a mix up of indices may need a particular order of points, coinciding points or degenerate triangles to show.", "anchors": ["traceon/geometry.py: Path.mesh, Surface.mesh, SurfaceCollection.mesh, PathCollection.mesh", "traceon/mesher.py: Mesh.__init__, Mesh.__add__, _remove_degenerate_triangles, _deduplicate_points", "traceon/excitation.py: Excitation, get_active_elements", "traceon/solver.py: Solver.__init__, solve_direct"]}
{"id": "C92", "title": "A mesh read from a file is the mesh in the file", "statement": "from_meshio, applied to a file with first order triangles and lines of one kind, returns a valid mesh whose lines are all lines of the file in order (over all blocks of cells), whose triangles are all non-degenerate triangles of the file in order, and in which each name names exactly the lines and the triangles that the file's cell set of that name contains.", "quantifier": "all mesh files (any number of blocks of cells of any types in any order, any named sets)", "why_tests_cant": "index bookkeeping over arbitrary block structures and cell sets", "anchors": ["traceon/mesher.py: Mesh.from_meshio", "traceon/mesher.py: Mesh.read_file"]}
{"id": "C93", "title": "Three dimensional fields satisfy the vacuum equations away from the charged elements", "statement": "At every point that lies on no excited triangle, the electrostatic field returned by a 3D solve has zero divergence and zero curl and the electrostatic potential satisfies Laplace's equation; likewise the magnetostatic field and potential.", "quantifier": "all meshes, excitations and points off the excited triangles", "why_tests_cant": "derivatives over a continuum of points, for every mesh and excitation", "anchors": ["traceon/backend/three_d.c: field_3d, potential_3d", "traceon/backend/three_d_point.c", "traceon/solver.py: Field3D_BEM"]}
{"id": "C94", "title": "A plotted mesh shows every element once, in the colour of its group", "statement": "plot_mesh adds to the current figure every line and every triangle of the mesh exactly once, at the place it has in the mesh, in the colour the caller gave for its physical group (and in the default grey if it is in no group or no colour was given), with a legend entry naming the group; an empty mesh raises and nothing already in the figure is lost.", "quantifier": "all valid meshes, colour assignments, figures and set iteration orders", "why_tests_cant": "the colour depends on which groups share points, for arbitrary meshes and namings", "anchors": ["traceon/plotting.py: Figure.plot_mesh, _create_point_to_physical_dict, _get_vedo_triangles_and_normals, _get_vedo_lines_and_normals"]}
{"id": "C95", "title": "Plotted normals are the normals of the elements", "statement": "With show_normals plot_mesh draws one arrow for every triangle and line: it starts in the middle of the element, is perpendicular to it, on the side given by the orientation of the element, and its length is 3/4 of the side of an equilateral triangle of the same area, or three times the length of the line. Without show_normals no arrows are drawn.", "quantifier": "all valid meshes and figures", "why_tests_cant": "for every triangle and line with real coordinates", "anchors": ["traceon/plotting.py: _get_vedo_triangles_and_normals, _get_vedo_lines_and_normals", "traceon/backend/triangle.c: normal_3d", "traceon/backend/utilities_2d.c: normal_2d"]}
{"id": "C96", "title": "Plotted trajectories join consecutive points that are within the limits", "statement": "plot_trajectories draws each trajectory as lines from each of its points to the next, restricted to the points with xmin <= x <= xmax and so on: two points are joined exactly if they are consecutive and both within the limits. Trajectories without a point within the limits, and empty ones, draw nothing.", "quantifier": "all trajectories, limits and figures", "why_tests_cant": "all sequences of positions, of any length", "anchors": ["traceon/plotting.py: Figure.plot_trajectories"]}
{"id": "C97", "title": "Plotted charge densities are those of the elements", "statement": "plot_charge_density shows every excited element at its place with its own charge, group by group, on a colour scale from the smallest to the largest charge; the electrostatic charges if there are voltages and the magnetostatic ones otherwise.", "quantifier": "all meshes, excitations and charges", "why_tests_cant": "for every excitation the charges must be matched to the elements through two index maps", "anchors": ["traceon/plotting.py: Figure.plot_charge_density, _get_vedo_charge_density_3d, _get_vedo_charge_density_2d", "traceon/excitation.py: _get_active_elements"]}
{"id": "C98", "title": "Each figure is shown once, with all that was drawn in it", "statement": "Drawing functions of the module draw in the figure made last, and make one if there is none; show opens one window for every figure made since the last show, in order, containing everything drawn in it (and its legend if asked for), with axes for two dimensions exactly if all its meshes are two-dimensional; a second show opens nothing.", "quantifier": "all histories of new_figure, drawing and show calls", "why_tests_cant": "the property is about arbitrary histories of calls on module state", "anchors": ["traceon/plotting.py: new_figure, get_current_figure, plot_mesh, plot_trajectories, plot_equipotential_lines, plot_charge_density, show, Figure.show"]}
{"id": "C99", "title": "A potential plot covers the surface and shows the potential there", "statement": "plot_equipotential_lines draws a grid of N0 by N1 vertices that covers the whole surface from corner to corner, and attaches to each vertex the potential at the very point where the vertex is drawn; the isolines are those of the same grid.", "quantifier": "all fields, surfaces and numbers of vertices", "why_tests_cant": "for all fields and surfaces", "anchors": ["traceon/plotting.py: Figure.plot_equipotential_lines, _get_vedo_grid"]}
{"id": "C100", "title": "A saved mesh is read back, and a program that stops while saving does no harm", "statement": "Mesh.read returns the object that the last Mesh.write to the file saved, whatever happened to other files; if the program is stopped at any point during write, the file afterwards holds the old object or the new one.", "quantifier": "all histories of writes by programs that may be stopped after any number of bytes", "why_tests_cant": "the property is about all crash points and histories", "anchors": ["traceon/util.py: Saveable.write, Saveable.read"]}
{"id": "C101", "title": "The mesh of a surface has no cracks", "statement": "In the mesh that Surface.mesh returns no corner of a triangle lies inside an edge of another triangle, and triangles that meet in a point share that point of the mesh. So the triangles of a curved surface meet along whole edges.", "quantifier": "all surfaces, mesh sizes and mesh size functions", "why_tests_cant": "the refinement depends on the surface and the mesh size; a few surfaces show nothing of the others", "anchors": ["traceon/mesher.py: _subdivide_quads, PointStack.to_triangles, _copy_over_edge", "traceon/geometry.py: Surface.mesh"]}
{"id": "C102", "title": "Trajectories consist of numbers", "statement": "Every row of a trajectory returned by a tracer consists of numbers, also if the force on the electron is not a number at some places (0/0 at a charge, or a function that returns NaN). A plane which the electron did not reach is reported as missing by the plane intersection functions.", "quantifier": "all forces, defined everywhere or not, bounds, tolerances, starting positions and velocities", "why_tests_cant": "whether an electron meets a place where the force is not a number depends on the field and the steps taken", "anchors": ["traceon/backend/tracing.c: trace_particle, field_3d_traceable, plane_intersection", "traceon/backend/__init__.py: trace_particle", "traceon/tracing.py: Tracer.__call__, plane_intersection"]}
{"id": "C103", "title": "Axially interpolated fields converge", "statement": "With more samples along the axis, the interpolated potential and field of axial_derivative_interpolation converge to the potential of the charges and to the field of charges and currents, near the axis: the error is at most a constant times h^6 + r^8 h^4 + r^10 for the potential, r h^6 + r^7 h^4 + r^9 for the transversal field, and h^6 + r^6 h^4 + r^8 for the longitudinal field, where h is the distance of the samples and r the distance from the axis. The constant does not depend on the number of samples nor on the point.", "quantifier": "all distributions of charged rings and current rings, all intervals of the axis, all numbers of samples of at least four, all points between the first and the last sample close to the axis", "why_tests_cant": "a claim about the limit of infinitely many samples, for all points", "anchors": ["traceon/interpolation.py: _quintic_spline_coefficients, _get_one_dimensional_high_order_ppoly, FieldRadialAxial", "traceon/backend/radial.c: potential_radial_derivs, field_radial_derivs", "traceon/solver.py: get_electrostatic_axial_potential_derivatives, get_magnetostatic_axial_potential_derivatives"]}
{"id": "C104", "title": "Distance along a path made from a parametrisation is arc length", "statement": "Path.from_irregular_function(to_point, N) of a smooth curve that nowhere stands still gives, for every sufficiently large N, a path whose length is the arc length of the curve up to C/N^2; the point of the path at the distance s is the point of the curve whose arc length from the start is s, up to C/N^2; the path runs through the curve exactly once, in order, without turning back; C depends on the curve only.", "quantifier": "all curves with four continuous derivatives and nonzero speed on [0,1], all numbers of samples from some number on, all distances along the path, all breakpoints", "why_tests_cant": "a claim about all curves and about the limit of infinitely many samples", "anchors": ["traceon/geometry.py: Path.from_irregular_function"]}
{"id": "C105", "title": "The compiled back end reads and writes only inside its arrays", "statement": "Whenever a call of a function of traceon.backend passes the checks made in Python, the C code reads and writes only numbers that belong to the arrays it was given or to its own tables, for all sizes, all contents of the arrays (also NaN) and all roundings. Arrays of the documented shapes, as the library makes them, with any number of elements, pass these checks.", "quantifier": "all shapes of all array arguments, all outcomes of all floating point comparisons and casts, all numbers of integration steps of the tracer", "why_tests_cant": "a read outside of an array usually goes unnoticed: it returns some number from nearby memory; tests see neither the read nor all shapes", "anchors": ["traceon/backend/__init__.py: potential_radial, field_radial, axial_derivatives_radial, current_field, potential_3d, field_3d, axial_coefficients_3d, fill_matrix_radial, fill_matrix_3d, plane_intersection, charge_radial, position_and_jacobian_radial, trace_particle_radial, trace_particle_3d, trace_particle_radial_derivs, trace_particle_3d_derivs", "traceon/backend/radial.c", "traceon/backend/three_d.c", "traceon/backend/tracing.c"]}
{"id": "C106", "title": "Rounding hardly changes potentials and fields of charges", "statement": "With doubles, the potential and the field of a 3D charge distribution and the axial potential of coils differ from the exact sums by no more than the usual estimate \u03b3(m) = m u/(1 - m u) times the sum of the sizes of the contributions, however every operation is rounded and in whatever order the contributions are added; with up to four million additions this is less than 1e-9. The potential of an axisymmetric charge distribution differs from the exact sum by no more than (1600 \u03ba + 2 d) u times the sum of the sizes, where d is the number of additions a contribution goes through and \u03ba compares the distances from the axis with the distance between the point and the rings and with the radii of the rings.", "quantifier": "all charge distributions, all points, all roundings with relative error at most u of every single operation, all orders of the summation", "why_tests_cant": "a test sees one rounding, on one machine with one compiler; the code is compiled with -ffast-math, which changes the order of the summation from compiler to compiler", "anchors": ["traceon/backend/three_d.c: potential_3d, field_3d", "traceon/backend/three_d_point.c: potential_3d_point, dx1_potential_3d_point, dy1_potential_3d_point, dz1_potential_3d_point", "traceon/backend/radial.c: current_potential_axial", "setup.py: extra_compile_args", "traceon/backend/radial.c: potential_radial", "traceon/backend/radial_ring.c: potential_radial_ring", "traceon/backend/elliptic.c: ellipkm1"]}
{"id": "C107", "title": "Gauss's law: the flux out of a box is the charge inside", "statement": "In a solved 3D problem, the flux of field.electrostatic_field out of any rectangular box is the sum of the charges, computed as the documentation says from the excited elements and charge_on_elements, of the physical groups inside it, provided the other excited triangles lie beyond the faces of the box; without charges inside it is zero.", "quantifier": "all meshes, excitations and boxes whose surface is not crossed by an excited triangle, all groups, any solution of the linear system", "why_tests_cant": "the flux is an integral over infinitely many points of the surface, and there are infinitely many boxes", "anchors": ["traceon/solver.py: FieldBEM.charge_on_elements, Field3D_BEM.area_of_element, Field3D_BEM.electrostatic_field_at_point", "traceon/backend/three_d.c: field_3d", "traceon/backend/three_d_point.c: dx1_potential_3d_point, dy1_potential_3d_point, dz1_potential_3d_point", "traceon/backend/utilities_3d.c: the quadrature rule; traceon/backend/tracing.c: fill_jacobian_buffer_3d"]}
{"id": "C108", "title": "Surface meshes respect the mesh size", "statement": "Surface.mesh of a surface drawn from lines and arcs (extruded along a vector or a path, revolved about an axis, rectangles, disks, boxes, spheres, apertures, quadrilaterals) gives triangles none of whose sides is longer than twice the mesh size; with a mesh size that varies in space, twice the mesh size at some point near the triangle.", "quantifier": "all such surfaces, all positive constant mesh sizes and all mesh size functions", "why_tests_cant": "there are infinitely many surfaces and mesh sizes, and the refinement goes to unbounded depth", "anchors": ["traceon/mesher.py: _subdivide_quads, _mesh_subsections_to_quads, _mesh, _quads_to_triangles", "traceon/geometry.py: Surface.mesh, Path.extrude, Path.extrude_by_path, Path.revolve_x, Path.revolve_y, Path.revolve_z, Surface.sphere, Surface.box, Surface.disk_xz, Surface.rectangle_xz, Surface.aperture, Surface.spanned_by_paths"]}
{"id": "C109", "title": "Radially symmetric fields satisfy the vacuum equations", "statement": "Away from the charged surfaces and the coils, the electrostatic and magnetostatic fields of a radially symmetric problem satisfy the equations of a static field in vacuum: up to the accuracy of the elliptic integrals the field returned is a field whose divergence and curl are zero, and the potential returned is a potential that satisfies Laplace's equation. This holds for the field of coils as well.", "quantifier": "all radially symmetric fields (all charges, all coils, all solved problems) and all points on no ring; for the values returned, the points on the axis and those farther than 1e-10 from it", "why_tests_cant": "divergence and curl at every point involve limits, and tests can look at finitely many points of finitely many fields only", "anchors": ["traceon/solver.py: FieldRadialBEM.electrostatic_field_at_point, FieldRadialBEM.magnetostatic_field_at_point, FieldRadialBEM.electrostatic_potential_at_point, FieldRadialBEM.magnetostatic_potential_at_point, FieldRadialBEM.current_field_at_point", "traceon/backend/radial.c: field_radial, current_field, potential_radial", "traceon/backend/radial_ring.c: dr1_potential_radial_ring, dz1_potential_radial_ring, current_field_radial_ring"]}
{"id": "C110", "title": "Amp\u00e8re's law on the axis", "statement": "The integral of the magnetic field of the coils along the whole optical axis is the sum of the currents that were asked for, however the coils are shaped and meshed; between two points of the axis it is the difference of the values of current_potential_axial, which tends to minus and plus half the total current at the two ends of the axis.", "quantifier": "all excitations with coils to the right of the axis, all meshes of the coils, all intervals on the axis", "why_tests_cant": "the law is about an integral over an infinite line, for every coil", "anchors": ["traceon/solver.py: MagnetostaticSolver.get_current_charges, FieldRadialBEM.current_potential_axial, FieldRadialBEM.get_current_axial_potential_derivatives", "traceon/backend/radial.c: current_potential_axial, current_field", "traceon/backend/radial_ring.c: current_potential_axial_radial_ring", "traceon/excitation.py: Excitation.add_current"]}
{"id": "C111", "title": "Radial potentials are those of the charged surfaces of revolution", "statement": "The potential that a radially symmetric field returns is the potential of the surfaces that the elements of the mesh sweep out when rotated around the axis, each carrying the uniform charge density that was solved for. For straight elements the error is at most 4e-13 of the potential plus, per element, area/(4 pi D) times about 5 rho^31, where D is the distance of the point to the circle described by the middle of the element and rho < 1 is half the length of the element divided by D. In a solved problem the exact potential of all these surfaces together is, at the centre of every element that carries a voltage, the voltage that was asked for, up to the same errors.", "quantifier": "all straight elements to the right of the axis, all charges, all points whose rho is below one; all solved problems", "why_tests_cant": "it compares the returned number with a double integral, for every mesh, every charge and every point", "anchors": ["traceon/solver.py: SolverRadial.get_matrix, FieldRadialBEM.electrostatic_potential_at_point, FieldRadialBEM.magnetostatic_potential_at_point, EffectivePointCharges", "traceon/backend/radial.c: potential_radial, fill_jacobian_buffer_radial, fill_matrix_radial, self_potential_radial", "traceon/backend/radial_ring.c: potential_radial_ring"]}
{"id": "C112", "title": "Gauss's law in radial symmetry", "statement": "Put an axis-parallel box around the surfaces of revolution of some of the excited groups of a radially symmetric problem, such that the surfaces of all other excited elements lie outside of it (the surfaces may surround the box or be beyond it). The flux out of this box of the electrostatic field of the charged rings that the solver found, according to Coulomb's law, is the sum of the charges that charge_on_elements gives for these groups. At every point off the surfaces which is on the axis or at least 1e-10 away from it, electrostatic_field returns this field, up to the accuracy of the elliptic integrals.", "quantifier": "all boxes, all radially symmetric meshes and excitations, all sets of groups that fit in a box, all points", "why_tests_cant": "the flux is an integral over all points of the faces of the box, of an integral over the rings, for any mesh, excitation and box", "anchors": ["traceon/solver.py: FieldBEM.charge_on_elements, FieldRadialBEM.area_of_element, FieldRadialBEM.electrostatic_field_at_point, SolverRadial.get_charges_matrix", "traceon/backend/radial.c: field_radial", "traceon/backend/radial_ring.c: dr1_potential_radial_ring, dz1_potential_radial_ring", "traceon/excitation.py: get_electrostatic_active_elements"]}
{"id": "C113", "title": "The potential takes its extreme values at charges or on the boundary", "statement": "In any closed and bounded region of space without charges, the potential of a computed field is at every point between two values that it takes on the boundary of the region. So there is no strict local minimum or maximum of the potential away from the electrodes (no field of this program can trap a charge at rest in empty space), and if the computed potential is within some tolerance of the exact solution of the problem on the boundary of the region, it is within the same tolerance in the whole region. In three dimensions this holds exactly, in radial symmetry (also for regions that contain parts of the axis) up to the stated error of the elliptic integrals.", "quantifier": "all field objects, all solved 3D problems, all compact regions, all points in them", "why_tests_cant": "it compares the value at every point of an arbitrary region with all values on its boundary", "anchors": ["traceon/solver.py: Field3D_BEM.electrostatic_potential_at_point, Field3D_BEM.magnetostatic_potential_at_point, FieldRadialBEM.electrostatic_potential_at_point, FieldRadialBEM.magnetostatic_potential_at_point", "traceon/backend/three_d.c: potential_3d", "traceon/backend/radial.c: potential_radial"]}
{"id": "C114", "title": "What is printed tells what is there", "statement": "The text that str gives for a mesh, an excitation or a field can be taken at its word. Two meshes have the same text exactly if they have the same numbers of points, lines and triangles and the same named groups with the same numbers of elements, in the same order, provided that no name contains a comma or a line break. Two excitations have the same text exactly if the same names have the same kind of excitation and values with the same text, provided that no name contains an equals sign or a line break. The text of a field determines the number of charges of each kind. No excitation that can be made raises an exception when it is printed.", "quantifier": "all meshes, all names, all excitations, all numbers", "why_tests_cant": "it compares the texts of arbitrary pairs of meshes and excitations; names are arbitrary strings", "anchors": ["traceon/mesher.py: Mesh.__str__", "traceon/excitation.py: Excitation.__str__, ExcitationType.__str__", "traceon/solver.py: FieldBEM.__str__"]}
{"id": "C115", "title": "Charges and currents act on each other equally", "statement": "The fields of two sets of charges are consistent with each other: the energy of the charges of one field in the potential that the other field reports is the same as the energy of the charges of the other field in the potential of the first (reciprocity), and the force that one field exerts on the charges of the other is the opposite of the force in the other direction; in three dimensions this holds for the torque as well, and when charges are moved their energy in the potential of the others changes by minus the work of the force. In radial symmetry it holds for charged rings (energy and force along the axis) and for the force along the axis between two sets of coils.", "quantifier": "all pairs of fields with any number of elements, charges, quadrature weights and positions (rings and loops at r >= 0)", "why_tests_cant": "it is a statement about sums over all pairs of points of two arbitrary charge distributions", "anchors": ["traceon/solver.py: Field3D_BEM.electrostatic_potential_at_point, electrostatic_field_at_point, magnetostatic_potential_at_point, magnetostatic_field_at_point; FieldRadialBEM (the same methods)", "traceon/backend/three_d.c: potential_3d, field_3d", "traceon/backend/radial.c: potential_radial, field_radial, current_field"]}
{"id": "C116", "title": "No magnetic flux leaves a closed surface", "statement": "Put any axis-parallel box around, inside or beside the coils of a radially symmetric problem, such that the coils, rotated around the axis, do not touch its surface. The flux of the magnetic field of the coils, according to the law of Biot and Savart, out of this box is zero, and magnetostatic_field returns this field up to the accuracy of the elliptic integrals. Together with magnetic material, the flux of the magnetic field is that of the material alone, and it is zero if the material is outside of the box.", "quantifier": "all boxes, all excitations with coils, all meshes of the coils, all field objects, all points", "why_tests_cant": "the flux is an integral over all points of the faces of the box, of an integral over the loops, for any mesh, excitation and box", "anchors": ["traceon/solver.py: FieldRadialBEM.current_field_at_point, FieldRadialBEM.magnetostatic_field_at_point, SolverRadial.get_current_charges", "traceon/backend/radial.c: current_field", "traceon/backend/radial_ring.c: current_field_radial_ring"]}
{"id": "C117", "title": "Amp\u00e8re's law around any rectangle", "statement": "Take any rectangle in the half plane of the mesh of a radially symmetric problem (it may have one side on the axis), such that no coil crosses its boundary. The integral of the magnetic field of the coils around this rectangle, according to the law of Biot and Savart, is the sum of the currents that were asked for of the coils inside. Magnetic material, inside or outside of the rectangle, does not change this. magnetostatic_field returns this field up to the accuracy of the elliptic integrals.", "quantifier": "all rectangles, all excitations with coils, all meshes of the coils, all field objects, all points", "why_tests_cant": "the circulation is an integral over a closed curve of an integral over the loops, for any mesh, excitation and rectangle", "anchors": ["traceon/solver.py: FieldRadialBEM.current_field_at_point, FieldRadialBEM.magnetostatic_field_at_point, SolverRadial.get_current_charges", "traceon/backend/radial.c: current_field", "traceon/backend/radial_ring.c: current_field_radial_ring"]}
{"id": "C118", "title": "Busch's theorem for traced electrons", "statement": "Trace an electron with Tracer in a radially symmetric field of electrodes, coils and magnetic material. Its angular momentum around the axis, divided by the mass, plus the charge over the mass times the magnetic flux through the circle around the axis on which the electron is, divided by 2\u03c0, keeps its initial value: the exact trajectory in the field that the program uses deviates from this only by the accuracy of the elliptic integrals (times speed, distance to the axis and time), and the rows that the tracer returns by this plus a constant times the time and the fifth power of the longest step. So an electron that starts without rotation outside the field of a lens does not rotate either once it has left the field, and the rotation inside depends on the position only. With magnetic material this holds as long as no charged ring meets the disk between the axis and the electron (as in the bore of a lens).", "quantifier": "all field objects, all electrodes, magnets and coils, all trajectories off the axis and off the rings, all tolerances, bounds and step sequences, all rows of the result; all disks that no loop and no ring meets", "why_tests_cant": "it relates the state of the electron after any number of adaptive steps to an integral of the field over a disk, for any field and any initial state", "anchors": ["traceon/tracing.py: Tracer", "traceon/backend/tracing.c: trace_particle", "traceon/backend/radial.c: current_field, field_radial_traceable", "traceon/solver.py: FieldRadialBEM"]}
