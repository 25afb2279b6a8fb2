{
 "claims": [
  {
   "property": "C01",
   "status": "proved",
   "theorems": [
    "Traceon.C01_build_valid",
    "Traceon.C01_in_range"
   ],
   "note": ""
  },
  {
   "property": "C02",
   "status": "proved",
   "theorems": [
    "Traceon.C02_elements_keep_geometry",
    "Traceon.C02_doubles_lawful"
   ],
   "note": ""
  },
  {
   "property": "C03",
   "status": "proved",
   "theorems": [
    "Traceon.C03_points_distinct"
   ],
   "note": ""
  },
  {
   "property": "C04",
   "status": "proved",
   "theorems": [
    "Traceon.C04_groups_keep_triangles",
    "Traceon.C04_area"
   ],
   "note": ""
  },
  {
   "property": "C05",
   "status": "proved",
   "theorems": [
    "Traceon.C05_add_keeps_groups",
    "Traceon.C05_add_empty"
   ],
   "note": ""
  },
  {
   "property": "C06",
   "status": "proved",
   "theorems": [
    "Traceon.C06_connected_pieces"
   ],
   "note": ""
  },
  {
   "property": "C07",
   "status": "proved",
   "theorems": [
    "Traceon.C07_reorient_consistent",
    "Traceon.C07_normals_consistent",
    "Traceon.C07_constructed_consistent"
   ],
   "note": ""
  },
  {
   "property": "C08",
   "status": "proved",
   "theorems": [
    "Traceon.C08_lines_sign",
    "Traceon.C08_triangles_sign",
    "Traceon.C08_translation"
   ],
   "note": "exact real arithmetic"
  },
  {
   "property": "C09",
   "status": "proved",
   "theorems": [
    "Traceon.C09_orientation_test",
    "Traceon.C09_move",
    "Traceon.C09_scale"
   ],
   "note": "exact real arithmetic, threshold 1e-14 of the code kept"
  },
  {
   "property": "C10",
   "status": "partial",
   "theorems": [
    "Traceon.C10_extract_lines_partial",
    "Traceon.C10_extract_triangles_partial",
    "Traceon.C10_both_kinds_refuted",
    "Traceon.C10_read_file_refuted"
   ],
   "note": "proved for names used for one kind of element; false for names used for both (witness)"
  },
  {
   "property": "C100",
   "status": "partial",
   "theorems": [
    "Traceon.C100_back",
    "Traceon.C100_stopped_partial",
    "Traceon.C100_origin",
    "Traceon.C100_refuted",
    "Traceon.C100_example"
   ],
   "note": "pickle is a parameter: it is assumed to give back what was dumped and to raise for a pickle without its end. After a stop the file gives the new object or raises; the old object is lost (C100_refuted), because the file is emptied before it is written."
  },
  {
   "property": "C101",
   "status": "partial",
   "theorems": [
    "Traceon.C101_partial",
    "Traceon.C101_flat_partial",
    "Traceon.C101_mesh_partial",
    "Traceon.C101_cylinder_partial",
    "Traceon.C101_refuted",
    "Traceon.C101_disk_refuted"
   ],
   "note": "Proved for surfaces without breakpoints on which equal steps in a parameter are equal steps in space (rectangles, parallelograms, sides of cylinders), with a constant mesh size. False for disks (C101_disk_refuted: with mesh size 0.36 the disk of radius 1 has a gap, a point of the disk that lies in no triangle) and with breakpoints (C101_refuted): of the points that a finer neighbour puts on an edge only the middle is used."
  },
  {
   "property": "C102",
   "status": "partial",
   "theorems": [
    "Traceon.C102_rows_partial",
    "Traceon.C102_numbers",
    "Traceon.C102_force",
    "Traceon.C102_agrees",
    "Traceon.C102_nan",
    "Traceon.C102_refuted",
    "Traceon.C102_plane_numbers",
    "Traceon.C102_plane_refuted"
   ],
   "note": "All rows but the last two are numbers and follow each other by ordinary steps; if the force is a number everywhere, the result is that of the tracer of C44 to C50. False otherwise: an error that is NaN counts as zero, the step is accepted and the trajectory ends with rows of NaN (C102_nan, C102_refuted); the plane intersection is then NaN instead of missing (C102_plane_refuted). Infinities are not modelled, apart from the infinite step of a particle at rest."
  },
  {
   "property": "C103",
   "status": "proved",
   "theorems": [
    "Traceon.C103_electrostatic",
    "Traceon.C103_magnetostatic",
    "Traceon.C103_axis",
    "Traceon.C103_example"
   ],
   "note": "The two scipy routines are parameters that do what scipy documents (SplineLib.Documented: quintic polynomials with the given value and two derivatives at both ends, not-a-knot cubic splines); exists_documented shows that such routines exist. The error of the cubic spline is proved in Lemmas/CubicSpline3.lean. z equal to the last sample is excluded (C53_refuted)."
  },
  {
   "property": "C104",
   "status": "proved",
   "theorems": [
    "Traceon.C104_arc_length",
    "Traceon.C104_example"
   ],
   "note": "scipy's CubicSpline is a parameter that does what scipy documents (NotAKnot); exists_notAKnot shows that such a routine exists. The number of samples from which the statement holds depends on the curve: with few samples the code may raise because the lengths are not ascending, or may overshoot. Path.ellipse always uses 100 samples, and a spline through points has only two continuous derivatives: neither is covered by this statement (see C74)."
  },
  {
   "property": "C105",
   "status": "partial",
   "theorems": [
    "Traceon.Mem.C105_potential_radial",
    "Traceon.Mem.C105_field_radial",
    "Traceon.Mem.C105_axial_derivatives_radial",
    "Traceon.Mem.C105_current_potential_axial",
    "Traceon.Mem.C105_current_field",
    "Traceon.Mem.C105_current_axial_derivatives_radial",
    "Traceon.Mem.C105_potential_3d",
    "Traceon.Mem.C105_field_3d",
    "Traceon.Mem.C105_axial_coefficients_3d",
    "Traceon.Mem.C105_fill_jacobian_buffer_radial",
    "Traceon.Mem.C105_fill_jacobian_buffer_3d",
    "Traceon.Mem.C105_triangle_areas",
    "Traceon.Mem.C105_fill_matrix_radial",
    "Traceon.Mem.C105_fill_matrix_3d",
    "Traceon.Mem.C105_self_radial",
    "Traceon.Mem.C105_higher_order_normal_radial",
    "Traceon.Mem.C105_charge_radial_partial",
    "Traceon.Mem.C105_charge_radial_refuted",
    "Traceon.Mem.C105_position_and_jacobian_radial_partial",
    "Traceon.Mem.C105_position_and_jacobian_radial_refuted",
    "Traceon.Mem.C105_plane_intersection_partial",
    "Traceon.Mem.C105_plane_intersection_refuted",
    "Traceon.Mem.C105_radial_derivs_partial",
    "Traceon.Mem.C105_derivs_3d_partial",
    "Traceon.Mem.C105_radial_derivs_refuted",
    "Traceon.Mem.C105_derivs_3d_refuted",
    "Traceon.Mem.C105_one_sample_refuted",
    "Traceon.Mem.C105_trace_particle_radial_partial",
    "Traceon.Mem.C105_trace_particle_radial_refuted",
    "Traceon.Mem.C105_field_bounds_refuted",
    "Traceon.Mem.C105_trace_particle_3d",
    "Traceon.Mem.C105_trace_particle_radial_derivs_partial",
    "Traceon.Mem.C105_trace_particle_3d_derivs_partial",
    "Traceon.Mem.C105_example",
    "Traceon.Mem.C105_accepts",
    "Traceon.Mem.C105_accepts_elements",
    "Traceon.Mem.C105_accepts_tracing"
   ],
   "note": "Proved for 16 functions without further conditions. False in the code (the _refuted theorems) for: plane_intersection of an empty trajectory, charge_radial of fewer than four vertices, position_and_jacobian_radial of 2-vectors, the interpolated fields at the last sample (cf. C53) or with one sample, tracing with coil charges whose positions have two coordinates, field bounds of 32-bit integers; these functions are proved safe otherwise (_partial). Counters are unbounded integers; the contents of the arrays enter only through arbitrary outcomes of comparisons and casts."
  },
  {
   "property": "C106",
   "status": "proved",
   "theorems": [
    "Traceon.C106_potential",
    "Traceon.C106_field",
    "Traceon.C106_doubles",
    "Traceon.C106_computed",
    "Traceon.C106_coil_axis",
    "Traceon.C106_example",
    "Traceon.C106_radial",
    "Traceon.C106_radial_computed",
    "Traceon.C106_radial_example"
   ],
   "note": "No overflow, no underflow; rearrangements of -ffast-math other than the order of the summation and contraction to fused operations are not covered. In ellipkm1 the eight terms are added in the order of the code."
  },
  {
   "property": "C107",
   "status": "proved",
   "theorems": [
    "Traceon.C107_points",
    "Traceon.C107_elements",
    "Traceon.C107_gauss",
    "Traceon.C107_example"
   ],
   "note": "In exact arithmetic; rounding is C106."
  },
  {
   "property": "C108",
   "status": "proved",
   "theorems": [
    "Traceon.C108_size",
    "Traceon.C108_extrude",
    "Traceon.C108_extrude_path",
    "Traceon.C108_revolve",
    "Traceon.C108_constant",
    "Traceon.C108_disk",
    "Traceon.C108_rectangle",
    "Traceon.C108_aperture",
    "Traceon.C108_sphere",
    "Traceon.C108_spanned",
    "Traceon.C108_box",
    "Traceon.C108_mesh",
    "Traceon.C108_example"
   ],
   "note": "C108_size is the general statement: every surface whose sections do not turn back within a quarter of their length. The other theorems show that for the surfaces of the API. C108_mesh is about the finished mesh, where clearing the low bits of the coordinates moves points by at most epsilon. Surfaces with breakpoints along both parameters are not covered: there the code joins the wrong sections (C19)."
  },
  {
   "property": "C109",
   "status": "proved",
   "theorems": [
    "Traceon.C109_rings",
    "Traceon.C109_loops",
    "Traceon.C109_methods",
    "Traceon.C109_solved",
    "Traceon.C109_rings_everywhere",
    "Traceon.C109_loops_everywhere",
    "Traceon.C109_axis",
    "Traceon.C109_solved_everywhere",
    "Traceon.C109_example",
    "Traceon.C109_example_solved",
    "Traceon.C109_example_axis"
   ],
   "note": "The exact fields are minus the gradient of the potential of the rings (C68) and the Biot-Savart field of the current rings (C69); the distance of the returned numbers from them is bounded by C75. The exact fields satisfy the vacuum equations at every point on no ring, on the axis included (C109_rings_everywhere, C109_loops_everywhere), and C109_axis is about the values returned on the axis. At distances strictly between 0 and 1e-10 from the axis the program returns zero for the radial component (C68), so there the returned field is not claimed. C109_solved holds for any number of lines and threads (C80_radial)."
  },
  {
   "property": "C11",
   "status": "partial",
   "theorems": [
    "Traceon.C11_flip_unnamed_partial",
    "Traceon.C11_flip_twice_partial",
    "Traceon.C11_named_refuted"
   ],
   "note": "proved for elements in no named group; false for named groups (witness)"
  },
  {
   "property": "C110",
   "status": "proved",
   "theorems": [
    "Traceon.C110_rings",
    "Traceon.C110_coils",
    "Traceon.C110_example"
   ],
   "note": "The field is the one of the law of Biot and Savart, which current_field returns up to the accuracy of the elliptic integrals (C69, C75)."
  },
  {
   "property": "C111",
   "status": "proved",
   "theorems": [
    "Traceon.C111_element",
    "Traceon.C111_potential",
    "Traceon.C111_own",
    "Traceon.C111_centre",
    "Traceon.C111_solved"
   ],
   "note": "C111_own holds for curved elements too; for the rule on curved elements see C76_line. C111_solved applies to the conclusion of C80_radial_partial. The integral over the own element is exact in the model (the program uses scipy's quad)."
  },
  {
   "property": "C112",
   "status": "proved",
   "theorems": [
    "Traceon.C112_ring",
    "Traceon.C112_elements",
    "Traceon.C112_field",
    "Traceon.C112_solved",
    "Traceon.C112_example"
   ],
   "note": "For any number of lines and threads (C80_radial); the elements lie in the half plane x >= 0. C112_example: two discs and four boxes."
  },
  {
   "property": "C113",
   "status": "proved",
   "theorems": [
    "Traceon.C113_threeD",
    "Traceon.C113_solved",
    "Traceon.C113_no_trap",
    "Traceon.C113_boundary_error",
    "Traceon.C113_radial",
    "Traceon.C113_radial_magnetic",
    "Traceon.C113_radial_solved",
    "Traceon.C113_example",
    "Traceon.C113_example_solved"
   ],
   "note": "A region without charges is one with no quadrature point (C113_threeD), no point of an excited triangle (C113_solved), or no point of a charged ring (C113_radial); C113_radial_solved is about solved radial problems. Over the reals."
  },
  {
   "property": "C114",
   "status": "proved",
   "theorems": [
    "Traceon.C114_mesh",
    "Traceon.C114_mesh_refuted",
    "Traceon.C114_excitation",
    "Traceon.C114_field",
    "Traceon.C114_example"
   ],
   "note": "The text of a value (a float, an array or a function) is a parameter, that of an excitation assumes that it has no line break. C114_mesh_refuted: the condition on names is needed. That no excitation raises is built into the model: the six kinds are all there are, and each has a text. Not modelled: Path.__str__, Tracer.__str__, EffectivePointCharges.__str__."
  },
  {
   "property": "C115",
   "status": "proved",
   "theorems": [
    "Traceon.C115_energy",
    "Traceon.C115_force",
    "Traceon.C115_rings_energy",
    "Traceon.C115_rings_force",
    "Traceon.C115_coils_force",
    "Traceon.C115_work",
    "Traceon.C115_example_work",
    "Traceon.C115_example_points",
    "Traceon.C115_example_rings"
   ],
   "note": "Exact arithmetic, but with the approximations of the elliptic integrals that the program uses: for these the laws hold exactly. The theorems say nothing about the code for distributions with a point in common (there it divides by zero; in the model the quotient is 0). Not covered: forces between coils and magnetized rings, for which the laws hold only up to the errors of the approximations."
  },
  {
   "property": "C116",
   "status": "proved",
   "theorems": [
    "Traceon.C116_loop",
    "Traceon.C116_loops",
    "Traceon.C116_coils",
    "Traceon.C116_magnetic",
    "Traceon.C116_example"
   ],
   "note": "Real arithmetic. The accuracy holds at the points on the axis or at least 1e-10 away from it (between them the code takes the value of the axis), for loops of radius at least 1e-10, as in C75. The box must not cut the coils: on their surface the field of the discrete loops is singular."
  },
  {
   "property": "C117",
   "status": "proved",
   "theorems": [
    "Traceon.C117_loop",
    "Traceon.C117_loops",
    "Traceon.C117_coils",
    "Traceon.C117_magnetic",
    "Traceon.C117_example"
   ],
   "note": "Real arithmetic. The accuracy of what the code returns (second part of C117_magnetic) holds at the points on the axis or at least 1e-10 away from it, for loops of radius at least 1e-10, as in C75. Coils that are partly inside the rectangle are covered by C117_loops only (the current inside is then that of the quadrature points inside)."
  },
  {
   "property": "C118",
   "status": "proved",
   "theorems": [
    "Traceon.C118_gradient",
    "Traceon.C118_flux",
    "Traceon.C118_busch",
    "Traceon.C118_flux_magnetic",
    "Traceon.C118_lens",
    "Traceon.C118_example",
    "Traceon.C118_example_flux",
    "Traceon.C118_example_lens"
   ],
   "note": "Real arithmetic. The trajectory must stay further than 1e-10 from the axis (nearer to the axis the code takes the field to be along the axis) and off the rings; loops of radius at least 1e-10. C118_busch is for fields without magnetic charges, C118_lens for all fields; with magnetic charges no charged ring may meet the disk from the axis to the electron, since the flux of the field strength through a disk jumps where the disk passes a charged ring."
  },
  {
   "property": "C12",
   "status": "proved",
   "theorems": [
    "Traceon.C12_upgrade_raw",
    "Traceon.C12_upgrade",
    "Traceon.C12_straight"
   ],
   "note": ""
  },
  {
   "property": "C13",
   "status": "partial",
   "theorems": [
    "Traceon.C13_no_upgrade_partial",
    "Traceon.C13_upgrade_outward",
    "Traceon.C13_refuted"
   ],
   "note": "holds if no upgrade is needed; after an upgrade all named lines are outward (proved in general, and a concrete witness)"
  },
  {
   "property": "C14",
   "status": "partial",
   "theorems": [
    "Traceon.C14_round_trip_partial",
    "Traceon.C14_names_refuted",
    "Traceon.C14_named"
   ],
   "note": "proved without names; false with names (witness); read_file(name=...) names everything (C14_named)"
  },
  {
   "property": "C15",
   "status": "proved",
   "theorems": [
    "Traceon.C15_discretize"
   ],
   "note": ""
  },
  {
   "property": "C16",
   "status": "proved",
   "theorems": [
    "Traceon.C16_path_mesh"
   ],
   "note": ""
  },
  {
   "property": "C17",
   "status": "proved",
   "theorems": [
    "Traceon.C17_point_table",
    "Traceon.C17_normalized"
   ],
   "note": "PointStack invariant over all reachable tables, real coordinates."
  },
  {
   "property": "C18",
   "status": "partial",
   "theorems": [
    "Traceon.C18_example",
    "Traceon.C18_partial",
    "Traceon.C18_tame_partial",
    "Traceon.C18_bulge_refuted",
    "Traceon.C18_refuted"
   ],
   "note": "Proved for constant mesh size on regular surfaces (flat ones are: flat_regular) and, by C18_tame_partial, on every surface without bulges (extruded, revolved, spanned surfaces, boxes, spheres, discs and the tori it lists). Missing because false of the code: varying mesh size (C18_refuted: a flat rectangle gets holes) and bulging surfaces (C18_bulge_refuted: part of a torus with constant mesh size gets holes)."
  },
  {
   "property": "C19",
   "status": "partial",
   "theorems": [
    "Traceon.C19_partial",
    "Traceon.C19_refuted",
    "Traceon.SMesh.C19_joined"
   ],
   "note": "Proved for breakpoints along one parameter. Missing: both parameters, for which C19_refuted proves the claim false."
  },
  {
   "property": "C20",
   "status": "proved",
   "theorems": [
    "Traceon.C20_tiles",
    "Traceon.C20_exists",
    "Traceon.SMesh.C20_midpoint"
   ],
   "note": "All quads, all patterns of existing edge points."
  },
  {
   "property": "C21",
   "status": "proved",
   "theorems": [
    "Traceon.C21_join",
    "Traceon.C21_join_assoc",
    "Traceon.C21_join_gap",
    "Traceon.C21_gap_example"
   ],
   "note": ""
  },
  {
   "property": "C22",
   "status": "partial",
   "theorems": [
    "Traceon.C22_breakpoints_partial",
    "Traceon.C22_line_to",
    "Traceon.C22_refuted"
   ],
   "note": "holds if the appended path has no breakpoints; false otherwise (witness)"
  },
  {
   "property": "C23",
   "status": "proved",
   "theorems": [
    "Traceon.C23_cut"
   ],
   "note": ""
  },
  {
   "property": "C24",
   "status": "proved",
   "theorems": [
    "Traceon.C24_closed_gap",
    "Traceon.C24_add_phase",
    "Traceon.C24_open_refused"
   ],
   "note": ""
  },
  {
   "property": "C25",
   "status": "partial",
   "theorems": [
    "Traceon.C25_line",
    "Traceon.C25_arc_partial",
    "Traceon.C25_circles",
    "Traceon.C25_half_circle_refuted"
   ],
   "note": "all lines, circles, and arcs other than half circles; half circles are undefined (witness)"
  },
  {
   "property": "C26",
   "status": "partial",
   "theorems": [
    "Traceon.C26_example",
    "Traceon.C26_rotate_partial",
    "Traceon.C26_zero_angle_refuted",
    "Traceon.C26_two_axes_refused",
    "Traceon.C26_move_mirror",
    "Traceon.C26_path_transform"
   ],
   "note": "proved for one nonzero angle; the zero rotation raises (proved)"
  },
  {
   "property": "C27",
   "status": "partial",
   "theorems": [
    "Traceon.C27_revolve_partial",
    "Traceon.C27_revolve_y_partial",
    "Traceon.C27_y_refuted",
    "Traceon.C27_full_turn"
   ],
   "note": "x and z axes agree with rotate; y is proved to turn the other way"
  },
  {
   "property": "C28",
   "status": "partial",
   "theorems": [
    "Traceon.C28_extrude",
    "Traceon.C28_extrude_by_path",
    "Traceon.C28_spanned_partial",
    "Traceon.C28_spanned_refuted"
   ],
   "note": "spanned_by_paths is undefined for paths sharing both end points (witness)"
  },
  {
   "property": "C29",
   "status": "partial",
   "theorems": [
    "Traceon.C29_boundary_partial",
    "Traceon.C29_refuted"
   ],
   "note": "corners always; edges for straight sides; false for curved sides (witness)"
  },
  {
   "property": "C30",
   "status": "proved",
   "theorems": [
    "Traceon.C30_box"
   ],
   "note": ""
  },
  {
   "property": "C31",
   "status": "partial",
   "theorems": [
    "Traceon.C31_programs_partial",
    "Traceon.C31_add_partial",
    "Traceon.C31_iadd_partial",
    "Traceon.C31_iadd_member_partial",
    "Traceon.C31_mesh",
    "Traceon.C31_refuted"
   ],
   "note": "Every program without += that does not raise behaves as lists; naming, map_points and meshing act on every member. False in the code: Path + PathCollection raises, and += rebinds the variable to None (C31_refuted)."
  },
  {
   "property": "C32",
   "status": "proved",
   "theorems": [
    "Traceon.C32_example",
    "Traceon.C32_history",
    "Traceon.C32_boundary_mesh",
    "Traceon.C32_new"
   ],
   "note": "All sequences of calls, calls that raise included."
  },
  {
   "property": "C33",
   "status": "proved",
   "theorems": [
    "Traceon.C33_example",
    "Traceon.C33_wrong_dimension_example",
    "Traceon.C33_active",
    "Traceon.C33_wrong_dimension"
   ],
   "note": "All valid meshes and excitations; an excited name of the wrong dimension raises KeyError (proved)."
  },
  {
   "property": "C34",
   "status": "proved",
   "theorems": [
    "Traceon.C34_example",
    "Traceon.C34_electrostatic",
    "Traceon.C34_magnetostatic",
    "Traceon.decides_of_unique",
    "Traceon.exists_decides"
   ],
   "note": "Elements in several excited groups follow the last group."
  },
  {
   "property": "C35",
   "status": "partial",
   "theorems": [
    "Traceon.C35_fields_partial",
    "Traceon.C35_fields_example",
    "Traceon.C35_currents_partial",
    "Traceon.C35_currents_example",
    "Traceon.C35_partial",
    "Traceon.C35_refuted",
    "Traceon.C35_coil_refuted"
   ],
   "note": "Complete for fixed voltages and dielectrics with at least one nonzero voltage, up to the returned potentials and fields at all points, for every voltage setting and schedule, radial and 3D. For coils and magnetizable materials: keys, potentials and the fields of the magnetized materials superpose for every setting of the currents; the fields of the coils themselves do not (every returned field carries all the original currents), the exact difference is the last part of C35_currents_partial. For magnetostatic potentials and all-zero voltages the property is false (C35_refuted, C35_coil_refuted)."
  },
  {
   "property": "C36",
   "status": "partial",
   "theorems": [
    "Traceon.C36_threeD",
    "Traceon.C36_radial",
    "Traceon.C36_radial_partial",
    "Traceon.C36_refuted"
   ],
   "note": "3D: every row for every number of threads. C36_radial characterises the radial matrix exactly, for every number of elements and threads and every schedule: row i has its off-diagonal entries iff i + 2 T < 2 n, and otherwise they stay zero. So the property holds for n >= 2 T (C36_radial_partial) and fails otherwise (C36_refuted)."
  },
  {
   "property": "C37",
   "status": "partial",
   "theorems": [
    "Traceon.C37_collect",
    "Traceon.C37_elementwise",
    "Traceon.C37_threads_partial",
    "Traceon.C37_refuted",
    "Traceon.C37_default_threads"
   ],
   "note": "All schedules and positive thread counts. Missing: TRACEON_THREADS <= 0, which raises (C37_refuted)."
  },
  {
   "property": "C38",
   "status": "proved",
   "theorems": [
    "Traceon.C38_threeD",
    "Traceon.C38_radial",
    "Traceon.C38_operators_threeD",
    "Traceon.C38_operators_radial",
    "Traceon.C38_no_subtraction",
    "Traceon.C38_principle"
   ],
   "note": "Real arithmetic; charges with equal numbers of quadrature points (others are refused)."
  },
  {
   "property": "C39",
   "status": "partial",
   "theorems": [
    "Traceon.C39_radial_partial",
    "Traceon.C39_axial_partial",
    "Traceon.C39_refuted",
    "Traceon.C39_add_forgets_bounds"
   ],
   "note": "Proved: + of radial fields, all operators of axial series fields. Missing: -, scaling and negation of radial and 3D fields and all operators of the interpolated fields, which raise or return no field (C39_refuted); + drops field bounds."
  },
  {
   "property": "C40",
   "status": "proved",
   "theorems": [
    "Traceon.C40_dispatch"
   ],
   "note": "All field objects of the model."
  },
  {
   "property": "C41",
   "status": "proved",
   "theorems": [
    "Traceon.C41_total_current"
   ],
   "note": "All valid meshes and coils with an area; the current is moreover uniform."
  },
  {
   "property": "C42",
   "status": "proved",
   "theorems": [
    "Traceon.C42_interface"
   ],
   "note": ""
  },
  {
   "property": "C43",
   "status": "proved",
   "theorems": [
    "Traceon.C43_gradient",
    "Traceon.C43_methods"
   ],
   "note": "Frechet derivative, exact real arithmetic."
  },
  {
   "property": "C44",
   "status": "proved",
   "theorems": [
    "Traceon.C44_force",
    "Traceon.C44_no_work",
    "Traceon.C44_constants"
   ],
   "note": "Radial, 3D and axial tracers."
  },
  {
   "property": "C45",
   "status": "proved",
   "theorems": [
    "Traceon.C45_step",
    "Traceon.C45_trajectory",
    "Traceon.C45_free",
    "Traceon.Spec.parabola_derivative"
   ],
   "note": "Also whole trajectories; without field the tracer provably returns."
  },
  {
   "property": "C46",
   "status": "proved",
   "theorems": [
    "Traceon.C46_trajectory",
    "Traceon.C46_deterministic"
   ],
   "note": "For positive tolerances, every block size >= 2 and every force field; real arithmetic."
  },
  {
   "property": "C47",
   "status": "proved",
   "theorems": [
    "Traceon.C47_glue"
   ],
   "note": "Every block size >= 2 and every number of blocks."
  },
  {
   "property": "C48",
   "status": "partial",
   "theorems": [
    "Traceon.C48_field_bounds_partial",
    "Traceon.C48_integers_partial",
    "Traceon.C48_columns_partial",
    "Traceon.C48_columns_refuted",
    "Traceon.C48_refuted"
   ],
   "note": "Proved for x and y in radial symmetry. Missing: z in radial symmetry, 3D fields, integer bounds, bounds stored by columns: false in the code (C48_refuted, C48_columns_refuted)."
  },
  {
   "property": "C49",
   "status": "proved",
   "theorems": [
    "Traceon.C49_plane_intersection",
    "Traceon.C49_coordinate_planes",
    "Traceon.C49_touching"
   ],
   "note": "A point exactly in the plane counts as being on the side of the normal."
  },
  {
   "property": "C50",
   "status": "proved",
   "theorems": [
    "Traceon.C50_velocity",
    "Traceon.C50_directions"
   ],
   "note": ""
  },
  {
   "property": "C51",
   "status": "proved",
   "theorems": [
    "Traceon.C51_charges",
    "Traceon.C51_currents",
    "Traceon.C51_magnetostatic",
    "Traceon.C51_same_potential"
   ],
   "note": ""
  },
  {
   "property": "C52",
   "status": "proved",
   "theorems": [
    "Traceon.C52_transversal",
    "Traceon.C52_harmonic",
    "Traceon.C52_axial_charges",
    "Traceon.C52_accuracy_charges",
    "Traceon.C52_accuracy_currents"
   ],
   "note": "The transversal components are exactly minus the derivatives; the longitudinal component, as the code truncates it, agrees up to a term of order r^8 (stated exactly in C52_harmonic). The accuracy theorems compare the series with the true potential and field of the rings, with constants that hold for all positions in a bounded part of the axis."
  },
  {
   "property": "C53",
   "status": "partial",
   "theorems": [
    "Traceon.C53_index_partial",
    "Traceon.C53_refuted"
   ],
   "note": "Refuted at z = z_last, where the row past the end of the coefficients is read; holds for z < z_last."
  },
  {
   "property": "C54",
   "status": "proved",
   "theorems": [
    "Traceon.C54_interpolates",
    "Traceon.C54_jacobian",
    "Traceon.C54_normal",
    "Traceon.C54_reverse"
   ],
   "note": "exact real arithmetic"
  },
  {
   "property": "C55",
   "status": "partial",
   "theorems": [
    "Traceon.C55_branch_example",
    "Traceon.C55_isometric",
    "Traceon.C55_potential_integrand",
    "Traceon.C55_potential_partial",
    "Traceon.C55_flux_integrand",
    "Traceon.C55_flux_partial",
    "Traceon.C55_potential_returns",
    "Traceon.C55_flux_returns",
    "Traceon.C55_potential_branch",
    "Traceon.C55_self_v0",
    "Traceon.C55_self",
    "Traceon.C55_accuracy",
    "Traceon.C55_accuracy_example",
    "Traceon.C55_flux_accuracy",
    "Traceon.C55_flux_accuracy_example",
    "Traceon.C55_potential_branch_refuted",
    "Traceon.C55_flux_refuted"
   ],
   "note": "The analytic inner integrals are the true ones and the iterated integral is the surface integral. Missing: the small-distance branches have the wrong sign when the edge lies at negative x (C55_potential_branch_refuted, C55_flux_refuted); the error of the outer quadrature of the potential and of the flux is bounded for targets outside a sphere around the triangle (C55_accuracy, C55_flux_accuracy); for closer targets it is only that of C56."
  },
  {
   "property": "C56",
   "status": "proved",
   "theorems": [
    "Traceon.C56_partition",
    "Traceon.C56_empty",
    "Traceon.C56_returns",
    "Traceon.C56_polynomials",
    "Traceon.C56_accuracy",
    "Traceon.C56_accuracy_example",
    "Traceon.C56_tolerance_no_bound"
   ],
   "note": "The returned value is a sum of accepted 15-point rules over a partition; it returns for every bounded integrand; accurate to 1e-15 for polynomials of degree <= 23; for every function close to such a polynomial the error is bounded for any tolerance (C56_accuracy); the requested tolerance is no error bound (C56_tolerance_no_bound)."
  },
  {
   "property": "C57",
   "status": "proved",
   "theorems": [
    "Traceon.C57_focus",
    "Traceon.C57_least_squares",
    "Traceon.C57_same_line"
   ],
   "note": "numpy.linalg.lstsq is specified (Spec/Focus.lean), and the specification proved satisfiable."
  },
  {
   "property": "C58",
   "status": "proved",
   "theorems": [
    "Traceon.C58_radial_symmetry"
   ],
   "note": "BEM fields and radial series."
  },
  {
   "property": "C59",
   "status": "partial",
   "theorems": [
    "Traceon.C59_voltage_partial",
    "Traceon.C59_interface_partial",
    "Traceon.C59_solution_partial",
    "Traceon.C59_own_field",
    "Traceon.C59_own_returns",
    "Traceon.C59_example",
    "Traceon.C59_accuracy_partial",
    "Traceon.C59_accuracy_example",
    "Traceon.C59_field_accuracy_partial",
    "Traceon.C59_field_accuracy_example",
    "Traceon.C59_solved_interface_partial",
    "Traceon.C59_far_refuted"
   ],
   "note": "Every row, thread schedule and charge vector, with the potential of distant elements computed by the program's 12-point rule and that of nearby ones by its adaptive quadrature. Missing: that these are the true potentials, which is proved with error bounds for elements in a sphere that does not contain the target (C59_accuracy_partial, C59_field_accuracy_partial; the own field is 0), not for the own potential and not for direct neighbours; C59_far_refuted shows that the 12-point rule is also used for long triangles right at the target."
  },
  {
   "property": "C60",
   "status": "proved",
   "theorems": [
    "Traceon.C60_filter",
    "Traceon.C60_output",
    "Traceon.C60_environment"
   ],
   "note": ""
  },
  {
   "property": "C61",
   "status": "proved",
   "theorems": [
    "Traceon.C61_map_points"
   ],
   "note": ""
  },
  {
   "property": "C62",
   "status": "proved",
   "theorems": [
    "Traceon.C62_trunc",
    "Traceon.C62_trunc_twice",
    "Traceon.C62_order",
    "Traceon.C62_equal",
    "Traceon.C62_lexicographic",
    "Traceon.C62_relative",
    "Traceon.C62_mesh"
   ],
   "note": ""
  },
  {
   "property": "C63",
   "status": "partial",
   "theorems": [
    "Traceon.C63_triangles_consistent_partial",
    "Traceon.C63_normals_consistent_partial",
    "Traceon.C63_corner_refuted"
   ],
   "note": "proved for pieces connected through edges; false for pieces connected through a corner only"
  },
  {
   "property": "C64",
   "status": "proved",
   "theorems": [
    "Traceon.C64_rectangle_paths",
    "Traceon.C64_rectangles",
    "Traceon.C64_disks",
    "Traceon.C64_sphere",
    "Traceon.C64_aperture",
    "Traceon.C64_aperture_surface"
   ],
   "note": ""
  },
  {
   "property": "C65",
   "status": "partial",
   "theorems": [
    "Traceon.C65_extrude_boundary",
    "Traceon.C65_revolve_boundary_partial",
    "Traceon.C65_full_turn_partial",
    "Traceon.C65_y_refuted",
    "Traceon.C65_edges",
    "Traceon.C65_by_path_refuted"
   ],
   "note": "extrusions along a vector and the x and z axes; false for the y axis (witness) and for extrude_boundary_by_path, which always raises"
  },
  {
   "property": "C66",
   "status": "proved",
   "theorems": [
    "Traceon.C66_finishes",
    "Traceon.C66_mesh",
    "Traceon.C66_mesh_size"
   ],
   "note": "Real arithmetic."
  },
  {
   "property": "C67",
   "status": "partial",
   "theorems": [
    "Traceon.C67_partial",
    "Traceon.C67_flat_partial",
    "Traceon.C67_tame_partial",
    "Traceon.C67_extrude_partial",
    "Traceon.C67_extrude_path_partial",
    "Traceon.C67_revolve_polygon_partial",
    "Traceon.C67_revolve_partial",
    "Traceon.C67_disk_partial",
    "Traceon.C67_rectangle_partial",
    "Traceon.C67_aperture_partial",
    "Traceon.C67_torus_partial",
    "Traceon.C67_sphere_partial",
    "Traceon.C67_spanned_partial",
    "Traceon.C67_box_partial",
    "Traceon.C67_refuted"
   ],
   "note": "Proved for constant mesh size on every shape listed by the theorem names. Missing because false of the code: varying mesh size (C18_refuted), bulging contours (C67_refuted) and breakpoints along both parameters (C19)."
  },
  {
   "property": "C68",
   "status": "proved",
   "theorems": [
    "Traceon.C68_radial_field",
    "Traceon.C68_ring_potential",
    "Traceon.isEllipticPair",
    "Traceon.with_approximations"
   ],
   "note": "For exact elliptic integrals; the error that the approximations of elliptic.c add is bounded in C75."
  },
  {
   "property": "C69",
   "status": "proved",
   "theorems": [
    "Traceon.C69_current_field"
   ],
   "note": "For exact elliptic integrals; the error that the approximations of elliptic.c add is bounded in C75."
  },
  {
   "property": "C70",
   "status": "proved",
   "theorems": [
    "Traceon.C70_order",
    "Traceon.C70_linear"
   ],
   "note": "Butcher's order conditions for every tree, and exactness to order five on all linear systems; that the conditions imply the order for nonlinear systems is Butcher's theorem, not proved here."
  },
  {
   "property": "C71",
   "status": "proved",
   "theorems": [
    "Traceon.C71_interpolation"
   ],
   "note": "Assumes of scipy only that the splines interpolate (Spec/Spline.lean)."
  },
  {
   "property": "C72",
   "status": "partial",
   "theorems": [
    "Traceon.C72_voltage_rows_partial",
    "Traceon.C72_interface_rows_partial",
    "Traceon.C72_voltage_partial",
    "Traceon.C72_interface_partial",
    "Traceon.C72_electrostatic_partial",
    "Traceon.C72_magnetostatic_partial",
    "Traceon.C72_own_potential_integrable",
    "Traceon.C72_own_field_integrable"
   ],
   "note": "Every row, schedule and charge vector, for any number of elements and threads (_rows_: the rows that no thread computes are those of the element alone, see C36_radial). The potential of other elements is the one the returned field object computes (16-point rule); the diagonal is the exact integral, which is proved to exist. Missing: the error of scipy's quad. The error of the 16-point rule is C111 (straight elements) and C76_line."
  },
  {
   "property": "C73",
   "status": "proved",
   "theorems": [
    "Traceon.C73_area_3d",
    "Traceon.C73_triangle_areas",
    "Traceon.C73_area_straight",
    "Traceon.C73_area_radial",
    "Traceon.C73_area_near_chord",
    "Traceon.C73_sums",
    "Traceon.C73_total_3d",
    "Traceon.C73_total_radial",
    "Traceon.C73_charge_radial"
   ],
   "note": "Over the reals. Straight radial elements exactly, curved ones up to the stated error of the 16-point rule."
  },
  {
   "property": "C74",
   "status": "partial",
   "theorems": [
    "Traceon.C74_ends",
    "Traceon.C74_on_curve",
    "Traceon.C74_in_order",
    "Traceon.C74_spline_through_points",
    "Traceon.C74_uniform_segment",
    "Traceon.C74_constant_refused",
    "Traceon.C74_ellipse",
    "Traceon.C74_average_bounds",
    "Traceon.C74_average_const",
    "Traceon.C74_average_linear",
    "Traceon.C74_average_join",
    "Traceon.C74_average_line",
    "Traceon.C74_breakpoints_refuted"
   ],
   "note": "For every interpolation that meets the documented contract of scipy's CubicSpline. The claim about breakpoints is false: C74_breakpoints_refuted. How well the distance along the path is the arc length is C104."
  },
  {
   "property": "C75",
   "status": "proved",
   "theorems": [
    "Traceon.C75_elliptic",
    "Traceon.C75_elliptic_negative",
    "Traceon.C75_elliptic_parameter",
    "Traceon.C75_ring_potential",
    "Traceon.C75_potential",
    "Traceon.C75_field",
    "Traceon.C75_field_axis",
    "Traceon.C75_current_field"
   ],
   "note": "For exact arithmetic on the coefficients of elliptic.c (rounding of doubles is not modelled). Proved with a reference approximation of higher degree, checked by exact integer arithmetic in the kernel, and a maximum principle for the differential equation of K."
  },
  {
   "property": "C76",
   "status": "partial",
   "theorems": [
    "Traceon.C76_gauss_polynomial",
    "Traceon.C76_line",
    "Traceon.C76_potential_radial",
    "Traceon.C76_triangle_polynomial",
    "Traceon.C76_far_potential",
    "Traceon.C76_far_field",
    "Traceon.C76_potential_3d",
    "Traceon.C76_field_3d",
    "Traceon.C76_far_test",
    "Traceon.C76_far_test_refuted"
   ],
   "note": "The last claim is false for triangles whose first side is short (C76_far_test_refuted) and proved otherwise (C76_far_test). Exact arithmetic on the table entries."
  },
  {
   "property": "C77",
   "status": "partial",
   "theorems": [
    "Traceon.C77_coefficients",
    "Traceon.C77_potential",
    "Traceon.C77_sample",
    "Traceon.C77_field",
    "Traceon.C77_near_axis",
    "Traceon.C77_force",
    "Traceon.C77_last_sample_refuted"
   ],
   "note": "The claim that every point of the range can be evaluated is false at the last sample (C77_last_sample_refuted). Between 0 and 1e-10 from the axis the field is the one of the axis (C77_near_axis). The interpolation itself (Field3DAxial) is not part of this repository; C77_sample assumes that it takes the computed values at the samples."
  },
  {
   "property": "C78",
   "status": "proved",
   "theorems": [
    "Traceon.C78_convergence",
    "Traceon.C78_tracer_3d",
    "Traceon.C78_tracer_radial"
   ],
   "note": "The bound is in terms of the step lengths that were taken. Exact arithmetic. Tracers with axially interpolated fields (piecewise polynomial forces, not C^5 across the samples) are not covered, nor radial trajectories that come within 1e-10 of the axis."
  },
  {
   "property": "C79",
   "status": "proved",
   "theorems": [
    "Traceon.C79_block",
    "Traceon.C79_tracer_3d",
    "Traceon.C79_tracer_radial",
    "Traceon.C79_leaves",
    "Traceon.C79_at_rest"
   ],
   "note": "A particle at rest is the exception (C79_at_rest): the step length is infinite and the loop never ends. C79_leaves needs a force that is bounded everywhere."
  },
  {
   "property": "C80",
   "status": "partial",
   "theorems": [
    "Traceon.C80_threeD",
    "Traceon.C80_radial",
    "Traceon.C80_radial_partial",
    "Traceon.C80_mixed_refuted",
    "Traceon.C80_radial_refuted",
    "Traceon.C80_example",
    "Traceon.C80_example_radial"
   ],
   "note": "C80_threeD is complete for one kind of excitation; with both voltages and magnetic potentials solve_direct always raises in three dimensions (C80_mixed_refuted). In radial symmetry both can be combined; C80_radial holds for any number of excited lines n and threads T and says exactly what is solved: the first 2 (n - T) lines do what their excitation asks for, the others would if they were alone; all of them if n >= 2 T (C80_radial_partial). C80_radial_refuted: two discs at 10 V on two threads are charged as if each were alone, so the field solves another problem. Potential at a centre as in C59, C72: point rule for far elements, adaptive integrals nearby."
  },
  {
   "property": "C81",
   "status": "partial",
   "theorems": [
    "Traceon.C81_moved",
    "Traceon.C81_rigid",
    "Traceon.C81_reproducible",
    "Traceon.C81_plane",
    "Traceon.C81_plane_refuted",
    "Traceon.C81_example",
    "Traceon.C81_example_turn"
   ],
   "note": "Complete unless the mesh before or after the motion lies in the plane y = 0: such a three dimensional mesh is taken to be two dimensional and solve_direct raises an exception (C81_plane, C81_plane_refuted). Exact arithmetic."
  },
  {
   "property": "C82",
   "status": "proved",
   "theorems": [
    "Traceon.C82_line",
    "Traceon.C82_arc",
    "Traceon.C82_close",
    "Traceon.C82_middle",
    "Traceon.C82_middle_line",
    "Traceon.C82_example"
   ],
   "note": "Arcs with start, centre and end on one line are excluded (see C25_half_circle_refuted); line_to with the current end point divides by zero."
  },
  {
   "property": "C83",
   "status": "partial",
   "theorems": [
    "Traceon.C83_remove_lines",
    "Traceon.C83_remove_triangles",
    "Traceon.C83_normals_refuted"
   ],
   "note": "Everything but the direction of normals: the constructor makes the normals of named groups point outward again (C83_normals_refuted). Degenerate triangles are dropped as by every constructor (C04)."
  },
  {
   "property": "C84",
   "status": "proved",
   "theorems": [
    "Traceon.C84_linear",
    "Traceon.C84_grounded",
    "Traceon.C84_example"
   ],
   "note": "Exact arithmetic; C routines integrate faithfully (FaithfulEnv); radial problems need two excited lines per thread, as with fewer the matrix is not filled (C36)."
  },
  {
   "property": "C85",
   "status": "proved",
   "theorems": [
    "Traceon.C85_exact",
    "Traceon.C85_energy",
    "Traceon.C85_magnetic",
    "Traceon.C85_angular",
    "Traceon.C85_launch",
    "Traceon.C85_radial",
    "Traceon.C85_example",
    "Traceon.C85_example_radial"
   ],
   "note": "Exact arithmetic. Radial fields are computed with approximate elliptic integrals, so the total energy there drifts with the error of the field as well (C85_radial); the speed in magnetic fields and the angular momentum in electrostatic ones are exact there too."
  },
  {
   "property": "C86",
   "status": "proved",
   "theorems": [
    "Traceon.C86_radial",
    "Traceon.C86_similar",
    "Traceon.C86_shift",
    "Traceon.C86_mirror",
    "Traceon.C86_symmetric",
    "Traceon.C86_example",
    "Traceon.C86_symmetric_example"
   ],
   "note": "Exact arithmetic. C86_radial is stated for the meshes used for solving (after lines have been upgraded to higher order), as the constructors clear low bits of coordinates in between (C62). Radial problems need two excited lines per thread (C36). Not for points and centres that cross the tolerance 1e-10 of the axis when the unit changes. C86_symmetric with coils: each triangle of a coil must be its own mirror image, so in practice problems without coils."
  },
  {
   "property": "C87",
   "status": "proved",
   "theorems": [
    "Traceon.C87_threeD",
    "Traceon.C87_radial",
    "Traceon.C87_linear",
    "Traceon.C87_example",
    "Traceon.C87_example_radial",
    "Traceon.C87_example_linear"
   ],
   "note": "Exact arithmetic. Radial problems need lines at x >= 0 (any number of lines and threads, C80_radial); there the charge seen from far away agrees within 1e-9 (the elliptic integrals are approximations), and areas are the 16-point sums (accuracy: C73). In 3D the rounding of the 12 weights (1 + 2e-15) is stated."
  },
  {
   "property": "C88",
   "status": "proved",
   "theorems": [
    "Traceon.C88_invisible",
    "Traceon.C88_example"
   ],
   "note": "Exact arithmetic; C routines integrate faithfully (FaithfulEnv); radial problems need two excited lines per thread with and without the materials (C36)."
  },
  {
   "property": "C89",
   "status": "proved",
   "theorems": [
    "Traceon.C89_stays",
    "Traceon.C89_axis",
    "Traceon.C89_meridional",
    "Traceon.C89_symmetric",
    "Traceon.C89_mirror",
    "Traceon.C89_example"
   ],
   "note": "Exact arithmetic. Where the radial series is read outside of its coefficients (C53) the force is taken to be zero. Symmetric 3D problems: triangles are mapped to triangles with corresponding corners."
  },
  {
   "property": "C90",
   "status": "proved",
   "theorems": [
    "Traceon.C90_trace",
    "Traceon.C90_fields",
    "Traceon.C90_moved",
    "Traceon.C90_along",
    "Traceon.C90_mirror",
    "Traceon.C90_turn",
    "Traceon.C90_voltages",
    "Traceon.C90_example",
    "Traceon.C90_mirror_example"
   ],
   "note": "Exact arithmetic; fields without field bounds. Only motions that keep the coordinate axes: the error of a step is a maximum over coordinates, so other rotations change the steps. The hypotheses on problems are those of C81, C84, C86 (examples there)."
  },
  {
   "property": "C91",
   "status": "partial",
   "theorems": [
    "Traceon.C91_threeD",
    "Traceon.C91_radial",
    "Traceon.C91_radial_partial",
    "Traceon.C91_path",
    "Traceon.C91_surface",
    "Traceon.C91_collection",
    "Traceon.realGeo_ok",
    "Traceon.C91_example",
    "Traceon.C91_example_radial"
   ],
   "note": "Exact arithmetic, FaithfulEnv. Radial symmetry: centres of lines at r >= 0, any number n of excited lines and T of threads: C91_radial says what the lines do, the first 2 (n - T) what their excitation asks for, the others as if they were alone; the statement itself holds if n >= 2 T (C91_radial_partial) and can fail otherwise (C80_radial_refuted). In three dimensions the whole statement is proved."
  },
  {
   "property": "C92",
   "status": "proved",
   "theorems": [
    "Traceon.C92_read",
    "Traceon.C92_example",
    "Traceon.C92_mixed_lines_refuted"
   ],
   "note": "proved for every file with lines of one kind and first order triangles; a file with both 2-point and 4-point lines loses the latter (witness); triangle6 files are not modelled"
  },
  {
   "property": "C93",
   "status": "proved",
   "theorems": [
    "Traceon.C93_methods",
    "Traceon.C93_solved",
    "Traceon.C93_example"
   ],
   "note": ""
  },
  {
   "property": "C94",
   "status": "partial",
   "theorems": [
    "Traceon.C94_shown",
    "Traceon.C94_legend",
    "Traceon.C94_empty",
    "Traceon.C94_colour_partial",
    "Traceon.C94_refuted",
    "Traceon.C94_free_refuted",
    "Traceon.C94_long_refuted",
    "Traceon.C94_grey_refuted",
    "Traceon.C94_example"
   ],
   "note": "Every element is drawn exactly once and in place (C94_shown). The colours are right for groups that share no points with other groups and colours of at most seven characters (C94_colour_partial); otherwise the property is false in the code: the colour is looked up through the points, see the four _refuted theorems."
  },
  {
   "property": "C95",
   "status": "proved",
   "theorems": [
    "Traceon.C95_normals",
    "Traceon.C95_none",
    "Traceon.C95_example"
   ],
   "note": "Triangles of zero area and lines parallel to the y-axis have no normal in the code either."
  },
  {
   "property": "C96",
   "status": "partial",
   "theorems": [
    "Traceon.C96_shown",
    "Traceon.C96_joined_partial",
    "Traceon.C96_complete",
    "Traceon.C96_whole",
    "Traceon.C96_refuted",
    "Traceon.C96_example"
   ],
   "note": "Which points are joined is characterised exactly (C96_joined_partial); the property fails for a trajectory that leaves the limits and comes back (C96_refuted)."
  },
  {
   "property": "C97",
   "status": "partial",
   "theorems": [
    "Traceon.C97_threeD",
    "Traceon.C97_threeD_lines",
    "Traceon.C97_radial_partial",
    "Traceon.C97_none",
    "Traceon.C97_coil_refuted",
    "Traceon.C97_higher_refuted",
    "Traceon.C97_example",
    "Traceon.C97_lines_example",
    "Traceon.C97_radial_example"
   ],
   "note": "Proved for 3D meshes (C97_threeD without lines in the mesh, C97_threeD_lines with lines) and for radial meshes of lines; radial problems with coils raise, or draw triangles that are not in the mesh (C97_coil_refuted, C97_higher_refuted)."
  },
  {
   "property": "C98",
   "status": "proved",
   "theorems": [
    "Traceon.C98_session",
    "Traceon.C98_implicit",
    "Traceon.C98_last",
    "Traceon.C98_again",
    "Traceon.C98_keeps",
    "Traceon.C98_window",
    "Traceon.C98_example"
   ],
   "note": "A call that raises is modelled as leaving the figure unchanged."
  },
  {
   "property": "C99",
   "status": "proved",
   "theorems": [
    "Traceon.C99_grid",
    "Traceon.C99_returns",
    "Traceon.C99_corners",
    "Traceon.C99_example"
   ],
   "note": ""
  }
 ]
}