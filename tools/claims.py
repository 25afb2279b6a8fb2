c("C01","proved",t("C01_build_valid","C01_in_range"))
c("C02","proved",t("C02_elements_keep_geometry","C02_doubles_lawful"))
c("C03","proved",t("C03_points_distinct"))
c("C04","proved",t("C04_groups_keep_triangles","C04_area"))
c("C05","proved",t("C05_add_keeps_groups","C05_add_empty"))
c("C06","proved",t("C06_connected_pieces"))
c("C10","partial",t("C10_extract_lines_partial","C10_extract_triangles_partial","C10_both_kinds_refuted","C10_read_file_refuted"),"proved for names used for one kind of element; false for names used for both (witness)")
c("C11","partial",t("C11_flip_unnamed_partial","C11_flip_twice_partial","C11_named_refuted"),"proved for elements in no named group; false for named groups (witness)")
c("C14","partial",t("C14_round_trip_partial","C14_names_refuted","C14_named"),"proved without names; false with names (witness); read_file(name=...) names everything (C14_named)")
c("C61","proved",t("C61_map_points"))
c("C62","proved",t("C62_trunc","C62_trunc_twice","C62_order","C62_equal","C62_lexicographic","C62_relative","C62_mesh"))
c("C07","proved",t("C07_reorient_consistent","C07_normals_consistent","C07_constructed_consistent"))
c("C08","proved",t("C08_lines_sign","C08_triangles_sign","C08_translation"),"exact real arithmetic")
c("C09","proved",t("C09_orientation_test","C09_move","C09_scale"),"exact real arithmetic, threshold 1e-14 of the code kept")
c("C12","proved",t("C12_upgrade_raw","C12_upgrade","C12_straight"))
c("C13","partial",t("C13_no_upgrade_partial","C13_upgrade_outward","C13_refuted"),"holds if no upgrade is needed; after an upgrade all named lines are outward (proved in general, and a concrete witness)")
c("C54","proved",t("C54_interpolates","C54_jacobian","C54_normal","C54_reverse"),"exact real arithmetic")
c("C63","partial",t("C63_triangles_consistent_partial","C63_normals_consistent_partial","C63_corner_refuted"),"proved for pieces connected through edges; false for pieces connected through a corner only")
c("C15","proved",t("C15_discretize"))
c("C16","proved",t("C16_path_mesh"))
c("C21","proved",t("C21_join","C21_join_assoc","C21_join_gap","C21_gap_example"))
c("C22","partial",t("C22_breakpoints_partial","C22_line_to","C22_refuted"),"holds if the appended path has no breakpoints; false otherwise (witness)")
c("C23","proved",t("C23_cut"))
c("C24","proved",t("C24_closed_gap","C24_add_phase","C24_open_refused"))
c("C25","partial",t("C25_line","C25_arc_partial","C25_circles","C25_half_circle_refuted"),"all lines, circles, and arcs other than half circles; half circles are undefined (witness)")
c("C26","partial",t("C26_example","C26_rotate_partial","C26_zero_angle_refuted","C26_two_axes_refused","C26_move_mirror","C26_path_transform"),"proved for one nonzero angle; the zero rotation raises (proved)")
c("C27","partial",t("C27_revolve_partial","C27_revolve_y_partial","C27_y_refuted","C27_full_turn"),"x and z axes agree with rotate; y is proved to turn the other way")
c("C28","partial",t("C28_extrude","C28_extrude_by_path","C28_spanned_partial","C28_spanned_refuted"),"spanned_by_paths is undefined for paths sharing both end points (witness)")
c("C29","partial",t("C29_boundary_partial","C29_refuted"),"corners always; edges for straight sides; false for curved sides (witness)")
c("C30","proved",t("C30_box"))
c("C64","proved",t("C64_rectangle_paths","C64_rectangles","C64_disks","C64_sphere","C64_aperture","C64_aperture_surface"))
c("C65","partial",t("C65_extrude_boundary","C65_revolve_boundary_partial","C65_full_turn_partial","C65_y_refuted","C65_edges","C65_by_path_refuted"),"extrusions along a vector and the x and z axes; false for the y axis (witness) and for extrude_boundary_by_path, which always raises")
c("C17","proved",t("C17_point_table","C17_normalized"),"PointStack invariant over all reachable tables, real coordinates.")
c("C18","partial",t("C18_example","C18_partial","C18_tame_partial","C18_bulge_refuted","C18_refuted"),"Proved for constant mesh size on regular surfaces (flat ones are: flat_regular) and, by C18_tame_partial, on every surface without bulges (extruded, revolved, spanned surfaces, boxes, spheres, discs and the tori it lists). Missing because false of the code: varying mesh size (C18_refuted: a flat rectangle gets holes) and bulging surfaces (C18_bulge_refuted: part of a torus with constant mesh size gets holes).")
c("C19","partial",t("C19_partial","C19_refuted","SMesh.C19_joined"),"Proved for breakpoints along one parameter. Missing: both parameters, for which C19_refuted proves the claim false.")
c("C20","proved",t("C20_tiles","C20_exists","SMesh.C20_midpoint"),"All quads, all patterns of existing edge points.")
c("C66","proved",t("C66_finishes","C66_mesh","C66_mesh_size"),"Real arithmetic.")
c("C67","partial",t("C67_partial","C67_flat_partial","C67_tame_partial","C67_extrude_partial","C67_extrude_path_partial","C67_revolve_polygon_partial","C67_revolve_partial","C67_disk_partial","C67_rectangle_partial","C67_aperture_partial","C67_torus_partial","C67_sphere_partial","C67_spanned_partial","C67_box_partial","C67_refuted"),"Proved for constant mesh size on every shape listed by the theorem names. Missing because false of the code: varying mesh size (C18_refuted), bulging contours (C67_refuted) and breakpoints along both parameters (C19).")
c("C31","partial",t("C31_programs_partial","C31_add_partial","C31_iadd_partial","C31_iadd_member_partial","C31_mesh","C31_refuted"),"Every program without += that does not raise behaves as lists; naming, map_points and meshing act on every member. False in the code: Path + PathCollection raises, and += rebinds the variable to None (C31_refuted).")
c("C32","proved",t("C32_example","C32_history","C32_boundary_mesh","C32_new"),"All sequences of calls, calls that raise included.")
c("C33","proved",t("C33_example","C33_wrong_dimension_example","C33_active","C33_wrong_dimension"),"All valid meshes and excitations; an excited name of the wrong dimension raises KeyError (proved).")
c("C34","proved",t("C34_example","C34_electrostatic","C34_magnetostatic","decides_of_unique","exists_decides"),"Elements in several excited groups follow the last group.")
c("C35","partial",t("C35_fields_partial","C35_fields_example","C35_currents_partial","C35_currents_example","C35_partial","C35_refuted","C35_coil_refuted"),"Complete for fixed voltages and dielectrics with at least one nonzero voltage, up to the returned potentials and fields at all points, for every voltage setting and schedule, radial and 3D. For coils and magnetizable materials: keys, potentials and the fields of the magnetized materials superpose for every setting of the currents; the fields of the coils themselves do not (every returned field carries all the original currents), the exact difference is the last part of C35_currents_partial. For magnetostatic potentials and all-zero voltages the property is false (C35_refuted, C35_coil_refuted).")
c("C36","partial",t("C36_threeD","C36_radial","C36_radial_partial","C36_refuted"),"3D: every row for every number of threads. C36_radial characterises the radial matrix exactly, for every number of elements and threads and every schedule: row i has its off-diagonal entries iff i + 2 T < 2 n, and otherwise they stay zero. So the property holds for n >= 2 T (C36_radial_partial) and fails otherwise (C36_refuted).")
c("C37","partial",t("C37_collect","C37_elementwise","C37_threads_partial","C37_refuted","C37_default_threads"),"All schedules and positive thread counts. Missing: TRACEON_THREADS <= 0, which raises (C37_refuted).")
c("C38","proved",t("C38_threeD","C38_radial","C38_operators_threeD","C38_operators_radial","C38_no_subtraction","C38_principle"),"Real arithmetic; charges with equal numbers of quadrature points (others are refused).")
c("C39","partial",t("C39_radial_partial","C39_axial_partial","C39_refuted","C39_add_forgets_bounds"),"Proved: + of radial fields, all operators of axial series fields. Missing: -, scaling and negation of radial and 3D fields and all operators of the interpolated fields, which raise or return no field (C39_refuted); + drops field bounds.")
c("C40","proved",t("C40_dispatch"),"All field objects of the model.")
c("C41","proved",t("C41_total_current"),"All valid meshes and coils with an area; the current is moreover uniform.")
c("C42","proved",t("C42_interface"))
c("C43","proved",t("C43_gradient","C43_methods"),"Frechet derivative, exact real arithmetic.")
c("C58","proved",t("C58_radial_symmetry"),"BEM fields and radial series.")
c("C68","proved",t("C68_radial_field","C68_ring_potential","isEllipticPair","with_approximations"),"For exact elliptic integrals; the error that the approximations of elliptic.c add is bounded in C75.")
c("C69","proved",t("C69_current_field"),"For exact elliptic integrals; the error that the approximations of elliptic.c add is bounded in C75.")
c("C44","proved",t("C44_force","C44_no_work","C44_constants"),"Radial, 3D and axial tracers.")
c("C45","proved",t("C45_step","C45_trajectory","C45_free","Spec.parabola_derivative"),"Also whole trajectories; without field the tracer provably returns.")
c("C46","proved",t("C46_trajectory","C46_deterministic"),"For positive tolerances, every block size >= 2 and every force field; real arithmetic.")
c("C47","proved",t("C47_glue"),"Every block size >= 2 and every number of blocks.")
c("C48","partial",t("C48_field_bounds_partial","C48_integers_partial","C48_columns_partial","C48_columns_refuted","C48_refuted"),"Proved for x and y in radial symmetry. Missing: z in radial symmetry, 3D fields, integer bounds, bounds stored by columns: false in the code (C48_refuted, C48_columns_refuted).")
c("C49","proved",t("C49_plane_intersection","C49_coordinate_planes","C49_touching"),"A point exactly in the plane counts as being on the side of the normal.")
c("C50","proved",t("C50_velocity","C50_directions"))
c("C70","proved",t("C70_order","C70_linear"),"Butcher's order conditions for every tree, and exactness to order five on all linear systems; that the conditions imply the order for nonlinear systems is Butcher's theorem, not proved here.")
c("C51","proved",t("C51_charges","C51_currents","C51_magnetostatic","C51_same_potential"))
c("C52","proved",t("C52_transversal","C52_harmonic","C52_axial_charges","C52_accuracy_charges","C52_accuracy_currents"),"The transversal components are exactly minus the derivatives; the longitudinal component, as the code truncates it, agrees up to a term of order r^8 (stated exactly in C52_harmonic). The accuracy theorems compare the series with the true potential and field of the rings, with constants that hold for all positions in a bounded part of the axis.")
c("C53","partial",t("C53_index_partial","C53_refuted"),"Refuted at z = z_last, where the row past the end of the coefficients is read; holds for z < z_last.")
c("C71","proved",t("C71_interpolation"),"Assumes of scipy only that the splines interpolate (Spec/Spline.lean).")
c("C55","partial",t("C55_branch_example","C55_isometric","C55_potential_integrand","C55_potential_partial","C55_flux_integrand","C55_flux_partial","C55_potential_returns","C55_flux_returns","C55_potential_branch","C55_self_v0","C55_self","C55_accuracy","C55_accuracy_example","C55_flux_accuracy","C55_flux_accuracy_example","C55_potential_branch_refuted","C55_flux_refuted"),"The analytic inner integrals are the true ones and the iterated integral is the surface integral. Missing: the small-distance branches have the wrong sign when the edge lies at negative x (C55_potential_branch_refuted, C55_flux_refuted); the error of the outer quadrature of the potential and of the flux is bounded for targets outside a sphere around the triangle (C55_accuracy, C55_flux_accuracy); for closer targets it is only that of C56.")
c("C56","proved",t("C56_partition","C56_empty","C56_returns","C56_polynomials","C56_accuracy","C56_accuracy_example","C56_tolerance_no_bound"),"The returned value is a sum of accepted 15-point rules over a partition; it returns for every bounded integrand; accurate to 1e-15 for polynomials of degree <= 23; for every function close to such a polynomial the error is bounded for any tolerance (C56_accuracy); the requested tolerance is no error bound (C56_tolerance_no_bound).")
c("C57","proved",t("C57_focus","C57_least_squares","C57_same_line"),"numpy.linalg.lstsq is specified (Spec/Focus.lean), and the specification proved satisfiable.")
c("C60","proved",t("C60_filter","C60_output","C60_environment"))
c("C59","partial",t("C59_voltage_partial","C59_interface_partial","C59_solution_partial","C59_own_field","C59_own_returns","C59_example","C59_accuracy_partial","C59_accuracy_example","C59_field_accuracy_partial","C59_field_accuracy_example","C59_solved_interface_partial","C59_far_refuted"),"Every row, thread schedule and charge vector, with the potential of distant elements computed by the program's 12-point rule and that of nearby ones by its adaptive quadrature. Missing: that these are the true potentials, which is proved with error bounds for elements in a sphere that does not contain the target (C59_accuracy_partial, C59_field_accuracy_partial; the own field is 0), not for the own potential and not for direct neighbours; C59_far_refuted shows that the 12-point rule is also used for long triangles right at the target.")

c("C72","partial",t("C72_voltage_rows_partial","C72_interface_rows_partial","C72_voltage_partial","C72_interface_partial","C72_electrostatic_partial","C72_magnetostatic_partial","C72_own_potential_integrable","C72_own_field_integrable"),"Every row, schedule and charge vector, for any number of elements and threads (_rows_: the rows that no thread computes are those of the element alone, see C36_radial). The potential of other elements is the one the returned field object computes (16-point rule); the diagonal is the exact integral, which is proved to exist. Missing: the error of scipy's quad. The error of the 16-point rule is C111 (straight elements) and C76_line.")
c("C73","proved",t("C73_area_3d","C73_triangle_areas","C73_area_straight","C73_area_radial","C73_area_near_chord","C73_sums","C73_total_3d","C73_total_radial","C73_charge_radial"),"Over the reals. Straight radial elements exactly, curved ones up to the stated error of the 16-point rule.")
c("C74","partial",t("C74_ends","C74_on_curve","C74_in_order","C74_spline_through_points","C74_uniform_segment","C74_constant_refused","C74_ellipse","C74_average_bounds","C74_average_const","C74_average_linear","C74_average_join","C74_average_line","C74_breakpoints_refuted"),"For every interpolation that meets the documented contract of scipy's CubicSpline. The claim about breakpoints is false: C74_breakpoints_refuted. How well the distance along the path is the arc length is C104.")
c("C75","proved",t("C75_elliptic","C75_elliptic_negative","C75_elliptic_parameter","C75_ring_potential","C75_potential","C75_field","C75_field_axis","C75_current_field"),"For exact arithmetic on the coefficients of elliptic.c (rounding of doubles is not modelled). Proved with a reference approximation of higher degree, checked by exact integer arithmetic in the kernel, and a maximum principle for the differential equation of K.")
c("C76","partial",t("C76_gauss_polynomial","C76_line","C76_potential_radial","C76_triangle_polynomial","C76_far_potential","C76_far_field","C76_potential_3d","C76_field_3d","C76_far_test","C76_far_test_refuted"),"The last claim is false for triangles whose first side is short (C76_far_test_refuted) and proved otherwise (C76_far_test). Exact arithmetic on the table entries.")
c("C77","partial",t("C77_coefficients","C77_potential","C77_sample","C77_field","C77_near_axis","C77_force","C77_last_sample_refuted"),"The claim that every point of the range can be evaluated is false at the last sample (C77_last_sample_refuted). Between 0 and 1e-10 from the axis the field is the one of the axis (C77_near_axis). The interpolation itself (Field3DAxial) is not part of this repository; C77_sample assumes that it takes the computed values at the samples.")
c("C78","proved",t("C78_convergence","C78_tracer_3d","C78_tracer_radial"),"The bound is in terms of the step lengths that were taken. Exact arithmetic. Tracers with axially interpolated fields (piecewise polynomial forces, not C^5 across the samples) are not covered, nor radial trajectories that come within 1e-10 of the axis.")
c("C79","proved",t("C79_block","C79_tracer_3d","C79_tracer_radial","C79_leaves","C79_at_rest"),"A particle at rest is the exception (C79_at_rest): the step length is infinite and the loop never ends. C79_leaves needs a force that is bounded everywhere.")
c("C80","partial",t("C80_threeD","C80_radial","C80_radial_partial","C80_mixed_refuted","C80_radial_refuted","C80_example","C80_example_radial"),"C80_threeD is complete for one kind of excitation; with both voltages and magnetic potentials solve_direct always raises in three dimensions (C80_mixed_refuted). In radial symmetry both can be combined; C80_radial holds for any number of excited lines n and threads T and says exactly what is solved: the first 2 (n - T) lines do what their excitation asks for, the others would if they were alone; all of them if n >= 2 T (C80_radial_partial). C80_radial_refuted: two discs at 10 V on two threads are charged as if each were alone, so the field solves another problem. Potential at a centre as in C59, C72: point rule for far elements, adaptive integrals nearby.")
c("C81","partial",t("C81_moved","C81_rigid","C81_reproducible","C81_plane","C81_plane_refuted","C81_example","C81_example_turn"),"Complete unless the mesh before or after the motion lies in the plane y = 0: such a three dimensional mesh is taken to be two dimensional and solve_direct raises an exception (C81_plane, C81_plane_refuted). Exact arithmetic.")
c("C82","proved",t("C82_line","C82_arc","C82_close","C82_middle","C82_middle_line","C82_example"),"Arcs with start, centre and end on one line are excluded (see C25_half_circle_refuted); line_to with the current end point divides by zero.")
c("C83","partial",t("C83_remove_lines","C83_remove_triangles","C83_normals_refuted"),"Everything but the direction of normals: the constructor makes the normals of named groups point outward again (C83_normals_refuted). Degenerate triangles are dropped as by every constructor (C04).")
c("C84","proved",t("C84_linear","C84_grounded","C84_example"),"Exact arithmetic; C routines integrate faithfully (FaithfulEnv); radial problems need two excited lines per thread, as with fewer the matrix is not filled (C36).")
c("C85","proved",t("C85_exact","C85_energy","C85_magnetic","C85_angular","C85_launch","C85_radial","C85_example","C85_example_radial"),"Exact arithmetic. Radial fields are computed with approximate elliptic integrals, so the total energy there drifts with the error of the field as well (C85_radial); the speed in magnetic fields and the angular momentum in electrostatic ones are exact there too.")
c("C86","proved",t("C86_radial","C86_similar","C86_shift","C86_mirror","C86_symmetric","C86_example","C86_symmetric_example"),"Exact arithmetic. C86_radial is stated for the meshes used for solving (after lines have been upgraded to higher order), as the constructors clear low bits of coordinates in between (C62). Radial problems need two excited lines per thread (C36). Not for points and centres that cross the tolerance 1e-10 of the axis when the unit changes. C86_symmetric with coils: each triangle of a coil must be its own mirror image, so in practice problems without coils.")
c("C87","proved",t("C87_threeD","C87_radial","C87_linear","C87_example","C87_example_radial","C87_example_linear"),"Exact arithmetic. Radial problems need lines at x >= 0 (any number of lines and threads, C80_radial); there the charge seen from far away agrees within 1e-9 (the elliptic integrals are approximations), and areas are the 16-point sums (accuracy: C73). In 3D the rounding of the 12 weights (1 + 2e-15) is stated.")
c("C88","proved",t("C88_invisible","C88_example"),"Exact arithmetic; C routines integrate faithfully (FaithfulEnv); radial problems need two excited lines per thread with and without the materials (C36).")
c("C89","proved",t("C89_stays","C89_axis","C89_meridional","C89_symmetric","C89_mirror","C89_example"),"Exact arithmetic. Where the radial series is read outside of its coefficients (C53) the force is taken to be zero. Symmetric 3D problems: triangles are mapped to triangles with corresponding corners.")
c("C90","proved",t("C90_trace","C90_fields","C90_moved","C90_along","C90_mirror","C90_turn","C90_voltages","C90_example","C90_mirror_example"),"Exact arithmetic; fields without field bounds. Only motions that keep the coordinate axes: the error of a step is a maximum over coordinates, so other rotations change the steps. The hypotheses on problems are those of C81, C84, C86 (examples there).")
c("C91","partial",t("C91_threeD","C91_radial","C91_radial_partial","C91_path","C91_surface","C91_collection","realGeo_ok","C91_example","C91_example_radial"),"Exact arithmetic, FaithfulEnv. Radial symmetry: centres of lines at r >= 0, any number n of excited lines and T of threads: C91_radial says what the lines do, the first 2 (n - T) what their excitation asks for, the others as if they were alone; the statement itself holds if n >= 2 T (C91_radial_partial) and can fail otherwise (C80_radial_refuted). In three dimensions the whole statement is proved.")
c("C92","proved",t("C92_read","C92_example","C92_mixed_lines_refuted"),"proved for every file with lines of one kind and first order triangles; a file with both 2-point and 4-point lines loses the latter (witness); triangle6 files are not modelled")
c("C93","proved",t("C93_methods","C93_solved","C93_example"),"")
c("C94","partial",t("C94_shown","C94_legend","C94_empty","C94_colour_partial","C94_refuted","C94_free_refuted","C94_long_refuted","C94_grey_refuted","C94_example"),"Every element is drawn exactly once and in place (C94_shown). The colours are right for groups that share no points with other groups and colours of at most seven characters (C94_colour_partial); otherwise the property is false in the code: the colour is looked up through the points, see the four _refuted theorems.")
c("C95","proved",t("C95_normals","C95_none","C95_example"),"Triangles of zero area and lines parallel to the y-axis have no normal in the code either.")
c("C96","partial",t("C96_shown","C96_joined_partial","C96_complete","C96_whole","C96_refuted","C96_example"),"Which points are joined is characterised exactly (C96_joined_partial); the property fails for a trajectory that leaves the limits and comes back (C96_refuted).")
c("C97","partial",t("C97_threeD","C97_threeD_lines","C97_radial_partial","C97_none","C97_coil_refuted","C97_higher_refuted","C97_example","C97_lines_example","C97_radial_example"),"Proved for 3D meshes (C97_threeD without lines in the mesh, C97_threeD_lines with lines) and for radial meshes of lines; radial problems with coils raise, or draw triangles that are not in the mesh (C97_coil_refuted, C97_higher_refuted).")
c("C98","proved",t("C98_session","C98_implicit","C98_last","C98_again","C98_keeps","C98_window","C98_example"),"A call that raises is modelled as leaving the figure unchanged.")
c("C99","proved",t("C99_grid","C99_returns","C99_corners","C99_example"),"")
c("C100","partial",t("C100_back","C100_stopped_partial","C100_origin","C100_refuted","C100_example"),"pickle is a parameter: it is assumed to give back what was dumped and to raise for a pickle without its end. After a stop the file gives the new object or raises; the old object is lost (C100_refuted), because the file is emptied before it is written.")
c("C101","partial",t("C101_partial","C101_flat_partial","C101_mesh_partial","C101_cylinder_partial","C101_refuted","C101_disk_refuted"),"Proved for surfaces without breakpoints on which equal steps in a parameter are equal steps in space (rectangles, parallelograms, sides of cylinders), with a constant mesh size. False for disks (C101_disk_refuted: with mesh size 0.36 the disk of radius 1 has a gap, a point of the disk that lies in no triangle) and with breakpoints (C101_refuted): of the points that a finer neighbour puts on an edge only the middle is used.")
c("C102","partial",t("C102_rows_partial","C102_numbers","C102_force","C102_agrees","C102_nan","C102_refuted","C102_plane_numbers","C102_plane_refuted"),"All rows but the last two are numbers and follow each other by ordinary steps; if the force is a number everywhere, the result is that of the tracer of C44 to C50. False otherwise: an error that is NaN counts as zero, the step is accepted and the trajectory ends with rows of NaN (C102_nan, C102_refuted); the plane intersection is then NaN instead of missing (C102_plane_refuted). Infinities are not modelled, apart from the infinite step of a particle at rest.")
c("C103","proved",t("C103_electrostatic","C103_magnetostatic","C103_axis","C103_example"),"The two scipy routines are parameters that do what scipy documents (SplineLib.Documented: quintic polynomials with the given value and two derivatives at both ends, not-a-knot cubic splines); exists_documented shows that such routines exist. The error of the cubic spline is proved in Lemmas/CubicSpline3.lean. z equal to the last sample is excluded (C53_refuted).")
c("C104","proved",t("C104_arc_length","C104_example"),"scipy's CubicSpline is a parameter that does what scipy documents (NotAKnot); exists_notAKnot shows that such a routine exists. The number of samples from which the statement holds depends on the curve: with few samples the code may raise because the lengths are not ascending, or may overshoot. Path.ellipse always uses 100 samples, and a spline through points has only two continuous derivatives: neither is covered by this statement (see C74).")
c("C105","partial",t("Mem.C105_potential_radial","Mem.C105_field_radial","Mem.C105_axial_derivatives_radial","Mem.C105_current_potential_axial","Mem.C105_current_field","Mem.C105_current_axial_derivatives_radial","Mem.C105_potential_3d","Mem.C105_field_3d","Mem.C105_axial_coefficients_3d","Mem.C105_fill_jacobian_buffer_radial","Mem.C105_fill_jacobian_buffer_3d","Mem.C105_triangle_areas","Mem.C105_fill_matrix_radial","Mem.C105_fill_matrix_3d","Mem.C105_self_radial","Mem.C105_higher_order_normal_radial","Mem.C105_charge_radial_partial","Mem.C105_charge_radial_refuted","Mem.C105_position_and_jacobian_radial_partial","Mem.C105_position_and_jacobian_radial_refuted","Mem.C105_plane_intersection_partial","Mem.C105_plane_intersection_refuted","Mem.C105_radial_derivs_partial","Mem.C105_derivs_3d_partial","Mem.C105_radial_derivs_refuted","Mem.C105_derivs_3d_refuted","Mem.C105_one_sample_refuted","Mem.C105_trace_particle_radial_partial","Mem.C105_trace_particle_radial_refuted","Mem.C105_field_bounds_refuted","Mem.C105_trace_particle_3d","Mem.C105_trace_particle_radial_derivs_partial","Mem.C105_trace_particle_3d_derivs_partial","Mem.C105_example", "Mem.C105_accepts", "Mem.C105_accepts_elements", "Mem.C105_accepts_tracing"),"Proved for 16 functions without further conditions. False in the code (the _refuted theorems) for: plane_intersection of an empty trajectory, charge_radial of fewer than four vertices, position_and_jacobian_radial of 2-vectors, the interpolated fields at the last sample (cf. C53) or with one sample, tracing with coil charges whose positions have two coordinates, field bounds of 32-bit integers; these functions are proved safe otherwise (_partial). Counters are unbounded integers; the contents of the arrays enter only through arbitrary outcomes of comparisons and casts.")
c("C106","proved",t("C106_potential","C106_field","C106_doubles","C106_computed","C106_coil_axis","C106_example","C106_radial","C106_radial_computed","C106_radial_example"),"No overflow, no underflow; rearrangements of -ffast-math other than the order of the summation and contraction to fused operations are not covered. In ellipkm1 the eight terms are added in the order of the code.")
c("C107","proved",t("C107_points","C107_elements","C107_gauss","C107_example"),"In exact arithmetic; rounding is C106.")
c("C108","proved",t("C108_size","C108_extrude","C108_extrude_path","C108_revolve","C108_constant","C108_disk","C108_rectangle","C108_aperture","C108_sphere","C108_spanned","C108_box","C108_mesh","C108_example"),"C108_size is the general statement: every surface whose sections do not turn back within a quarter of their length. The other theorems show that for the surfaces of the API. C108_mesh is about the finished mesh, where clearing the low bits of the coordinates moves points by at most epsilon. Surfaces with breakpoints along both parameters are not covered: there the code joins the wrong sections (C19).")
c("C109","proved",t("C109_rings","C109_loops","C109_methods","C109_solved","C109_rings_everywhere","C109_loops_everywhere","C109_axis","C109_solved_everywhere","C109_example","C109_example_solved","C109_example_axis"),"The exact fields are minus the gradient of the potential of the rings (C68) and the Biot-Savart field of the current rings (C69); the distance of the returned numbers from them is bounded by C75. The exact fields satisfy the vacuum equations at every point on no ring, on the axis included (C109_rings_everywhere, C109_loops_everywhere), and C109_axis is about the values returned on the axis. At distances strictly between 0 and 1e-10 from the axis the program returns zero for the radial component (C68), so there the returned field is not claimed. C109_solved holds for any number of lines and threads (C80_radial).")
c("C110","proved",t("C110_rings","C110_coils","C110_example"),"The field is the one of the law of Biot and Savart, which current_field returns up to the accuracy of the elliptic integrals (C69, C75).")
c("C111","proved",t("C111_element","C111_potential","C111_own","C111_centre","C111_solved"),"C111_own holds for curved elements too; for the rule on curved elements see C76_line. C111_solved applies to the conclusion of C80_radial_partial. The integral over the own element is exact in the model (the program uses scipy's quad).")
c("C112","proved",t("C112_ring","C112_elements","C112_field","C112_solved","C112_example"),"For any number of lines and threads (C80_radial); the elements lie in the half plane x >= 0. C112_example: two discs and four boxes.")
c("C113","proved",t("C113_threeD","C113_solved","C113_no_trap","C113_boundary_error","C113_radial","C113_radial_magnetic","C113_radial_solved","C113_example","C113_example_solved"),"A region without charges is one with no quadrature point (C113_threeD), no point of an excited triangle (C113_solved), or no point of a charged ring (C113_radial); C113_radial_solved is about solved radial problems. Over the reals.")
c("C114","proved",t("C114_mesh","C114_mesh_refuted","C114_excitation","C114_field","C114_example"),"The text of a value (a float, an array or a function) is a parameter, that of an excitation assumes that it has no line break. C114_mesh_refuted: the condition on names is needed. That no excitation raises is built into the model: the six kinds are all there are, and each has a text. Not modelled: Path.__str__, Tracer.__str__, EffectivePointCharges.__str__.")
c("C115","proved",t("C115_energy","C115_force","C115_rings_energy","C115_rings_force","C115_coils_force","C115_work","C115_example_work","C115_example_points","C115_example_rings"),"Exact arithmetic, but with the approximations of the elliptic integrals that the program uses: for these the laws hold exactly. The theorems say nothing about the code for distributions with a point in common (there it divides by zero; in the model the quotient is 0). Not covered: forces between coils and magnetized rings, for which the laws hold only up to the errors of the approximations.")
c("C116","proved",t("C116_loop","C116_loops","C116_coils","C116_magnetic","C116_example"),"Real arithmetic. The accuracy holds at the points on the axis or at least 1e-10 away from it (between them the code takes the value of the axis), for loops of radius at least 1e-10, as in C75. The box must not cut the coils: on their surface the field of the discrete loops is singular.")
c("C117","proved",t("C117_loop","C117_loops","C117_coils","C117_magnetic","C117_example"),"Real arithmetic. The accuracy of what the code returns (second part of C117_magnetic) holds at the points on the axis or at least 1e-10 away from it, for loops of radius at least 1e-10, as in C75. Coils that are partly inside the rectangle are covered by C117_loops only (the current inside is then that of the quadrature points inside).")
c("C118","proved",t("C118_gradient","C118_flux","C118_busch","C118_flux_magnetic","C118_lens","C118_example","C118_example_flux","C118_example_lens"),"Real arithmetic. The trajectory must stay further than 1e-10 from the axis (nearer to the axis the code takes the field to be along the axis) and off the rings; loops of radius at least 1e-10. C118_busch is for fields without magnetic charges, C118_lens for all fields; with magnetic charges no charged ring may meet the disk from the axis to the electron, since the flux of the field strength through a disk jumps where the disk passes a charged ring.")
