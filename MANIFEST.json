{
 "claims": [
  {
   "property": "C01",
   "status": "proved",
   "theorems": [
    "Hexed.Tree.leaves_tile",
    "Hexed.Tree.find_leaf_exact",
    "Hexed.Tree.find_leaf_exact_sub"
   ],
   "note": "integer arithmetic exact; overflow of 2^level not modelled"
  },
  {
   "property": "C02",
   "status": "proved",
   "theorems": [
    "Hexed.Tree.find_leaf_position",
    "Hexed.Tree.nominal_box"
   ],
   "note": "positions in an exact ordered field; rounding not modelled"
  },
  {
   "property": "C03",
   "status": "proved",
   "theorems": [
    "Hexed.Tree.find_neighbor_exact",
    "Hexed.Tree.find_neighbor_null",
    "Hexed.Tree.find_neighbor_borders"
   ],
   "note": ""
  },
  {
   "property": "C04",
   "status": "proved",
   "theorems": [
    "Hexed.Tree.find_neighbors_exact",
    "Hexed.Tree.find_neighbors_empty",
    "Hexed.Tree.find_neighbors_face",
    "Hexed.Tree.find_neighbors_symm"
   ],
   "note": ""
  },
  {
   "property": "C05",
   "status": "proved",
   "theorems": [
    "Hexed.Tree.flood_fill_leaf",
    "Hexed.Tree.flood_fill_barrier",
    "Hexed.Tree.flood_fill_rejects"
   ],
   "note": ""
  },
  {
   "property": "C06",
   "status": "partial",
   "theorems": [
    "Hexed.Tree.flood_fill_any",
    "Hexed.Tree.flood_fill_nonleaf_partial",
    "Hexed.Tree.flood_fill_nonleaf_refuted"
   ],
   "note": "the documented behaviour is false of the code (refuted by a concrete history); exact behaviour and the part that holds are proved"
  },
  {
   "property": "C07",
   "status": "proved",
   "theorems": [
    "Hexed.Tree.refine_leaf",
    "Hexed.Tree.refine_nonleaf_rejected",
    "Hexed.Tree.unrefine_refine",
    "Hexed.Tree.level_and_coords",
    "Hexed.Tree.count_exact"
   ],
   "note": ""
  },
  {
   "property": "C09",
   "status": "proved",
   "theorems": [
    "Hexed.Namespace.one_type",
    "Hexed.Namespace.assign_exact",
    "Hexed.Namespace.create_exact",
    "Hexed.Namespace.createHeis_exact",
    "Hexed.Namespace.assignDefault_exact",
    "Hexed.Namespace.step_frame",
    "Hexed.Namespace.type_for_life",
    "Hexed.Namespace.lookup_local",
    "Hexed.Namespace.lookup_latest",
    "Hexed.Namespace.promotion"
   ],
   "note": "double is an uninterpreted type; conversion int->double an arbitrary function"
  },
  {
   "property": "C10",
   "status": "partial",
   "theorems": [
    "Hexed.Namespace.supers_untouched",
    "Hexed.Namespace.lookup_terminates",
    "Hexed.Namespace.lookup_inherits_partial",
    "Hexed.Namespace.inherit_deep_refuted",
    "Hexed.Namespace.exists_recursive_two_levels_refuted",
    "Hexed.Namespace.exists_recursive_all_of_refuted"
   ],
   "note": "assignments never change supers (full); lookup of inherited variables holds for one level of inheritance only: deeper inheritance is refuted by concrete histories"
  },
  {
   "property": "C11",
   "status": "proved",
   "theorems": [
    "Hexed.Hil.exec_program",
    "Hexed.Hil.int_expression",
    "Hexed.Hil.int_expression_ub",
    "Hexed.Hil.int_text",
    "Hexed.Hil.assign_program"
   ],
   "note": "double is uninterpreted; int is 32-bit with overflow as undefined behaviour"
  },
  {
   "property": "C12",
   "status": "proved",
   "theorems": [
    "Hexed.Hil.string_literal",
    "Hexed.Hil.string_quotable",
    "Hexed.Hil.string_only_documented",
    "Hexed.Hil.lit_unique"
   ],
   "note": ""
  },
  {
   "property": "C13",
   "status": "proved",
   "theorems": [
    "Hexed.Hil.arith_int_int",
    "Hexed.Hil.arith_mixed",
    "Hexed.Hil.compare_mixed",
    "Hexed.Hil.compare_int",
    "Hexed.Hil.ne_not_eq",
    "Hexed.Hil.string_operands",
    "Hexed.Hil.string_plus_int",
    "Hexed.Hil.mod_types",
    "Hexed.Hil.index_types",
    "Hexed.Hil.unary_types",
    "Hexed.Hil.abs_string"
   ],
   "note": "double operations are uninterpreted"
  },
  {
   "property": "C14",
   "status": "partial",
   "theorems": [
    "Hexed.Hil.exec_program",
    "Hexed.Hil.exec_unhandled",
    "Hexed.Hil.exec_handled_partial",
    "Hexed.Hil.second_exception_refuted",
    "Hexed.Hil.discard_refuted",
    "Hexed.Hil.retype_refuted",
    "Hexed.Hil.stmt_minus_refuted",
    "Hexed.Hil.blank_refuted",
    "Hexed.Hil.missing_operand_refuted",
    "Hexed.Hil.exit_refuted"
   ],
   "note": "sequential execution and one handled exception are proved for all programs whose failing statement contains no separator in a string literal; the full claim is refuted by concrete programs (second exception, separator inside a string, retyping)"
  },
  {
   "property": "C41",
   "status": "proved",
   "theorems": [
    "Hexed.Hil.macro_substitution"
   ],
   "note": ""
  },
  {
   "property": "C08",
   "status": "proved",
   "theorems": [
    "Hexed.TreeFile.round_trip",
    "Hexed.TreeFile.references"
   ],
   "note": ""
  },
  {
   "property": "C15",
   "status": "proved",
   "theorems": [
    "Hexed.MutualPtr.mutual_consistent",
    "Hexed.MutualPtr.never_dangling",
    "Hexed.MutualPtr.get_exact",
    "Hexed.MutualPtr.pair_exact",
    "Hexed.MutualPtr.unpair_exact",
    "Hexed.MutualPtr.move_exact",
    "Hexed.MutualPtr.self_move"
   ],
   "note": ""
  },
  {
   "property": "C17",
   "status": "proved",
   "theorems": [
    "Hexed.Container.elements_exact",
    "Hexed.Container.at_exact",
    "Hexed.Container.serial_fresh",
    "Hexed.Container.purge_exact"
   ],
   "note": ""
  },
  {
   "property": "C18",
   "status": "proved",
   "theorems": [
    "Hexed.Container.seq_exact",
    "Hexed.Container.concat_exact"
   ],
   "note": ""
  },
  {
   "property": "C19",
   "status": "proved",
   "theorems": [
    "Hexed.RowIndex.face_order",
    "Hexed.RowIndex.row_points",
    "Hexed.RowIndex.visits_once",
    "Hexed.RowIndex.coords_unique"
   ],
   "note": ""
  },
  {
   "property": "C20",
   "status": "proved",
   "theorems": [
    "Hexed.Tensor.hypercube_kron",
    "Hexed.Tensor.hypercube_one_column",
    "Hexed.Tensor.dimension_sum",
    "Hexed.Tensor.dimension_comm",
    "Hexed.Tensor.pow_outer_prod",
    "Hexed.Tensor.idx_surj"
   ],
   "note": "exact arithmetic in a commutative ring; hypercube_matvec does not end for a one-column matrix with several entries (hypercube_one_column)"
  },
  {
   "property": "C21",
   "status": "proved",
   "theorems": [
    "Hexed.MathFn.pow_field",
    "Hexed.MathFn.pow_nat",
    "Hexed.MathFn.pow_int",
    "Hexed.MathFn.log_least",
    "Hexed.MathFn.log_bad_base",
    "Hexed.MathFn.log_overflow"
   ],
   "note": "log_overflow shows that log overflows when the least power is not representable although the result is small"
  },
  {
   "property": "C22",
   "status": "proved",
   "theorems": [
    "Hexed.MathFn.bisection_bracket",
    "Hexed.MathFn.bisection_terminates",
    "Hexed.MathFn.bisection_root",
    "Hexed.MathFn.bisection_rejects",
    "Hexed.MathFn.nan_one_sided",
    "Hexed.MathFn.nan_end_moves",
    "Hexed.MathFn.nan_rejects"
   ],
   "note": "exact arithmetic; NaN function values modelled"
  },
  {
   "property": "C16",
   "status": "proved",
   "theorems": [
    "Hexed.Vertex.calls_defined",
    "Hexed.Vertex.neighbors_symmetric",
    "Hexed.Vertex.pointers_exact",
    "Hexed.Vertex.eat_exact",
    "Hexed.Vertex.connect_exact",
    "Hexed.Vertex.merge_mean",
    "Hexed.Vertex.merge_classes",
    "Hexed.Vertex.merge_order"
   ],
   "note": "positions in an exact field"
  },
  {
   "property": "C23",
   "status": "proved",
   "theorems": [
    "Hexed.Connection.frame_exists_unique",
    "Hexed.Connection.vertex_inds_exact",
    "Hexed.Connection.match_faces_exact",
    "Hexed.Connection.corresponding_exists",
    "Hexed.Connection.restore_match"
   ],
   "note": "the two sides are identified through the unique rotation mapping one element's frame to the other's"
  },
  {
   "property": "C42",
   "status": "proved",
   "theorems": [
    "Hexed.Connection.refined_faces_exact",
    "Hexed.Connection.refined_verts_exact"
   ],
   "note": ""
  },
  {
   "property": "C43",
   "status": "proved",
   "theorems": [
    "Hexed.Connection.hanging_match_exact",
    "Hexed.Connection.at_corners_exists"
   ],
   "note": "n_dim 2 and 3; in one dimension the code indexes str[-1] and hypercube_matvec does not end"
  },
  {
   "property": "C37",
   "status": "proved",
   "theorems": [
    "Hexed.Basis.interpolate_exact",
    "Hexed.Basis.interpolate_py_exact",
    "Hexed.Basis.interpolate_node",
    "Hexed.Basis.derivative_exact",
    "Hexed.Basis.equidistant_distinct",
    "Hexed.Basis.equidistant_diff_exact",
    "Hexed.Basis.equidistant_boundary_exact",
    "Hexed.Basis.tables_exact"
   ],
   "note": "exact arithmetic in a field; Equidistant with row_size 1 divides 0 by 0 and is excluded by the hypothesis"
  },
  {
   "property": "C44",
   "status": "proved",
   "theorems": [
    "Hexed.Basis.prolong_exact",
    "Hexed.Basis.quad_halves",
    "Hexed.Basis.restrict_prolong",
    "Hexed.Basis.restrict_projection",
    "Hexed.Basis.restrict_conserves",
    "Hexed.Basis.restrict_exact"
   ],
   "note": "exact arithmetic; the nodes and weights of the generated bases are replaced by any rule that is exact to the stated degree"
  },
  {
   "property": "C45",
   "status": "proved",
   "theorems": [
    "Hexed.Basis.lift_integral",
    "Hexed.Basis.deriv_conservative",
    "Hexed.Basis.deriv_exact",
    "Hexed.Basis.deriv_exact_sharp",
    "Hexed.Basis.deriv_split",
    "Hexed.Basis.deriv_interior_exact"
   ],
   "note": "exact arithmetic"
  },
  {
   "property": "C46",
   "status": "proved",
   "theorems": [
    "Hexed.Basis.orthogonal_orthonormal",
    "Hexed.Basis.filter_tables",
    "Hexed.Basis.filter_mode",
    "Hexed.Basis.filter_conserves",
    "Hexed.Basis.modes_complete",
    "Hexed.Basis.filter_contracts"
   ],
   "note": "real numbers; sympy's Legendre polynomials replaced by Mathlib's"
  },
  {
   "property": "C24",
   "status": "proved",
   "theorems": [
    "Hexed.Spatial.shared_face_flux_opposite",
    "Hexed.Spatial.shared_face_flux_opposite_cartesian",
    "Hexed.Spatial.flux_consistent",
    "Hexed.Spatial.shared_face_diffusion_opposite"
   ],
   "note": "exact real arithmetic; any PDE record (flux, face speed and number of variables are parameters)"
  },
  {
   "property": "C47",
   "status": "proved",
   "theorems": [
    "Hexed.Spatial.convection_stage_balance",
    "Hexed.Spatial.convection_step_balance",
    "Hexed.Spatial.inviscid_conservation",
    "Hexed.Spatial.converged_flux_balance"
   ],
   "note": "exact real arithmetic; the mesh is a record of elements, connections and refined faces satisfying Mesh.Ok"
  },
  {
   "property": "C48",
   "status": "proved",
   "theorems": [
    "Hexed.Spatial.diffusion_stage_balance",
    "Hexed.Spatial.viscous_conservation",
    "Hexed.Solver.flow_step_balance"
   ],
   "note": "exact real arithmetic; first (only) stage of the viscous scheme"
  },
  {
   "property": "C49",
   "status": "proved",
   "theorems": [
    "Hexed.Spatial.convection_order_independent",
    "Hexed.Spatial.diffusion_order_independent"
   ],
   "note": "sequential orders; exact real arithmetic"
  },
  {
   "property": "C33",
   "status": "proved",
   "theorems": [
    "Hexed.Pde.characteristic_sum",
    "Hexed.Pde.characteristic_eigen",
    "Hexed.Pde.fluxConv_eq"
   ],
   "note": "exact real arithmetic; eigenvectors of the derivative of the textbook Euler flux, which fluxConv_eq shows the code's flux to be"
  },
  {
   "property": "C34",
   "status": "proved",
   "theorems": [
    "Hexed.Pde.char_speed_bound",
    "Hexed.Pde.char_speed_eigenvalues"
   ],
   "note": "exact real arithmetic"
  },
  {
   "property": "C35",
   "status": "proved",
   "theorems": [
    "Hexed.Solver.reflect_twice",
    "Hexed.Solver.nonpenetration_state",
    "Hexed.Solver.nonpenetration_flux",
    "Hexed.Solver.nonpenetration_diffusion",
    "Hexed.Solver.no_slip_flux",
    "Hexed.Solver.no_slip_energy",
    "Hexed.Solver.no_slip_diffusion",
    "Hexed.Solver.advection_bcs",
    "Hexed.Solver.advection_ghosts"
   ],
   "note": "exact real arithmetic; the thermal condition of the no-slip wall is a prescribed energy or heat flux, Thermal_equilibrium is not modelled"
  },
  {
   "property": "C50",
   "status": "proved",
   "theorems": [
    "Hexed.Pde.velocity_gradient_exact",
    "Hexed.Pde.temperature_gradient_exact",
    "Hexed.Pde.viscous_flux_exact",
    "Hexed.Pde.stored_flux",
    "Hexed.Pde.stored_diffusivity",
    "Hexed.Pde.stored_update",
    "Hexed.Pde.sqrt_temp_exact",
    "Hexed.Pde.dissipation_nonneg",
    "Hexed.Pde.sutherland_law",
    "Hexed.Pde.sutherland_reference",
    "Hexed.Pde.constant_law",
    "Hexed.Pde.sutherland_nonneg"
   ],
   "note": "exact real arithmetic"
  },
  {
   "property": "C51",
   "status": "proved",
   "theorems": [
    "Hexed.Solver.walls_conserve",
    "Hexed.Solver.flow_step_balance",
    "Hexed.Solver.flowStep_defined"
   ],
   "note": "exact real arithmetic; equal time step scale everywhere; fix_admissibility switched off"
  },
  {
   "property": "C52",
   "status": "proved",
   "theorems": [
    "Hexed.Solver.riemann_freestream",
    "Hexed.Solver.riemann_admissible",
    "Hexed.Solver.riemann_waves",
    "Hexed.Solver.riemann_outflow",
    "Hexed.Solver.riemann_inflow",
    "Hexed.Solver.pressure_outflow",
    "Hexed.Solver.riemann_flux_waves",
    "Hexed.Solver.riemann_flux_supersonic"
   ],
   "note": "exact real arithmetic"
  },
  {
   "property": "C26",
   "status": "proved",
   "theorems": [
    "Hexed.History.bounds_exact",
    "Hexed.History.last_retained",
    "Hexed.History.recorded_dense",
    "Hexed.History.at_most_one_missing",
    "Hexed.History.window_refuted",
    "Hexed.History.zero_window_hangs"
   ],
   "note": "exact real arithmetic; the window size 1 (the threshold becomes infinite) is not modelled; window_refuted: a sample in the window can be missing from the bounds; zero_window_hangs: window size 0 never returns"
  },
  {
   "property": "C27",
   "status": "proved",
   "theorems": [
    "Hexed.Layers.mesh_layers",
    "Hexed.Layers.extruded_layers",
    "Hexed.Layers.total_height",
    "Hexed.Layers.growth_ratio",
    "Hexed.Layers.first_ratio",
    "Hexed.Layers.spacing_pos",
    "Hexed.Layers.wall_layer_pos",
    "Hexed.Layers.total_height_refuted",
    "Hexed.Layers.negative_wall_layer"
   ],
   "note": "exact real arithmetic; total_height_refuted: the documented sum of 1 fails for the sequence itself; negative_wall_layer: with wall layers of more than half the height the wall layer can be negative"
  },
  {
   "property": "C38",
   "status": "proved",
   "theorems": [
    "Hexed.CaseRun.update_lands",
    "Hexed.CaseRun.first_update",
    "Hexed.CaseRun.run_schedule",
    "Hexed.CaseRun.run_iteration",
    "Hexed.CaseRun.write_every",
    "Hexed.CaseRun.write_refuted",
    "Hexed.CaseRun.ramp_refuted",
    "Hexed.CaseRun.label_stale",
    "Hexed.CaseRun.negative_freq_stuck",
    "Hexed.CaseRun.zero_freq_undefined"
   ],
   "note": "unbounded integers; write_refuted: with write_freq not a multiple of print_freq writes are skipped; ramp_refuted: set_ramping never takes effect unless print_freq divides ramping_initial_iters; label_stale: monitors get the iteration before the update"
  },
  {
   "property": "C40",
   "status": "partial",
   "theorems": [
    "Hexed.Csv.round_trip_partial",
    "Hexed.Csv.read_sound_partial",
    "Hexed.Csv.no_final_newline_hangs",
    "Hexed.Csv.blank_line_truncates",
    "Hexed.Csv.surplus_ignored",
    "Hexed.Csv.short_row_undefined"
   ],
   "note": "missing because false: rejection of malformed files. A file without final newline is read for ever, a short row is read beyond its end, surplus entries and everything behind an empty line are ignored. stod is an arbitrary partial function"
  },
  {
   "property": "C53",
   "status": "proved",
   "theorems": [
    "Hexed.Spatial.convection_exact",
    "Hexed.Spatial.diffusion_exact",
    "Hexed.Spatial.faces_exact",
    "Hexed.Spatial.steady_stage",
    "Hexed.Spatial.steady_diffusion",
    "Hexed.Spatial.steady_preserved",
    "Hexed.Solver.freestream_preserved"
   ],
   "note": "exact real arithmetic; diffusion assumes n_extrap <= 2 n_update, which holds for the flow equations"
  },
  {
   "property": "C54",
   "status": "proved",
   "theorems": [
    "Hexed.Pde.flux_keeps_admissible",
    "Hexed.Pde.split_admissible",
    "Hexed.Pde.advection_monotone"
   ],
   "note": "exact real arithmetic; convective flux only"
  },
  {
   "property": "C25",
   "status": "proved",
   "theorems": [
    "Hexed.Storage.element_tiled",
    "Hexed.Storage.stages_disjoint",
    "Hexed.Storage.pde_offsets",
    "Hexed.Storage.connection_layout",
    "Hexed.Storage.small_blocks",
    "Hexed.Storage.coarse_face_fits",
    "Hexed.Storage.coarse_face_default",
    "Hexed.Storage.coarse_face_refuted"
   ],
   "note": "int overflow not modelled. coarse_face_refuted: with MAX_BASIS_ROW_SIZE >= 9 the coarse face storage of 1D hanging-node connections is too small for the advection equation"
  },
  {
   "property": "C28",
   "status": "partial",
   "theorems": [
    "Hexed.Geom.nearest_2d_partial",
    "Hexed.Geom.nearest_3d_partial",
    "Hexed.Geom.nearest_unique",
    "Hexed.Geom.merge_order",
    "Hexed.Geom.make_returns",
    "Hexed.Geom.center_refuted"
   ],
   "note": "missing because false: query at the center of a Hypersphere, which returns the center (center_refuted). Exact real arithmetic; Occt geometries not modelled; make_returns needs simplices that are not single points"
  },
  {
   "property": "C29",
   "status": "partial",
   "theorems": [
    "Hexed.Geom.intersections_complete_partial",
    "Hexed.Geom.intersections_sound",
    "Hexed.Geom.sphere_inters",
    "Hexed.Geom.intersections_refuted"
   ],
   "note": "missing because false: geometries whose bounding cube is larger than 1, where the bounding ball of tree cells uses the edge length instead of its square and intersections are missed (intersections_refuted). Exact real arithmetic; the reciprocal condition number is any function that is below the tolerance for singular matrices"
  },
  {
   "property": "C30",
   "status": "proved",
   "theorems": [
    "Hexed.MeshConn.valid_exact",
    "Hexed.MeshConn.valid_iff"
   ],
   "note": "over all reachable meshes; records before the call are arbitrary; int overflow not modelled"
  },
  {
   "property": "C55",
   "status": "partial",
   "theorems": [
    "Hexed.MeshConn.no_ub",
    "Hexed.MeshConn.no_dangling",
    "Hexed.MeshConn.throws_same",
    "Hexed.MeshConn.connect_cartesian_exact",
    "Hexed.MeshConn.connect_deformed_exact",
    "Hexed.MeshConn.connect_boundary_exact",
    "Hexed.MeshConn.connect_hanging_exact",
    "Hexed.MeshConn.purge_exact",
    "Hexed.MeshConn.disconnect_exact",
    "Hexed.MeshConn.connect_rest_exact",
    "Hexed.MeshConn.face_pointers_exact_partial",
    "Hexed.MeshConn.face_pointers_refuted",
    "Hexed.MeshConn.redundant_pointer_refuted"
   ],
   "note": "missing because false: face pointers after a connect_hanging call that throws (face_pointers_refuted) and after removing one of several connections of the same face (redundant_pointer_refuted). Calls with dimensions out of range, more than 4 fine elements or too few entries are excluded (OpOk)"
  },
  {
   "property": "C56",
   "status": "proved",
   "theorems": [
    "Hexed.MeshConn.kernel_connections_exact"
   ],
   "note": "over all reachable meshes"
  },
  {
   "property": "C31",
   "status": "proved",
   "theorems": [
    "Hexed.Adapt.smooth_correct",
    "Hexed.Adapt.smooth_deterministic",
    "Hexed.Adapt.smooth_balanced"
   ],
   "note": "every order in which the parallel loops may treat the elements (whole iterations); which cells intersect the surface is an arbitrary function"
  },
  {
   "property": "C32",
   "status": "partial",
   "theorems": [
    "Hexed.Adapt.delete_correct_partial",
    "Hexed.Adapt.delete_ready",
    "Hexed.Adapt.delete_order_refuted"
   ],
   "note": "missing because false: independence of the order (delete_order_refuted). Whole iterations of the parallel loop in any order; the test against the surface is an arbitrary function of cell and direction"
  },
  {
   "property": "C58",
   "status": "partial",
   "theorems": [
    "Hexed.Adapt.unref_correct_partial",
    "Hexed.Adapt.unref_lock_refuted"
   ],
   "note": "missing because false: locked elements are merged if an unlocked sibling is treated first (unref_lock_refuted)"
  },
  {
   "property": "C59",
   "status": "partial",
   "theorems": [
    "Hexed.Adapt.mesh_fit_partial",
    "Hexed.Adapt.mesh_full",
    "Hexed.Adapt.update_safe",
    "Hexed.Adapt.update_ends",
    "Hexed.Adapt.set_surface_ends",
    "Hexed.Adapt.update_orphan_refuted"
   ],
   "note": "missing: that the flood fill of update always ends once a surface is set; false: update can leave behind elements without a cell (update_orphan_refuted)"
  },
  {
   "property": "C60",
   "status": "partial",
   "theorems": [
    "Hexed.Adapt.set_surface_clear",
    "Hexed.Adapt.set_surface_region",
    "Hexed.Adapt.update_surface_refuted",
    "Hexed.Adapt.set_surface_again_refuted"
   ],
   "note": "missing because false: a second surface is not meshed as if the first was forgotten (set_surface_again_refuted), and update can create elements through which the surface passes (update_surface_refuted)"
  },
  {
   "property": "C61",
   "status": "proved",
   "theorems": [
    "Hexed.Adapt.mesh_deformed",
    "Hexed.Adapt.deform_correct"
   ],
   "note": ""
  },
  {
   "property": "C57",
   "status": "partial",
   "theorems": [
    "Hexed.Adapt.wired_partial",
    "Hexed.Adapt.wired_face",
    "Hexed.Adapt.connect_update_safe",
    "Hexed.Adapt.connect_surface_safe",
    "Hexed.Adapt.wired_line_refuted"
   ],
   "note": "missing: histories in which update leaves elements without a cell (which it can, C59); false in 1D (wired_line_refuted)"
  },
  {
   "property": "C36",
   "status": "partial",
   "theorems": [
    "Hexed.Admis.fix_off",
    "Hexed.Admis.fix_false",
    "Hexed.Admis.fix_true_partial",
    "Hexed.Admis.fix_returns_iff",
    "Hexed.Admis.fix_failed",
    "Hexed.Admis.fix_admissible_partial",
    "Hexed.Admis.laplacian_erased",
    "Hexed.Admis.last_pass_refuted"
   ],
   "note": "missing because false: the state after the last allowed pass is never checked (last_pass_refuted); the Laplacian artificial viscosity is not left as it was but erased by a repair (laplacian_erased)"
  },
  {
   "property": "C62",
   "status": "partial",
   "theorems": [
    "Hexed.Krylov.gmres_storage",
    "Hexed.Krylov.gmres_storage_refuted",
    "Hexed.Krylov.update_implicit_overruns",
    "Hexed.Krylov.gmres_optimal",
    "Hexed.Krylov.gmres_finite_iff",
    "Hexed.Krylov.gmres_descends",
    "Hexed.Krylov.gmres_exact",
    "Hexed.Krylov.gmres_exact_guess_refuted",
    "Hexed.Krylov.gmres_too_many_refuted"
   ],
   "note": "missing because false: with the documented amount of storage a vector that does not exist is accessed (gmres_storage_refuted); an exact guess is destroyed (gmres_exact_guess_refuted)"
  },
  {
   "property": "C63",
   "status": "partial",
   "theorems": [
    "Hexed.Krylov.bicg_storage",
    "Hexed.Krylov.bicg_residual",
    "Hexed.Krylov.bicg_iteration",
    "Hexed.Krylov.bicg_overrun_refuted",
    "Hexed.Krylov.bicg_exact_guess_refuted",
    "Hexed.Krylov.bicg_too_many_refuted"
   ],
   "note": "missing because false: iterations after the equation is solved destroy the solution (bicg_overrun_refuted)"
  },
  {
   "property": "C64",
   "status": "partial",
   "theorems": [
    "Hexed.Atmos.atmosphere_exact",
    "Hexed.Atmos.atmosphere_close",
    "Hexed.Atmos.atmosphere_range",
    "Hexed.Atmos.atmosphere_geometric",
    "Hexed.Atmos.pressure_increases_refuted"
   ],
   "note": "missing because false: in intervals of 1e-10 m below the six altitudes where the lapse rate changes the pressure is too large by up to one part in 1e13, so it is not decreasing (pressure_increases_refuted). Exact real arithmetic"
  },
  {
   "property": "C65",
   "status": "proved",
   "theorems": [
    "Hexed.Metric.element_metric_exact",
    "Hexed.Metric.element_face_exact",
    "Hexed.Metric.connection_normal_exact",
    "Hexed.Metric.connection_normal_shared",
    "Hexed.Metric.freestream_deformed",
    "Hexed.Metric.warped_straight",
    "Hexed.Metric.inSpace_straight",
    "Hexed.Metric.warped_exact",
    "Hexed.Metric.inSpace_warped",
    "Hexed.Metric.meet_straight",
    "Hexed.Metric.regular_straight",
    "Hexed.Metric.freestream_straight",
    "Hexed.Metric.hanging_normal",
    "Hexed.Basis.deriv_exact_sharp"
   ],
   "note": "premises of the model (for straight elements reduced to the corners by meet_straight, and in 2D regular_straight): surfaces of connected faces coincide (InSpace.meet) and Jacobians are not singular (InSpace.regular); no claim beyond the stated degrees. Exact real arithmetic"
  },
  {
   "property": "C39",
   "status": "proved",
   "theorems": [
    "Hexed.Polymesh.polymesh_wellFormed",
    "Hexed.Polymesh.polymesh_interior",
    "Hexed.Polymesh.polymesh_boundary",
    "Hexed.Polymesh.polymesh_closed",
    "Hexed.Polymesh.cornerNormal_outward",
    "Hexed.Polymesh.polymesh_2d_refuted"
   ],
   "note": "three-dimensional meshes whose connected faces coincide (Fits; shown for straight-sided meshes in C23, C42, C43) and whose boundary connections have an existing boundary condition. Two-dimensional meshes are refuted: their export reads and writes outside vectors"
  },
  {
   "property": "C66",
   "status": "partial",
   "theorems": [
    "Hexed.MeshFile.roundtrip_faces",
    "Hexed.MeshFile.roundtrip_partial",
    "Hexed.MeshFile.roundtrip_extruded",
    "Hexed.MeshFile.glued_api",
    "Hexed.MeshFile.flipped_refuted",
    "Hexed.MeshFile.extruded_lost",
    "Hexed.MeshFile.stretch_refuted",
    "Hexed.MeshFile.write_then_cleanup"
   ],
   "note": "elements, connections and how often faces are connected are restored for every history of calls (roundtrip_faces); vertices are restored if they are shared because of connections (roundtrip_partial). The full property is false of the code: fine elements of flipped hanging-node connections come back in another order and vertices move (flipped_refuted), in 2D stretch[1] makes the file unreadable (stretch_refuted), connections between elements without cells are no longer known as extruded (extruded_lost), and writing a mesh with a tree makes the next cleanup delete all elements but one (write_then_cleanup). HDF5 itself is not modelled"
  },
  {
   "property": "C67",
   "status": "partial",
   "theorems": [
    "Hexed.TimeStep.interp_multilinear",
    "Hexed.TimeStep.max_dt_global",
    "Hexed.TimeStep.max_dt_local",
    "Hexed.TimeStep.chebyshev_stable",
    "Hexed.TimeStep.update_stable",
    "Hexed.TimeStep.update_time",
    "Hexed.TimeStep.max_time_step_partial",
    "Hexed.TimeStep.max_time_step_refuted",
    "Hexed.TimeStep.update_waves",
    "Hexed.TimeStep.euler_local",
    "Hexed.TimeStep.viscous_local"
   ],
   "note": "all proved except the bound by max_time_step, which holds without Chebyshev sub-iterations (max_time_step_partial) and is false of the code with them: the nominal time step is bounded and then multiplied by a factor that is larger than one in the last sub-iteration (max_time_step_refuted). The flow time counts only steps after which the state needed no correction (update_time)"
  },
  {
   "property": "C68",
   "status": "partial",
   "theorems": [
    "Hexed.Implicit.matvec_partial",
    "Hexed.Implicit.right_hand_side",
    "Hexed.Implicit.operator_is",
    "Hexed.Implicit.operator_refuted",
    "Hexed.Implicit.ref_state_is",
    "Hexed.Implicit.ref_state_refuted",
    "Hexed.Implicit.inner_positive",
    "Hexed.Implicit.update_implicit_adds"
   ],
   "note": "proved: state and vectors are preserved, the finite difference would be right if vector 1 held the residual (matvec_partial), the product is symmetric and positive, the solution is added. False of the code: the right-hand side is always zero because the constructor subtracts the residual from itself (right_hand_side), so the operator is no finite difference of anything (operator_refuted), and the reference momentum is made of the mass (ref_state_refuted)"
  },
  {
   "property": "C69",
   "status": "partial",
   "theorems": [
    "Hexed.StateFile.write_read_state",
    "Hexed.StateFile.read_outcome",
    "Hexed.StateFile.restart_partial",
    "Hexed.StateFile.restart_refuted"
   ],
   "note": "proved: the round trip of all numerical data, exactly when reading throws and what has been overwritten then, and that the continuation is the same (with and without viscosity, any memory contents) if the faces are recomputed from the state after reading (restart_partial). False of the code as it is: read_state leaves the faces as read_mesh left them, and the first step uses them (restart_refuted)"
  },
  {
   "property": "C70",
   "status": "proved",
   "theorems": [
    "Hexed.Synch.synch_ends",
    "Hexed.Synch.synch_correct",
    "Hexed.Synch.synch_maximum",
    "Hexed.Synch.synch_schedule"
   ],
   "note": "every interleaving of the atomic reads and writes; the comparison is any one made with an irreflexive and transitive order, so rounding and NaN are covered by the first two; the numerical bounds are for exact sums"
  },
  {
   "property": "C71",
   "status": "partial",
   "theorems": [
    "Hexed.Synch.inherit_partial",
    "Hexed.Synch.inherit_order_refuted"
   ],
   "note": "proved: refinement requests and locks, unanimous requests, elements without layers; false of the code: a mixture of unrefinement requests (inherit_order_refuted), where the last thread wins"
  },
  {
   "property": "C72",
   "status": "proved",
   "theorems": [
    "Hexed.Stats.integral_exact",
    "Hexed.Stats.integral_domain",
    "Hexed.Stats.integral_linear",
    "Hexed.Stats.integral_cartesian",
    "Hexed.Stats.integral_volume",
    "Hexed.Stats.integral_total",
    "Hexed.Stats.integral_conserved",
    "Hexed.Stats.surface_exact",
    "Hexed.Stats.average_between",
    "Hexed.Stats.average_exact",
    "Hexed.Stats.average_le_l2"
   ],
   "note": "exact real arithmetic; the quadrature rule is assumed exact up to a degree (shown for the bases in C05)"
  },
  {
   "property": "C73",
   "status": "proved",
   "theorems": [
    "Hexed.Stats.filter_limit_modes",
    "Hexed.Stats.filter_limit_keeps",
    "Hexed.Stats.filter_limit_one",
    "Hexed.Stats.filter_limit_zero",
    "Hexed.Stats.filter_limit_conserves",
    "Hexed.Stats.nonsmooth_modes",
    "Hexed.Stats.nonsmooth_zero_iff",
    "Hexed.Stats.nonsmooth_shift_scale",
    "Hexed.Stats.normalized_range"
   ],
   "note": "exact real arithmetic; the documentation of filter_limit omits that the limit is relative to the norm"
  },
  {
   "property": "C74",
   "status": "partial",
   "theorems": [
    "Hexed.Stats.skewness_greatest",
    "Hexed.Stats.skewness_range",
    "Hexed.Stats.skewness_collapsed_refuted",
    "Hexed.Stats.record_partial",
    "Hexed.Stats.record_refuted"
   ],
   "note": "proved: skewness for edges of nonzero length; false of the code: an element with collapsed edges is reported as perfect (skewness_collapsed_refuted) and Record returns 0 or 1 only (record_refuted)"
  },
  {
   "property": "C75",
   "status": "partial",
   "theorems": [
    "Hexed.Split.exposed_vertices_move_once",
    "Hexed.Split.extrude_cuts",
    "Hexed.Split.split_layers_cuts",
    "Hexed.Split.split_position",
    "Hexed.Split.split_determinant",
    "Hexed.Split.split_layers_valid",
    "Hexed.Split.split_layers_conserves",
    "Hexed.Split.extrude_layers_cuts",
    "Hexed.Split.split_points_increasing_refuted"
   ],
   "note": "proved for elements whose lateral faces are not warped; valid layers for strictly decreasing split points. False of the code: with strictly increasing points, as documented, layers are inverted (split_points_increasing_refuted)"
  },
  {
   "property": "C76",
   "status": "partial",
   "theorems": [
    "Hexed.Share.share_max",
    "Hexed.Share.share_min",
    "Hexed.Share.share_continuous",
    "Hexed.Share.share_continuous_hanging",
    "Hexed.Share.share_order",
    "Hexed.Share.share_bounds",
    "Hexed.Share.planar_consistent",
    "Hexed.Share.conforming_consistent",
    "Hexed.Share.share_edge_refuted",
    "Hexed.Share.share_min_limit_refuted",
    "Hexed.Share.share_max_limit_refuted"
   ],
   "note": "proved for all two-dimensional meshes of squares, conforming meshes and every mesh with the stated consistency of hanging vertices; bounds for every mesh. False of the code: around edges of refined regions in three dimensions (share_edge_refuted); at hanging vertices an element can get more than its own limit (share_min_limit_refuted)"
  },
  {
   "property": "C77",
   "status": "partial",
   "theorems": [
    "Hexed.Visc.stabilizing_ramp",
    "Hexed.Visc.stabilizing_range",
    "Hexed.Visc.stabilizing_invalid",
    "Hexed.Visc.stabilizing_smooth",
    "Hexed.Visc.stabilizing_unit",
    "Hexed.Visc.stabilizing_linear",
    "Hexed.Visc.admis_interpolates",
    "Hexed.Visc.admis_bounds",
    "Hexed.Visc.admis_sufficient",
    "Hexed.Visc.elwise_ramp",
    "Hexed.Visc.elwise_nan",
    "Hexed.Visc.elwise_bounds",
    "Hexed.Visc.smoothness_restores",
    "Hexed.Visc.smoothness_loses",
    "Hexed.Visc.smoothness_range",
    "Hexed.Visc.smoothness_negative_refuted",
    "Hexed.Share.share_max_limit_refuted"
   ],
   "note": "False of the code: at hanging vertices an element can get less than it asks for (share_max_limit_refuted); the smoothness-based viscosity is unbounded where the smoothed forcing is negative (smoothness_negative_refuted), and the momentum is lost where mass times energy is not positive (smoothness_loses). Continuity as in C76. The advection and smoothing kernels are not modelled"
  },
  {
   "property": "C78",
   "status": "partial",
   "theorems": [
    "Hexed.Vis.interp_unique",
    "Hexed.Vis.interior_interpolates",
    "Hexed.Vis.face_interpolates",
    "Hexed.Vis.edges_interpolates",
    "Hexed.Vis.sample_interpolates",
    "Hexed.Vis.interior_single",
    "Hexed.Vis.edges_1d_refuted",
    "Hexed.Vis.bounds_extreme",
    "Hexed.Vis.bounds_attained",
    "Hexed.Vis.bounds_linear",
    "Hexed.Vis.bounds_not_wide",
    "Hexed.Vis.visualize_field_shows",
    "Hexed.Vis.visualize_wire_shows",
    "Hexed.Vis.visualize_surface_shows",
    "Hexed.Vis.visualize_surface_wire_shows"
   ],
   "note": "False of the code in one dimension: edges and face never return (edges_1d_refuted). Proved in two and three dimensions; the XDMF library and Tecplot output are not modelled"
  },
  {
   "property": "C79",
   "status": "partial",
   "theorems": [
    "Hexed.Force.normal_inward",
    "Hexed.Force.viscous_traction",
    "Hexed.Force.stress_exact",
    "Hexed.Force.force_is_momentum_flux",
    "Hexed.Force.heating_is_energy_flux",
    "Hexed.Force.momentum_budget",
    "Hexed.Force.nonpenetration_met",
    "Hexed.Force.no_slip_met",
    "Hexed.Force.no_slip_flux_met",
    "Hexed.Force.nonpenetration_flux_met",
    "Hexed.Force.compute_force_exact",
    "Hexed.Force.vertical_freestream_refuted",
    "Hexed.Force.heat_flux_opposite",
    "Hexed.Force.heat_flux_sign_refuted",
    "Hexed.Force.slip_friction_refuted",
    "Hexed.Force.artificial_stress_not_reported",
    "Hexed.Force.viscous_flag",
    "Hexed.Force.degenerate_faces",
    "Hexed.Force.degenerate_force"
   ],
   "note": "False of the code in some cases: Heat_flux is documented as into the surface but has the opposite sign, slip walls report friction that they do not exert, artificial viscous stress is not reported when both transport models are empty, faces of small relative area report no viscous stress, a degenerate face makes the force not a number, and so does a vertical freestream in 3D for lift and side force. Proved for all other cases"
  },
  {
   "property": "C80",
   "status": "partial",
   "theorems": [
    "Hexed.Free.freestream_exact",
    "Hexed.Free.accepted_iff",
    "Hexed.Free.angles_exact",
    "Hexed.Free.mach_exact",
    "Hexed.Free.forces_given",
    "Hexed.Free.velocity_force_refuted",
    "Hexed.Free.no_speed_no_force",
    "Hexed.Free.state_vector_only",
    "Hexed.Free.altitude_overrides",
    "Hexed.Free.components_refuted",
    "Hexed.Free.zero_direction"
   ],
   "note": "False of the code in some cases: with velocity given, speed, Mach number and speed of sound are not set; altitude overrides a given density or pressure; a vector without its first component is ignored; with a zero direction vector the gas is at rest. Proved otherwise"
  },
  {
   "property": "C81",
   "status": "partial",
   "theorems": [
    "Hexed.Flow.flow_exact",
    "Hexed.Flow.mach_exact",
    "Hexed.Flow.stag_exact",
    "Hexed.Flow.rest_exists",
    "Hexed.Flow.stag_ge",
    "Hexed.Flow.diff_sq_exact",
    "Hexed.Flow.error_zero_iff",
    "Hexed.Flow.qpoint_state",
    "Hexed.Flow.residual_exact",
    "Hexed.Flow.concat_exact",
    "Hexed.Flow.concat_name_bound",
    "Hexed.Flow.component_exact",
    "Hexed.Flow.scaled_exact",
    "Hexed.Flow.pow_exact",
    "Hexed.Flow.hil_exact",
    "Hexed.Flow.class_hil_agree",
    "Hexed.Flow.pressure_coef_exact",
    "Hexed.Flow.skin_friction_exact",
    "Hexed.Flow.residual_refuted"
   ],
   "note": "False of residual_expr of Case.hil: it reads prev_momentum0 and others, which nothing defines. Proved otherwise"
  },
  {
   "property": "C82",
   "status": "partial",
   "theorems": [
    "Hexed.Exact.vortex_exact",
    "Hexed.Exact.vortex_moving",
    "Hexed.Exact.vortex_moving_refuted",
    "Hexed.Exact.vortex_shape",
    "Hexed.Exact.doublet_flow",
    "Hexed.Exact.doublet_exact",
    "Hexed.Exact.doublet_axial_refuted",
    "Hexed.Exact.sod_exact",
    "Hexed.Exact.gaussian_exact",
    "Hexed.Exact.annular_exact",
    "Hexed.Exact.linear_exact",
    "Hexed.Exact.random_range",
    "Hexed.Exact.random_mean_refuted",
    "Hexed.Exact.random_onto"
   ],
   "note": "False of the vortex in a moving freestream (its velocity is centered at the origin, its density moves on), of Doublet with an axial velocity (entropy) and of Random_func (never below the mean). Proved otherwise"
  },
  {
   "property": "C83",
   "status": "partial",
   "theorems": [
    "Hexed.Structured.make_exact",
    "Hexed.Structured.make_throws",
    "Hexed.Structured.make_ub",
    "Hexed.Structured.parse_exact",
    "Hexed.Structured.eval_exact",
    "Hexed.Structured.eval_final",
    "Hexed.Structured.eval_text",
    "Hexed.Structured.point_exact",
    "Hexed.Structured.point_format",
    "Hexed.Structured.spacetime_exact",
    "Hexed.Structured.header_exact",
    "Hexed.Structured.header_empty_refuted",
    "Hexed.Structured.report_exact",
    "Hexed.Structured.aligned",
    "Hexed.Structured.report_text_refuted",
    "Hexed.Structured.report_heisenberg_refuted"
   ],
   "note": "Right sides with macros (dollar signs) and variables computed on demand are not covered by eval_exact. An assignment with nothing on one side, an empty print_vars and a text in print_vars are undefined behaviour; a variable computed on demand cannot be reported under its own name"
  },
  {
   "property": "C84",
   "status": "partial",
   "theorems": [
    "Hexed.Setup.thermal_exact",
    "Hexed.Setup.energy_temperature",
    "Hexed.Setup.heat_flux_exact",
    "Hexed.Setup.temperature_exact",
    "Hexed.Setup.equilibrium_exact",
    "Hexed.Setup.coercion_exact",
    "Hexed.Setup.adiabatic",
    "Hexed.Setup.thermal_doc_refuted",
    "Hexed.Setup.bc_exact",
    "Hexed.Setup.pressure_outflow_refuted",
    "Hexed.Setup.extremal_exact",
    "Hexed.Setup.inviscid_exact",
    "Hexed.Setup.sutherland_exact",
    "Hexed.Setup.transport_outer_refuted",
    "Hexed.Setup.transport_bad_refuted",
    "Hexed.Setup.transport_doc_refuted",
    "Hexed.Setup.surface_exact",
    "Hexed.Setup.root_exact",
    "Hexed.Setup.root_missing",
    "Hexed.Setup.extent_refuted",
    "Hexed.Setup.flood_default",
    "Hexed.Setup.flood_given",
    "Hexed.Setup.flood_refuted",
    "Hexed.Setup.element_exact",
    "Hexed.Setup.element_doc_refuted"
   ],
   "note": "The documentation disagrees with the program: names in thermal_bc, transport_model, the extent of meshes that are not cubes, starts of the flood fill outside the domain, is_def. pressure_outflow needs freestream_pressure even if the freestream is given; parameters missing in a transport model are taken from elsewhere, a wrong one is undefined behaviour"
  },
  {
   "property": "C85",
   "status": "partial",
   "theorems": [
    "Hexed.Relax.smooth_exact",
    "Hexed.Relax.relaxed_exact",
    "Hexed.Relax.relaxed_order",
    "Hexed.Relax.relaxed_bounds",
    "Hexed.Relax.relaxed_rest",
    "Hexed.Relax.relaxed_affine",
    "Hexed.Relax.factor_zero",
    "Hexed.Relax.boundary_exact",
    "Hexed.Relax.all_smooth_exact",
    "Hexed.Relax.min_size_refuted",
    "Hexed.Relax.snapped_exact",
    "Hexed.Relax.snapped_surface",
    "Hexed.Relax.snapped_bare",
    "Hexed.Relax.snapped_order",
    "Hexed.Relax.both_refuted",
    "Hexed.Relax.factor_doc_refuted",
    "Hexed.Relax.matched_exact",
    "Hexed.Relax.watertight",
    "Hexed.Relax.watertight_order",
    "Hexed.Relax.hanging_bounds",
    "Hexed.Relax.relax_order",
    "Hexed.Relax.relax_frame",
    "Hexed.Relax.cart_exact",
    "Hexed.Relax.reset_exact",
    "Hexed.Relax.reset_locked",
    "Hexed.Relax.restore_exact",
    "Hexed.Relax.reset_refuted",
    "Hexed.Relax.snapped_lost",
    "Hexed.Relax.all_smooth_boundary",
    "Hexed.Relax.update_lists",
    "Hexed.Relax.update_cart",
    "Hexed.Relax.nominal_exact"
   ],
   "note": "A vertex both at the surface and at an extreme face can end up off the surface; the distance hint is void; relax(0) can move vertices; Reset_vertices is undefined behaviour in two dimensions. Iterations of the loop over hanging faces are atomic in the model; that matchers of a real mesh fit together (Fit) is a hypothesis."
  },
  {
   "property": "C86",
   "status": "partial",
   "theorems": [
    "Hexed.FaceSnap.not_needed",
    "Hexed.FaceSnap.snap_frame",
    "Hexed.FaceSnap.snapped_exact",
    "Hexed.FaceSnap.snapped_on_surface",
    "Hexed.FaceSnap.problem_exact",
    "Hexed.FaceSnap.projected_exact",
    "Hexed.FaceSnap.straight_exact",
    "Hexed.FaceSnap.snap_total",
    "Hexed.FaceSnap.row2_refuted",
    "Hexed.FaceSnap.both_warped_refuted"
   ],
   "note": "For elements none of whose other faces is warped and at least three nodes per row. With two nodes per row, or if the opposite face has been snapped before, the face is not on the surface although no problem is reported (row2_refuted, both_warped_refuted). Exact arithmetic."
  },
  {
   "property": "C87",
   "status": "partial",
   "theorems": [
    "Hexed.SnapMesh.state_restored",
    "Hexed.SnapMesh.other_faces",
    "Hexed.SnapMesh.same_displacement",
    "Hexed.SnapMesh.watertight",
    "Hexed.SnapMesh.not_matched",
    "Hexed.SnapMesh.gap_refuted",
    "Hexed.SnapMesh.hanging_refuted"
   ],
   "note": "Preservation of the state and of other faces for all meshes in one to three dimensions. No gaps in two dimensions between elements joined by a connection without hanging vertices, at least three nodes per row. In three dimensions the claim is false: with two or three nodes per row there can be gaps (not_matched, gap_refuted), and at hanging vertices the second sweep multiplies common displacements by 3/2 (hanging_refuted, for the step). Exact arithmetic."
  },
  {
   "property": "C88",
   "status": "proved",
   "theorems": [
    "Hexed.ArtVisc.flow_kept",
    "Hexed.ArtVisc.faces_refreshed",
    "Hexed.ArtVisc.new_value",
    "Hexed.ArtVisc.new_range",
    "Hexed.ArtVisc.residual_value",
    "Hexed.ArtVisc.undefined_flow",
    "Hexed.ArtVisc.defined",
    "Hexed.ArtVisc.indicator_value",
    "Hexed.ArtVisc.smooth_ignored",
    "Hexed.ArtVisc.forcing_fixed",
    "Hexed.ArtVisc.uniform_none",
    "Hexed.ArtVisc.uniform_forever",
    "Hexed.ArtVisc.uniform_deformed"
   ],
   "note": "On the whole-mesh kernels, in exact arithmetic. The local time steps of advection and smoothing are arbitrary nonnegative functions. Where density times energy is not positive there is no result (undefined_flow). That the indicator stays nonnegative under smoothing is not claimed (and polynomials may undershoot); new_range assumes it pointwise."
  },
  {
   "property": "C89",
   "status": "partial",
   "theorems": [
    "Hexed.SurfRep.flow_kept",
    "Hexed.SurfRep.off_surface",
    "Hexed.SurfRep.value",
    "Hexed.SurfRep.value_two",
    "Hexed.SurfRep.at_most_two",
    "Hexed.SurfRep.flat_zero",
    "Hexed.SurfRep.cartesian_neighbour_counted",
    "Hexed.SurfRep.cartesian_element_momentum",
    "Hexed.SurfRep.hanging_not_restored",
    "Hexed.SurfRep.faces_restored_refuted"
   ],
   "note": "In exact arithmetic on the whole-mesh model. The value is stated where lateral connections join deformed elements that both lie on the boundary, conforming, or are boundaries themselves. The last sentence of the property is false of the code: a Cartesian neighbour contributes 1 (cartesian_neighbour_counted), a Cartesian element at the boundary is given the length of its momentum (cartesian_element_momentum), and mortar faces keep zero momentum afterwards (hanging_not_restored)."
  },
  {
   "property": "C90",
   "status": "proved",
   "theorems": [
    "Hexed.Repair.steps",
    "Hexed.Repair.pass_steps",
    "Hexed.Repair.untouched_iff",
    "Hexed.Repair.repaired",
    "Hexed.Repair.pass_keeps",
    "Hexed.Repair.fix_keeps",
    "Hexed.Repair.fix_conserves",
    "Hexed.Repair.fix_exchange",
    "Hexed.Repair.hopeless",
    "Hexed.Repair.fix_uniform",
    "Hexed.Repair.uniform_hopeless",
    "Hexed.Repair.fix_frame_state",
    "Hexed.Repair.fix_fresh",
    "Hexed.Repair.fix_tss",
    "Hexed.Repair.marks_unused"
   ],
   "note": "In exact arithmetic, on the whole-mesh model of the diffusion kernels, with the loop of C36. Non-finite data (which abort) are in C36. The time step scale written afterwards for the flow is a parameter."
  },
  {
   "property": "C91",
   "status": "proved",
   "theorems": [
    "Hexed.Extrude.faces_once",
    "Hexed.Extrude.request_place",
    "Hexed.Extrude.vertex_pairs",
    "Hexed.Extrude.eaten_keeps",
    "Hexed.Extrude.served_once",
    "Hexed.Extrude.plan_fits",
    "Hexed.Extrude.paired_connected",
    "Hexed.Extrude.grid_connected",
    "Hexed.Extrude.plan_names",
    "Hexed.Extrude.stretched",
    "Hexed.Extrude.hanging_throws",
    "Hexed.Extrude.second_unchecked"
   ],
   "note": "The planning of connections; making them is in C23, C42 and C55. How vertices are merged between the loops is a parameter that hands over the requests, as eating does. That all layers with hanging nodes are connected is not claimed (the extrusion throws if not)."
  },
  {
   "property": "C92",
   "status": "proved",
   "theorems": [
    "Hexed.PhysBasis.indices_complete",
    "Hexed.PhysBasis.argument_range",
    "Hexed.PhysBasis.evaluate_number",
    "Hexed.PhysBasis.span_iff",
    "Hexed.PhysBasis.projection_poly",
    "Hexed.PhysBasis.projection_orthogonal",
    "Hexed.PhysBasis.projection_best",
    "Hexed.PhysBasis.projection_integral",
    "Hexed.PhysBasis.projection_exact",
    "Hexed.PhysBasis.projection_twice",
    "Hexed.PhysBasis.construct_iff"
   ],
   "note": "In exact arithmetic. The solver (Eigen's QR decomposition) is any that satisfies the normal equations; exists_solver shows there is one. std::legendre is given by its recurrence."
  },
  {
   "property": "C93",
   "status": "partial",
   "theorems": [
    "Hexed.Output.suffix_injective",
    "Hexed.Output.suffix_width",
    "Hexed.Output.workingDir_slash",
    "Hexed.Output.write_latest",
    "Hexed.Output.vis_frame",
    "Hexed.Output.vis_current",
    "Hexed.Output.history_current",
    "Hexed.Output.restart_reads_last",
    "Hexed.Output.both_latest",
    "Hexed.Output.switched_off",
    "Hexed.Output.crash_partial",
    "Hexed.Output.crash_refuted",
    "Hexed.Output.rewrite_refuted",
    "Hexed.Output.dangling_refuted",
    "Hexed.Output.pair_refuted",
    "Hexed.Output.skew_refuted",
    "Hexed.Output.lts_refuted",
    "Hexed.Output.vis_line"
   ],
   "note": "Histories are proved. Crash safety is refuted: between removing the link and making it there is none (crash_refuted), and writing the same iteration again makes it unreadable for a while (rewrite_refuted); crash_partial tells exactly what is left. A file is written in two steps, an unreadable one and the complete one."
  },
  {
   "property": "C94",
   "status": "partial",
   "theorems": [
    "Hexed.Contour.mem_edges",
    "Hexed.Contour.mesh",
    "Hexed.Contour.coord_range",
    "Hexed.Contour.near",
    "Hexed.Contour.passes_between",
    "Hexed.Contour.empty_iff",
    "Hexed.Contour.closed_lines",
    "Hexed.Contour.closed_surface",
    "Hexed.Contour.resolved_zero",
    "Hexed.Contour.oriented_lines",
    "Hexed.Contour.oriented_surface",
    "Hexed.Contour.move_bound",
    "Hexed.Contour.move_linear",
    "Hexed.Contour.tolerance_refuted",
    "Hexed.Contour.small_refuted",
    "Hexed.Contour.degenerate_refuted",
    "Hexed.Contour.direction_refuted"
   ],
   "note": "Proved for all numbers of samples; contours are closed if neighbours on different sides of the value differ by more than the tolerance, which always holds for tolerance 0. With the default tolerance there are ends inside the element (tolerance_refuted) and none at all for functions that vary little (small_refuted). At the boundary of an element there are degenerate elements (degenerate_refuted), and the limit of the movement is multiplied by the number of votes for a direction (direction_refuted, move_bound). The projection onto the contour beyond one step is not modelled."
  },
  {
   "property": "C95",
   "status": "partial",
   "theorems": [
    "Hexed.Timing.call_times",
    "Hexed.Timing.history_idle",
    "Hexed.Timing.separate",
    "Hexed.Timing.parts_le",
    "Hexed.Timing.total_partial",
    "Hexed.Timing.watch_time",
    "Hexed.Timing.adds_any_order",
    "Hexed.Timing.plus_iff",
    "Hexed.Timing.report_lines",
    "Hexed.Timing.reset_refuted",
    "Hexed.Timing.failure_refuted",
    "Hexed.Timing.parts_refuted",
    "Hexed.Timing.total_refuted",
    "Hexed.Timing.untimed_refuted",
    "Hexed.Timing.uncounted_refuted"
   ],
   "note": "Proved for all histories without failed repairs: no exceptions, times, calls and work units are right, and parts are within their tasks except for the whole. Refuted: the parts of the whole exceed it (parts_refuted), times of calls outside of updates are not in the total (total_refuted, total_partial), a failed repair leaves the stopwatch running and the solver unusable (failure_refuted), resetting a running stopwatch (reset_refuted), one task is never timed (untimed_refuted) and some are never counted (uncounted_refuted)."
  },
  {
   "property": "C96",
   "status": "proved",
   "theorems": [
    "Hexed.Residual.ready",
    "Hexed.Residual.residual_keeps",
    "Hexed.Residual.vis_keeps",
    "Hexed.Residual.vis_shows",
    "Hexed.Residual.vis_failure_refuted",
    "Hexed.Residual.observation",
    "Hexed.Residual.residual_is_rate",
    "Hexed.Residual.residuals_norm",
    "Hexed.Residual.converged"
   ],
   "note": "A visualization that throws is outside of the statement: it leaves the flow variables exchanged with the limits of the time step (vis_failure_refuted)."
  },
  {
   "property": "C97",
   "status": "partial",
   "theorems": [
    "Hexed.CaseMesh.geometry",
    "Hexed.CaseMesh.geometry_read",
    "Hexed.CaseMesh.geometry_gap",
    "Hexed.CaseMesh.columns_refuted",
    "Hexed.CaseMesh.line_refuted",
    "Hexed.CaseMesh.mesh_stages",
    "Hexed.CaseMesh.mesh_current",
    "Hexed.CaseMesh.mesh_lawful",
    "Hexed.CaseMesh.mesh_counts"
   ],
   "note": "Refuted: a table with more than two columns is documented to be allowed but violates a precondition of the matrix library (columns_refuted), and in one dimension CAD files are left out without an error (line_refuted)."
  },
  {
   "property": "C98",
   "status": "partial",
   "theorems": [
    "Hexed.Prescribed.function_value",
    "Hexed.Prescribed.function_defined",
    "Hexed.Prescribed.function_partial",
    "Hexed.Prescribed.every_connection",
    "Hexed.Prescribed.copy_mirrors",
    "Hexed.Prescribed.flux_mirrors",
    "Hexed.Prescribed.cache_value",
    "Hexed.Prescribed.cache_partial",
    "Hexed.Prescribed.normal_refuted",
    "Hexed.Prescribed.time_refuted",
    "Hexed.Prescribed.restart_refuted"
   ],
   "note": "Refuted: the function is given the stored normal, which at upper faces points out of the domain and is not a unit vector (normal_refuted), and always time 0 (time_refuted); after a restart the cached values are zero (restart_refuted). Proved for functions that use neither time nor normal, and for cached functions of position with every history after an initialization."
  },
  {
   "property": "C99",
   "status": "partial",
   "theorems": [
    "Hexed.Hil.function_value",
    "Hexed.Hil.function_wrong_type_partial",
    "Hexed.Hil.function_wrong_type_refuted",
    "Hexed.Hil.function_program"
   ],
   "note": "Refuted: abs of a string raises a C++ exception that is not one of the language (function_wrong_type_refuted, see also C13). Proved: everything else. The functions of floating point numbers are uninterpreted."
  },
  {
   "property": "C100",
   "status": "partial",
   "theorems": [
    "Hexed.Tecplot.blocks",
    "Hexed.Tecplot.columns_partial",
    "Hexed.Tecplot.columns_refuted",
    "Hexed.Tecplot.triangles_shown",
    "Hexed.Tecplot.geometry_shown",
    "Hexed.Tecplot.lines_partial",
    "Hexed.Tecplot.lines_refuted",
    "Hexed.Tecplot.roles_partial",
    "Hexed.Tecplot.roles_refuted"
   ],
   "note": "Refuted: segments of more than two nodes declare fewer cells than the node map has (lines_refuted); a name with a space becomes two variables (columns_refuted); the auxiliary data name the density and the energy even if there are no such variables (roles_refuted). Proved: everything else; segments have the right nodes and links in general and are complete exactly for two nodes (lines_partial)."
  },
  {
   "property": "C101",
   "status": "proved",
   "theorems": [
    "Hexed.Lookup.kernel_exact",
    "Hexed.Lookup.kernel_invalid",
    "Hexed.Lookup.case_supported",
    "Hexed.Lookup.case_undefined"
   ],
   "note": ""
  },
  {
   "property": "C102",
   "status": "partial",
   "theorems": [
    "Hexed.Status.header_csv",
    "Hexed.Status.report_csv",
    "Hexed.Status.default_table",
    "Hexed.Status.int_shown",
    "Hexed.Status.num_shown",
    "Hexed.Status.aligned_partial",
    "Hexed.Status.aligned_refuted"
   ],
   "note": "columns are not aligned if a value is negative and has an exponent of three digits, because the default width is 15 and such a number has 16 characters (aligned_refuted)"
  },
  {
   "property": "C103",
   "status": "proved",
   "theorems": [
    "Hexed.Cell.corners",
    "Hexed.Cell.edges",
    "Hexed.Cell.neighbors_share",
    "Hexed.Cell.refined_share",
    "Hexed.Cell.center_exact",
    "Hexed.Cell.center_between",
    "Hexed.Cell.criteria_exact"
   ],
   "note": "exact arithmetic"
  },
  {
   "property": "C104",
   "status": "proved",
   "theorems": [
    "Hexed.Settings.constructed",
    "Hexed.Settings.rejected",
    "Hexed.Settings.default_values"
   ],
   "note": "in terms of the model of Namespace (C09, C10)"
  }
 ]
}