# Design

Subject: ARTLab-GT/hexed (C++), source in /repo. Everything below is about a Lean 4 model of that source; the code itself is not run.

## Conventions

* Each topic `X` has `lean/Verif/X/Model.lean` (definitions, each citing file and lines), `Lemmas.lean` (helpers) and `Props.lean` (property theorems, spec definitions, non-vacuity examples).
* Pointers are modelled by identifiers (paths, indices). Loops become structural or well-founded recursion. `double` is modelled by an exact ordered field (rationals or reals): rounding, NaN and infinity are not modelled unless said. `int` is modelled by unbounded integers unless the property is about overflow.
* C++ undefined behaviour and thrown exceptions are distinct outcomes (constructors of a result type, or `none`), never silently totalised.

## Plan per property

| id | modelled | proof |
|----|----------|-------|
| C01 | Tree as a rose tree of nodes (level, integer coordinates, status, children); pointers are paths from the root; find_leaf as written (integer arithmetic). | Structural induction under a well-formedness invariant proved for every op history; specification is membership of a rational point in a half-open box. |
| C02 | find_leaf(Mat<>) over an ordered field (Q). | Same induction with closed boxes; rounding not modelled. |
| C03 | find_neighbor via root()->find_leaf. | Corollary of C01: the spec names the corner point and the side. |
| C04 | find_neighbors, add_extremal_leves. | Descent lemma on extremal leaves; dyadic-interval nesting lemma; specification is purely geometric on boxes. |
| C05 | flood_fill's queue loop over (statuses in the tree). | Well-founded recursion on (unprocessed, queue length); loop invariant; specification is the reflexive-transitive closure of the geometric adjacency. |
| C06 | the non-leaf branch of flood_fill. | Refuted by a concrete tree; partial theorem for the cases in which the doc holds. |
| C07 | refine, unrefine, count. | Induction over op lists. |
| C08 | write_tree / read_tree rows. | Structural induction on the preorder layout with an offset. |
| C09 | Namespace as three maps. | Invariant by induction over op lists and refinement to a single typed map. |
| C10 | Namespaces with super-namespace list. | Induction; the non-recursive exists_recursive gives a refutation for two-level inheritance, partial theorem for one level. |
| C11 | The interpreter's _eval on a character list, with fuel. | Printer for expression trees; induction on the tree with a continuation invariant for the precedence climbing loop. |
| C12 | The `{` branch of _eval. | Induction on the string. |
| C13 | Operator implementations on values; UB (int division by zero, overflow) as a distinct outcome. | Case analysis for all values. |
| C14 | exec's loop on statement lists. | Induction on statements. |
| C15 | Heap of Mutual_ptr objects id -> partner. | Invariant over op lists. |
| C16 | Vertex store with masses, positions, neighbour sets. | Invariant over op lists; position algebra over Q. |
| C17 | Complete_element_container. | Refinement to the list of live (level, serial). |
| C18 | Concatenation::size/operator[]. | Induction on nesting. |
| C19 | Row_index ++ and qpoint arithmetic. | Mixed-radix bijection for all sizes. |
| C20 | hypercube_matvec, dimension_matvec, pow_outer. | Induction on n_dim. |
| C21 | math::pow, math::log. | Induction. |
| C22 | math::bisection over Q. | Loop invariant. |
| C23 | connection.cpp vertex_inds, Face_permutation. | Finite table of directions x arbitrary row size/data. |
| C24 | Neighbor, Neighbor_reconcile flux bookkeeping. | Algebra for all data. |
| C25 | Storage/Element offsets. | Linear arithmetic. |
| C26 | History_monitor::add_sample with its circular buffer and threshold. | The buffer is kept equal to the last samples of the recorded ones in the window (invariant over sample sequences); separation of recorded samples by powers of the ratio. Refuted: window size 0 returns; no sample missing. |
| C27 | Layer_sequence and Mesh::extrude(Layer_sequence) over the reals. | Geometric sum, induction on the layers. Refuted: the sequence sums to 1; wall layer always positive. |
| C28 | Nearest_point::merge, compound search, tree search. | Induction over candidate lists; triangle inequality. |
| C29 | Simplex_geom recursion and ball test. | Soundness for cell size <= 1; refutation above. |
| C30 | Face connection records and valid(). | Counting. |
| C31 | needs_refine, refine_by_record and the smoothing loop of update() over elements given by record and tree cell; any loop order. | Order independence of a sweep, weight 2^nd-ary measure for termination, minimality by induction over passes. |
| C32 | delete_bad_extrusions in full (faces, edges, diagonals, test against the surface as a parameter) under any order. | Number of existing elements decreases; at the fixed point the four conditions of Ready hold; refutation of order independence. |
| C33 | Characteristics. | Field algebra (ring). |
| C34 | char_speed. | Inequality over R. |
| C35 | Nonpenetration, No_slip, reflect_normal. | Algebra over R. |
| C36 | fix_admissibility loop with arbitrary pass/admissible functions. | Loop invariant; refutation of the strong post-condition. |
| C37 | Basis::interpolate, Equidistant::diff_mat. | Lagrange interpolation uniqueness. |
| C38 | Case::update's iteration arithmetic, the iterate macro's print/write/visualize/ramp conditions, monitor samples. | Least multiple; invariant of the run. Refuted: every multiple of write_freq is written; ramping happens. |
| C39 | `export_polymesh` on the connectivity model of C30 and C55: numbering, faces with their vertices, owners, neighbours, patches. | Orientation over all directions; area vectors of hexahedra and of parts of bilinear faces by algebra; sums over connections = sums over faces of elements (degrees of C30). |
| C40 | read_csv with the stream state of std::getline. | Round trip and soundness for all files by induction; refutations for malformed files (no final newline: endless loop). |
| C41 | The `$` branch of _eval. | Evaluation of the operand (C11) followed by unfolding. |
| C42 | The loops of the constructor of Refined_connection. | Finite table of directions/orders/stretchings against positions in space. |
| C43 | Hanging_vertex_matcher::match. | C20 for the interpolation, finite table for the indexing, induction on the write loops. |
| C44 | prolong/restrict of script/Basis.py and the generated tables. | Polynomial identities: both sides are polynomials of bounded degree integrated exactly. |
| C45 | Derivative::operator(). | Summation by parts from exactness of the quadrature. |
| C46 | legendre, get_ortho, filter of script/Basis.py. | Rodrigues' formula and repeated integration by parts; completeness by inverting a square matrix; Parseval. |
| C47 | Spatial kernels (Write_face, Neighbor, Restrict, Local, Prolong), compute_* drivers over a mesh record. | Quadrature exactness turns the sum over points into face terms; every face occurs once; fold lemmas give closed forms of the loops. |
| C48 | Reconcile, Neighbor_reconcile, the viscous driver. | As C47, with the two-pass face average. |
| C49 | The same loops over permuted lists. | Closed forms of the folds; disjointness of written storage. |
| C50 | Navier_stokes::compute_flux_diff, Transport_model. | Derivative calculus (HasDerivAt) for the gradients; algebra. |
| C51 | Solver::update with apply_state_bcs/apply_flux_bcs over a mesh whose ghost faces are walls. | C47/C48 balance of a whole step; pointwise wall fluxes (C35) summed over faces; induction on the time steps. |
| C52 | Riemann_invariants, Pressure_outflow. | C33 applied to the jump; inequalities for the limiter. |
| C53 | All kernels of Spatial.hpp on meshes of cubes placed in space (`Spatial/ExactSpec.lean`), Solver::update, far field conditions. | Exactness of the basis matrices lifted along rows (C43, C44), flux continuity on conformal and hanging faces, then induction over steps. |
| C54 | Neighbor's numerical flux with the flow and advection fluxes. | Lax-Friedrichs splitting: each half is a physical state, physical states form a convex cone; Cauchy-Schwarz for advection. |
| C55 | Containers of Mesh_by_type, constructors and destructors of connections (faces joined, face pointers), connect_*, disconnect_boundary, purge, connect_rest. | Invariant over all histories (Reach); the list of joined faces is tracked as a multiset; refuted for face pointers after exceptions or with redundant connections. |
| C56 | Connection_view, Concatenation, Car/Def kernel_connections. | Index arithmetic against the concatenated list. |
| C58 | Unrefinement loop of update with requests and locks. | Representation of the state by the sets of merged and dropped cells, kept by each iteration; number of requests decreases; refutation of the promise about locks. |
| C59 | State of tree and elements (`Adapt/Model*.lean`), all histories of `update` and `set_surface` as the inductive relation `Mesh`. | Invariant `Fit` kept by every call; explicit bounds on the passes of all loops but the flood fill with a surface; concrete history refuting the claim about cells. |
| C60 | `set_surface` with `Tree::flood_fill`. | Characterisation of the flood fill (C06) for the marked tree, invariants of histories; refutations by concrete histories. |
| C61 | `deform` with its parallel loops in arbitrary order. | The set of deformed cells only grows and stays within the least fixed point `Bent`, and is closed when the loop ends. |
| C57 | `connect_new`, what `purge` leaves of earlier connections, `add_tree`'s boundary connections and the connection of extruded elements, on the histories of C59. | The faces a right connection joins are determined by the mesh (`Mate`), so a right connection for an unconnected face never overlaps another; every face is treated; the first finer element of a face makes the connection. |
| C62 | `gmres` over storage whose vectors may be non-finite, with the least squares routine as a parameter. | Arnoldi relation as a loop invariant; the least squares problem is the norm of the residual in an orthonormal basis; refutations by counting accesses and by division by zero. |
| C63 | `bicgstab` over the same storage. | Biorthogonality to the powers of the operator as invariant; refutations by division by zero. |
| C64 | `standard_atmosphere`, `standard_atmosphere_geopot` over the reals. | The loop's factors are exponentials of the integral of the reciprocal temperature; induction over the rows of the table; fundamental theorem of calculus for the geometric altitude. |
| C65 | `calc_jacobian` with the kernels, face storage and hanging-face connections of C53. | Normals are minors of Jacobians of polynomials; equality on both sides of a connection by the chain rule with the frame of its direction; Piola identity and summation by parts for the divergence; invariant over stages. |
| C66 | `write` and `read_file` row by row, with the constructors of connections of C55/C11 and merging of vertices. | Loop invariants over the rows: after each row the connections read correspond to those written; merging pairs of corners yields the generated equivalence; counterexamples by evaluation. |
| C67 | `interp`, `chebyshev_step`, `Max_dt`, `max_dt` and the loops of `Solver::update`, with the flow update an arbitrary function. | Induction over dimensions, points and elements; roots and derivative of Chebyshev polynomials from Mathlib; invariant on a ghost trace of the steps. |
| C68 | `Solver::Linearized` over a store of vectors, with the explicit update an arbitrary function; `update_implicit` around the solver. | Closed form of `matvec` by evaluating the updates of the store; refutations from it. |
| C69 | `write_state` and `read_state` as loops over elements with the hyperslab checks of HDF5; the solver data and face storage of `Spatial`/`Solver`; `initialize`. | Induction over the loops; a relation (same states, caches and convective faces) preserved by every kernel; LDG faces are written before they are read; refutation by computing one step of a one-element mesh. |
| C70 | The `while` loop with a parallel pass as an arbitrary interleaving of the atomic reads and writes of the iterations (`Synch/Model.lean`). | Invariant of a pass: values only rise over the start of the pass and come from layers on top; each pass that changes something lowers a rank. |
| C71 | The loop of `update` over `extrude_cons` with whole iterations in any order (they lock the element they write). | Closed form of the result by induction over the order; two orders with different results, continued to the merged mesh. |
| C72 | The loops of `integral_field` and `integral_surface` and the element averages over the reals (`Stats/Model.lean`). | Loops to sums; tensor-product quadrature of multivariate polynomials by linearity from monomials; change of variables for the integral over the domain; conservation from C47. |
| C73 | `filter_limit` and `Elem_nonsmooth` with the `hypercube_matvec` and `dimension` functions modelled before. | The matrices are orthogonal by the discrete orthogonality, so that the code acts on modes; Parseval. |
| C74 | `Equiangle_skewness` from the Jacobian matrices at the vertices, `Record`. | The loops compute a maximum; the angle of Mathlib's Euclidean geometry. |
| C75 | `extrude` with `collapse` and `offset`: vertices, node adjustments and state of old and new elements, vertex marks; the loop of `split_layers` (`Split/Model.lean`). | Loop invariants over the list of exposed faces; along a line of quadrature points the position is affine, which gives the geometry of the parts; interpolation of polynomials (C04); the integral of a part is a difference of an antiderivative, so that the integrals telescope. |
| C76 | `share_vertex_data`, `shared_value`, `push/fetch_shareable_value`, with `Hanging_vertex_matcher::match` of C43 (`Share/Model.lean`). | An invariant over the list of matchers: each entry is the reduction, or the interpolation from the corners of the coarse face; the list is in arbitrary order. Meshes of squares satisfy the consistency assumption by geometry. Concrete meshes refute the rest. |
| C77 | The kernel `Stab_art_visc`, `set_art_visc_admis`, the ramp and sharing of `update_art_visc_elwise`, the cleanup of `update_art_visc_smoothness` (`Visc/Model.lean`). | Sums over rows are sums over Legendre modes (C73); the ramp in closed form; interpolation with `hypercube_matvec` (C20) is a convex combination; sharing from C76. |
| C78 | `Vis_data` (`interior`, `face`, `edges`, `sample`), `bounds_field`, `visualize_field`, `visualize_surface`, `Xdmf_wrapper::write_block` (`Vis/Model.lean`). | Tensor products (C20) of Lagrange interpolation (C13) evaluate the unique interpolating polynomial; arrays of blocks by induction over the blocks; index arithmetic of cells by digits. |
| C79 | `hil_properties::surface`, `Viscous_stress`, `Heat_flux`, `Pressure_stress`, the HIL expressions of stress and force in Case.hil, `integral_surface` (`Force/Model.lean`), with the scheme of C54 and C69. | The integrand at a point is evaluated symbolically; the numerical fluxes at a boundary whose ghost state agrees with the state inside are the physical ones; sums over faces give the boundary terms of the balance law of a time step. |
| C80 | The freestream part of `create_solver`, `_get_vector`, `_set_vector` (`Free/Model.lean`), with the standard atmosphere of C64. | Case analysis over which variables are defined; a frame lemma for each assignment (names are compared by the kernel). |
| C81 | `Domain_func.cpp`, `Qpoint_func.cpp`, `Concat_func`, `hil_properties::state` and the expressions of Case.hil (`Flow/Model.lean`). | Algebra of the perfect gas; real powers for the isentropic relations; induction over the list of functions. |
| C82 | Expressions of the vortex of Case.hil and the classes of `Spacetime_func.cpp` (`Exact/Model.lean`). | Derivatives of the closed forms (`Exact/Vortex.lean`, `Fields.lean`, `Simple.lean`); the balance of mass shows where a moving vortex fails. |
| C83 | `Struct_expr`, `Spacetime_expr`, `Interpreter::make_sub`, `header` and `report` of a case, on top of the models of the interpreter and of namespaces (`Structured/Model.lean`). | Induction on the text for parsing (`Structured/Parse.lean`), on statements for evaluation (`Eval.lean`, `Props.lean`, `Report.lean`); explicit variables of a sub-interpreter (`Sub.lean`). |
| C84 | Choice of boundary conditions, transport models, domain and start of the flood fill from variables, thermal boundary conditions, `hil_properties::element` (`Setup/Model.lean`); on top of the models of walls, freestream, structured expressions and trees. | Case analysis for each choice (`thermal_exact`, `bc_exact`), the flux through walls from C35, `find_leaf` from C02 and the flood fill from C05 for the domain (`Setup/Props.lean`, `Setup/Domain.lean`). |
| C85 | `relax`, `snap_vertices`, `id_boundary_verts`, `id_smooth_verts`, `set_all_smooth`, `reset_verts`, `restore_verts`, the end of `update` (`Relax/Model.lean`), with the order of parallel iterations, the distribution to threads and racing reads as parameters. | Closed forms of the loops, by induction, for any order (`Smooth.lean`, `Boundary.lean`, `Snap.lean`, `Reset.lean`); the interpolation of C43 for vertices that are shared, and induction over the matchers, for hanging vertices (`Hang.lean`). |
| C86 | `Geom_mbc::snap_node_adj`, `Element::face_position` (`FaceSnap/Model.lean`), with the model of `hypercube_matvec` and `dimension_matvec` of C20, of the bases (`Basis`) and of warped elements (`Metric`, `Split`); the surface is given by its two functions. | The warped face is a polynomial of a degree that the basis reproduces (`Sep.lean`, `Lemmas.lean`), so interpolation to the sample points and back is exact (`Props.lean`); the derivative of the interpolating polynomial (`Steep.lean`); counterexamples with straight lines as surfaces (`Limits.lean`). |
| C87 | `Solver::snap_faces` (`SnapMesh/Model.lean`), with the models of `Geom_mbc::snap_node_adj` (C86) and of the kernels `Write_face`, `Prolong`, `Neighbor`, `Restrict` (`Spatial`, `StateFile`). | Frame conditions of the kernels (`Frame.lean`); one sweep as a function of the displacements (`Sweep.lean`); the row with replaced ends is a polynomial whose degree the basis reproduces (`Props.lean`); counterexamples (`Limits.lean`). |
| C88 | `Solver::update_art_visc_smoothness`, `diffuse_art_visc` on a whole mesh (`ArtVisc/Model.lean`), with the kernels of `Spatial`, `Solver`, the equations `Advection` and `Smooth_art_visc` of `Pde`, the Chebyshev steps of `TimeStep` and the orthogonal polynomials of `Basis`. | Frame conditions of the kernels for every equation (`Lemmas.lean`); uniform data is kept by every equation whose fluxes are those of a uniform solution, on meshes whose metric closes (`Uniform.lean`, `Steady.lean`); induction over the iterations (`Run.lean`). |
| C89 | `Solver::set_uncert_surface_rep` on a whole mesh (`SurfRep/Model.lean`), with the mesh, connections and kernels of `Spatial`. | What each of the loops leaves unchanged and what it writes (`Lemmas.lean`), composed for the value; the documented exceptions are refuted by theorems that give the value instead. |
| C90 | `Solver::fix_admissibility` with its diffusion, time step and checks on a whole mesh (`Repair/Model.lean`), put into the loop of `Admis`. | The balance of a diffusion stage of `Spatial` with the time step scale of `TimeStep` divided out, and zero flux at boundaries; induction over passes. Uniform flow as in C88. |
| C91 | The requests and the search for pairs in `Accessible_mesh::extrude` (`Extrude/Model.lean`): requests at vertices, scans with erasure, hanging connections with the vertex in the middle, errors. | Permutations of the recorded requests, by induction over the scans and vertices; the four cells around an edge of a grid for the completeness of layers on a grid. |
| C92 | `Physical_basis` (`PhysBasis/Model.lean`): table of exponents by carrying, bounding box, product of Legendre polynomials (no number if the box is flat), projection with a least squares solver as a parameter. | The table by induction over rows, planes and space; polynomials of bounded degree are spanned by products of Legendre polynomials of affine functions (three-term recurrence); orthogonality from the normal equations. |
| C93 | `write_mesh`, `write_state`, `visualize`, `force_symlink`, `_iteration_suffix` (`Output/Model.lean`) as lists of actions on a file system with files and symbolic links; a killed program has done a part of the list. | Induction over histories with a tidy directory as the invariant; frame lemmas for the paths of pictures; crash points by cases; defects by concrete consequences. |
| C94 | `Vis_data::compute_contour` (`Contour/Model.lean`) with its flat indices, for any number of dimensions and samples in an ordered field; the projection only as the limit of one step. | An invariant of the table of vertices; closedness by summation by parts over the block, for every function on vertices (or antisymmetric function on edges), then counting; orientation by cases of the direction; defects by concrete cases. |
| C95 | `Stopwatch`, the timed parts of the solver as programs of timed blocks, kernels and work of any duration (`Timing/Model.lean`), `indented_report`. | A denotation of programs (time spent in a task); soundness by induction over programs that don't do a task within itself; loops and sizes removed by a simulation, then one closed program per call; histories by induction; defects by concrete histories. |
| C96 | `compute_residual`, `vis_lts_constraints`, `compute_residuals` of a case, the writing of faces in `initialize`, histories of these and time steps (`Residual/Model.lean`) on top of the kernels of `Spatial/Model.lean`. | A frame relation (same states, same faces where the next step reads them) that every observation keeps and every step respects, histories by induction; the residual by comparison with the first stage of a step; the converged case by following both stages. |
| C97 | `_make_geom` with names as lists of characters and the CAD library as any function, `segments`, the variables used by the macro `mesh` as lists of what is done with the mesh, with any answer of the adaptation (`CaseMesh/Model.lean`). | Names split at the last dot; induction over the files; the loops of the macro by induction with a bound that is shown to be enough; invariants of lists of acts (last one is `calc_jacobian`, an automaton for the order) over all stages. |
| C98 | `Function_bc`, `Cache_bc`, `Copy` with flat arrays and any function, with results that are too short as an outcome; a boundary of named connections and operations `apply_state_bcs`, `apply_flux_bcs`, `initialize`, `read_state`, kernels that write anything, motions, new and deleted connections (`Prescribed/Model.lean`). | Loops by induction; an invariant of the recorded values of one connection over all histories without another initialization; witnesses for normal, time and restart. |
| C99 | The unary operators of the interpreter (`Hil/Model.lean`) against a table of the manual as an inductive relation (`Hil/FunSpec.lean`). | Cases of the table; assignments by the theorem about programs of C11. |
| C100 | `Tecplot_file` with its zones, `Structured_block`, `Triangles`, `Line_segments` and `Simplex_geom<3>::visualize` over a model of the library that appends values to variables of zones (`Tecplot/Model.lean`). Arrays that are too short are an outcome. | Loops over variables in closed form; sequences of blocks and triangles by induction; the storage of segments by an injective numbering of its places. |
| C101 | `Kernel_lookup` as a recursion over dimension and row size with the two specializations, `kernel_factory` with its guard, and the checks of `create_solver` (`Lookup/Model.lean`). | Induction along the chain. |
| C102 | `Iteration_status` with its overrideable members; a number is given by the characters which `printf` has to show (`Status/Model.lean`). | A line is the separator between padded cells; splitting it gives the cells back; positions of commas depend on the widths only. |
| C103 | The constructor of `Element` with the loop that makes vertices and edges, and `criteria.cpp` (`Cell/Model.lean`). | Bits of the index of a vertex; edges by evaluation for the three dimensions; the center by summation. |
| C104 | The statements of the constructor of `Solver` about the namespace (`Settings/Model.lean`), on the model of `Namespace`. | Induction over lists of defaults and assignments with distinct names. |

## Trusted base

* Lean 4.33.0's kernel and the Mathlib definitions used in the statements.
* The reading of the C++ source into the model. There is no extraction and nothing is executed: every definition cites the lines it models, and a reader has to compare the two.
* The specifications (`*/Spec*.lean` and the definitions beside the theorems).
* No axioms are added, there is no `sorry`, and `native_decide`/`bv_decide` are not used.

<!-- axioms -->
Axioms (from `#print axioms`, for the 786 theorems named in MANIFEST.json):

* no axioms (5): `CaseRun.zero_freq_undefined`, `Setup.surface_exact`, `Stats.record_refuted`, `Structured.header_empty_refuted`, `Timing.reset_refuted`.
* `propext` (8): `Extrude.second_unchecked`, `Namespace.exists_recursive_all_of_refuted`, `Namespace.exists_recursive_two_levels_refuted`, `Storage.pde_offsets`, `Timing.parts_refuted`, `Timing.report_lines`, `Timing.total_refuted`, `Timing.uncounted_refuted`.
* `Quot.sound`, `propext` (53): `CaseRun.write_refuted`, `Cell.edges`, `Container.concat_exact`, `Container.elements_exact`, `Container.purge_exact`, `Container.seq_exact`, `Container.serial_fresh`, `Force.viscous_flag`, `MathFn.bisection_rejects`, `MathFn.log_bad_base`, `MathFn.nan_end_moves`, `MathFn.nan_one_sided`, `MathFn.nan_rejects`, `MeshConn.connect_boundary_exact`, `MeshConn.connect_cartesian_exact`, `MeshConn.connect_deformed_exact`, `MeshConn.disconnect_exact`, `MeshConn.face_pointers_refuted`, `MeshConn.redundant_pointer_refuted`, `MutualPtr.get_exact`, `MutualPtr.move_exact`, `MutualPtr.mutual_consistent`, `MutualPtr.never_dangling`, `MutualPtr.pair_exact`, `MutualPtr.self_move`, `MutualPtr.unpair_exact`, `Namespace.assignDefault_exact`, `Namespace.assign_exact`, `Namespace.createHeis_exact`, `Namespace.create_exact`, `Namespace.inherit_deep_refuted`, `Namespace.lookup_inherits_partial`, `Namespace.lookup_latest`, `Namespace.lookup_local`, `Namespace.lookup_terminates`, `Namespace.one_type`, `Namespace.promotion`, `Namespace.step_frame`, `Namespace.supers_untouched`, `Polymesh.polymesh_2d_refuted`, `Relax.all_smooth_exact`, `Relax.min_size_refuted`, `Relax.relaxed_exact`, `Relax.reset_refuted`, `Relax.restore_exact`, `Relax.smooth_exact`, `Status.header_csv`, `Storage.connection_layout`, `Structured.aligned`, `Structured.header_exact`, `Timing.failure_refuted`, `Timing.plus_iff`, `Timing.watch_time`.
* `Classical.choice`, `Quot.sound`, `propext`: all the others (720).
<!-- /axioms -->

### What is modelled, module by module

| directory | code modelled | left out or simplified |
|-----------|---------------|------------------------|
| `Tree`, `TreeFile` | `Tree` (include/Tree.hpp, src/Tree.cpp) in full; `write_tree`/`read_tree` of the mesh file. | Overflow of `int` from level 31 on; rounding in `nominal_position`; user data of a node; HDF5 itself. |
| `Namespace` | `Namespace` (include/Namespace.hpp). | `double` is an uninterpreted type; effects of Heisenberg callbacks. |
| `Hil` | `Interpreter` (include/Interpreter.hpp, src/Interpreter.cpp): parser, evaluator, operators, exception handling, macros. | `double` operations are uninterpreted; bytes are characters of the "C" locale; `shell` is an arbitrary function; recursion is bounded by a number on which results do not depend. |
| `MutualPtr`, `Vertex`, `Container`, `RowIndex` | The classes of the same names, `Element_container`, `Sequences`. | Template parameters; members of `Vertex` that hold user data; locks. |
| `MathFn`, `Tensor` | `math::pow`, `log`, `bisection`; `hypercube_matvec`, `dimension_matvec`, `pow_outer`. | Exact numbers; Eigen's size assertions are the outcome `none`. |
| `Basis` | `Basis`, `Equidistant`, `Derivative`, and the formulas of script/Basis.py that make the tables of the Gauss bases. | Rounding of the tables to 20 digits; that the nodes found by the root finder of sympy are the roots. |
| `Connection` | Directions, vertex matching, face permutation, hanging vertices, the loops of `Refined_connection`. | - |
| `Spatial`, `Pde`, `Solver` | All kernels of include/Spatial.hpp but `Max_dt`, the PDEs of include/pde.hpp but the two smoothing equations, the flow boundary conditions, `Solver::update` for Cartesian and deformed elements and hanging nodes. | Exact real arithmetic; parallel loops run in an arbitrary order of whole iterations; geometry of deformed elements (Jacobians, normals) is data. |
| `Storage` | `Storage_params`, offsets of `Element`, `Kernel_element`, connections. | Overflow of `int`. |
| `Geom` | `Nearest_point`, `Compound_geom`, `Hypersphere`, `Simplex_geom`. | `Occt::Geom`; rounding; NaN is explicit where the code can divide by zero. |
| `Layers`, `History`, `CaseRun`, `Csv` | `Layer_sequence`, `Mesh::extrude(Layer_sequence)`, `History_monitor`, `Case::update` with the `iterate` macro, `read_csv`. | The flow in `CaseRun`; file opening; `std::stod` is an arbitrary partial function. |
| `Mesh` | Element and connection containers, connect/disconnect/purge/valid. | Vertices and numerical data of connections. |
| `Adapt` | `Accessible_mesh::update`, `set_surface`, `add_tree`, `delete_bad_extrusions`, `deform`, `connect_new`, `purge`, as far as tree elements and their connections are concerned. | Extrusion (number and shape of extruded elements), snapping, vertices, `intersects_surface` (a parameter). |
| `Admis` | `Solver::is_admissible`, `fix_admissibility`. | The smoothing pass is an arbitrary function; printing. |
| `Krylov` | `iterative::gmres`, `bicgstab`, `Linear_equation`. | Vectors in an arbitrary inner product space with exact numbers; numbers that are not finite are `none`; Eigen's QR is a parameter that solves least squares problems. |
| `Polymesh` | `Accessible_mesh::export_polymesh`. | The text of the files, names and types of patches, file system; access outside a vector is one undefined outcome. |
| `MeshFile` | `Accessible_mesh::write`, `read_file` and the `cleanup` at its end; `Vertex::eat` for merging vertices. | HDF5 (a data set is a list of rows), attributes, the structure of the tree (only which elements have a cell), identification of vertices for smoothing. |
| `TimeStep` | `math::interp`, `math::chebyshev_step`, the kernel `Max_dt`, `max_dt_*`, `Solver::max_dt`, the loops of `Solver::update`. | The flow update and `fix_admissibility` inside the loops (an arbitrary function), NaN, stopwatches, `max_cfl` and `min_eig_diffusion` of the bases (arbitrary numbers of the right sign). |
| `Implicit` | `Solver::Linearized` (constructor, `scale`, `add`, `inner`, `matvec`) and the statements of `update_implicit` around GMRES. | The explicit update (an arbitrary function of the state that also leaves a time rate in stage 1), face data, the solver (see C62). |
| `StateFile` | `Solver::write_state`, `Solver::read_state` (data set, element loop, outcome), `Solver::initialize` (state and faces). | Opening files and the HDF5 library beyond the bounds check of hyperslabs, caches of boundary conditions, artificial viscosity, admissibility fixing between steps. |
| `Synch` | `Solver::synch_extruded_uncert`; the passing of requests and locks from extruded elements in `Accessible_mesh::update`. | Evaluation of the criteria; several layers in `update` (there the code reads `record` of an element without its lock). |
| `Stats` | `Solver::integral_field`, `Solver::integral_surface`; `Elem_average`, `Elem_l2`, `Elem_nonsmooth`, `Normalized_nonsmooth`, `Equiangle_skewness`, `Record`; `filter_limit`. | How the Jacobian at the vertices is computed (`Metric`); rounding (a dot product of unit vectors above 1 gives NaN, which `std::max` drops). |
| `Split` | `Accessible_mesh::extrude` with `collapse` and `offset` (creation of elements, vertices, node adjustments, state), `split_layers`. | Which faces are exposed (given as a list with the properties of an extruded layer) and the connections among the new elements; vertices of new elements at the surface are not merged with those of neighbours at the same place. |
| `Share` | `Solver::share_vertex_data`, `Vertex::shared_value`, `vector_max`, `vector_min`, `Element::push_shareable_value`, `fetch_shareable_value`. | Interleaving within an iteration of a parallel loop; NaN; the computation of the shared values. |
| `Visc` | `Stab_art_visc`, `set_art_visc_admis`, `update_art_visc_elwise` (without the PDE), scaling of the momentum and final coefficient of `update_art_visc_smoothness`. | The advection and smoothing of `update_art_visc_smoothness` and `diffuse_art_visc`; infinite densities; rounding. |
| `Vis` | `Vis_data` without `compute_contour`, `bounds_field`, `visualize_field`, `visualize_surface`, `Xdmf_wrapper::write_block`. | Contours, Tecplot and otter output, the XDMF library, `vis_lts_constraints`, integer overflow of indices, rounding. |
| `Force` | Surface variables of HIL, `Viscous_stress`, `Heat_flux`, `Pressure_stress`, `compute_force`, `compute_heating`, `integrate_surface`. | The HIL interpreter (see `Hil`): expressions are transcribed. Printing. Rounding. |
| `Free` | The freestream of a case: Case.cpp:162-219. | Types of variables other than numbers, evaluation of Heisenberg variables, rounding. |
| `Flow` | Functions of the flow: Domain_func.cpp, Qpoint_func.cpp:38-71, Output_data.hpp:41-84, Qpoint_func.hpp:98-167, hil_properties.cpp:36-52, Case.hil:5-27. | Rounding; integer powers of negative numbers by `std::pow`; Ringleb flow. |
| `Exact` | Analytic flow fields: Case.hil:67-82, Spacetime_func.cpp:40-148. | Rounding; Ringleb flow (needs NLopt); the point of singularity of a doublet. |
| `Structured` | Structured expressions and where they are evaluated: Struct_expr.cpp, Spacetime_func.cpp:21-28, Interpreter.cpp:382-388, Case.cpp:374-421. | Formats of numbers (`%.8e` and so on are parameters), right sides with macros, on-demand variables in right sides, text that is not ASCII. |
| `Setup` | Case.cpp:41-96, 219-241, Case.hil:290-312, Boundary_condition.cpp:373-379, Boundary_condition.hpp:135-190, constants.hpp:34-52, Accessible_mesh.cpp:663-683, 711-713, hil_properties.cpp:6-23. | Execution of the code in `thermal_bc` and of the models (their variables are inputs), types of numbers, geometry files, history monitors (see `Case` and `History`). |
| `Relax` | Accessible_mesh.cpp:23-125, 279-284, 1119-1127, 1318-1421, Vertex.cpp:60-68, Boundary_condition.cpp:480-508, Hanging_vertex_matcher.cpp. | Null pointers in the lists of vertices, locks, overlap in time of two matchers, the geometry itself (a function, see `Geom`); snapping of nodes other than vertices. |
| `FaceSnap` | Boundary_condition.cpp:510-587, Element.cpp:72-97. | The surface itself (two functions, see `Geom`); one dimension; rounding, so that the final check for finite values never fails. |
| `SnapMesh` | Solver_snap_faces.cpp:9-113, Boundary_condition.cpp:12-22. | Locks and threads (any order of the connections); the faces after the second sweep in three dimensions other than in `not_matched`. |
| `ArtVisc` | Solver.cpp:83-102, 428-582, Boundary_condition.cpp:24-60, 346-369, 429-448 (advection and diffusion parts), pde.hpp:281. | The choice of local time steps (arbitrary nonnegative functions), stopwatches, `update_art_visc_elwise`. |
| `SurfRep` | Solver.cpp:681-815. | Parallel execution of the loops over elements and connections. |
| `Repair` | Solver.cpp:921-1093 (with `Admis`), thermo.cpp:6-19, pde.hpp `Fix_therm_admis`. | The time step that follows a pass (a parameter), printing, visualization and timing. |
| `Extrude` | Accessible_mesh.cpp:293-332, 360-377, 428-439, 504-616. | The creation of elements and their geometry (`Split`), making the connections (`Mesh`); vertices are abstract, merging them is a parameter. Records are lists of requests instead of lists of integers. |
| `PhysBasis` | Physical_basis.cpp, Physical_basis.hpp. | `std::legendre` by its recurrence, the solver is a parameter; a division by zero gives no number. |
| `Output` | Case.cpp:75-84, 325-369; Case.hil:227-246, 288-295; Xdmf_wrapper.cpp:87-101; utils.hpp:17-24. | A file system is a map from paths to files and links (links to directories are not followed); writing a file is two actions, contents are opaque; `copy_file` is one action. |
| `Contour` | Vis_data.cpp:112-217, 231-232. | Samples are given instead of computed by interpolation; arithmetic is exact; the ten steps of the projection, which need values and gradients of the function, and the normal vectors are not modelled except for the limit of one step. |
| `Timing` | Stopwatch.cpp (all), Stopwatch.hpp:12-47, Stopwatch_tree.cpp:7-25, kernel_factory.hpp:32-45, kernels_max_dt.cpp:8-12, kernels_convective.cpp:8-16, kernels_diffusive.cpp:8-26, Solver.cpp:56-67, 177-201, 428-455, 457-582, 636-658, 834-912, 921-959, 961-1095, 1329. | Times are whole nanoseconds without rounding; the work between timers is a piece of any duration; `Heisenberg` variables, printing and pictures are work; a failed repair is the only exception. |
| `Residual` | Solver.cpp:56-81, 400-401, 854-868, 899-914, 1318-1354, Case.cpp:385-396, Qpoint_func.cpp:37-45, 60-71. | Real arithmetic; the time steps and their scales are any functions of the states; `visualize_field` returns or throws; repairs, artificial viscosity and stopwatches are left out. |
| `CaseMesh` | Case.cpp:97-138, 251-304, Case.hil:317-335, Simplex_geom.cpp:48-58. | The contents of CAD files and the file system are functions; what the acts do with the mesh is in other topics; printing is left out. |
| `Prescribed` | Boundary_condition.cpp:12-22, 224-300, 449-457, Boundary_condition.hpp:102-128, Solver.cpp:56-81, 400-407. | What the kernels write is any data; the functions themselves are any functions; the loops over connections are sequential (their iterations touch different connections). |
| `Tecplot` | Tecplot_file.cpp:11-133, Tecplot_file.hpp:18-115, Simplex_geom.cpp:33-46. | The library TECIO is external: calls append values to a variable of the current zone. Auxiliary data other than numbers of variables are left out; a zone enters the file when it is finished. |
| `Lookup` | kernel_factory.hpp:46-119, Case.cpp:161-166. | The constructor arguments of kernels are left out; what kernels compute is in the other modules. |
| `Status` | Iteration_status.cpp:6-43, Iteration_status.hpp:24-60. | Rounding to nine digits by `printf` is not modelled: a double is its sign, digits and exponent after rounding. Clocks are left out. |
| `Cell` | Element.cpp:7-52, criteria.cpp:7-26. | Exact arithmetic; the power of two of the refinement level does not overflow; `Vertex::connect` is the recorded pair. |
| `Settings` | Solver.cpp:152-175. | Decimal literals, `huge`, the product and the square root are parameters; other members of the solver are not modelled. |
| `Metric` | `Solver::calc_jacobian`, `Deformed_element::set_jacobian`, `position`, `face_position`, `jacobian_face` and the normals of connections. | Exact real arithmetic; shapes enter as polynomials that the positions sample; that connected faces coincide and Jacobians are not singular is assumed; node adjustments are given (no snapping). |
| `Atmos` | `standard_atmosphere`, `standard_atmosphere_geopot`. | Exact real arithmetic with `Real.exp` and `Real.rpow`; a violated assertion is `none`. |

Not modelled at all: OpenCASCADE geometry, contours, Tecplot and otter output, geometry of mesh snapping, the command line program, Python scripts other than the basis formulas, timing, and actual threads (parallel loops are sequential loops in arbitrary order).

Division by zero gives 0 in Lean's reals. Where the code can divide by zero the model has an explicit case (`Geom`, `Krylov`, `CaseRun`, `History`) or the theorems assume what excludes it (`Pde`, `Solver`: positive mass and pressure).

## Disagreements between the code and what it promises

Proved, with a concrete witness or for all inputs, as theorems with the suffix `_refuted` or as named:

* C39: `export_polymesh` of a two-dimensional mesh accesses vectors outside their bounds (`polymesh_2d_refuted`): faces have two vertices but entries 2 and 3 are swapped and written. Nothing restricts it to three dimensions.
* C06: `flood_fill` called on a node that is not a leaf does not mark the whole component.
* C10: `exists_recursive` and lookups look only one level up, and conflict with `lookup` for deeper inheritance.
* C13: `abs` of a string ends in an exception that is not an `Hil_exception`.
* C14: a second exception raised by the handler escapes raw; the failing statement is discarded textually; `-` and `#` after a separator are read as binary; a blank program raises; a missing operand and `exit` are undefined behaviour.
* C15: moving a `Mutual_ptr` onto itself drops the pairing.
* C20: `hypercube_matvec` does not end for a one-column matrix and a vector with several entries.
* C21: `math::log` overflows near the largest `int`.
* C25: if the largest row size is 9 or more, the coarse face storage of one-dimensional hanging-node connections is too small for the advection equation.
* C26: a window of size 0 hangs; a sample of the window can be missing.
* C27: the layers do not add up to 1 in general; the wall layer can be negative.
* C28: the nearest point to the center of a sphere is reported to be the center.
* C29: intersections are missed if the bounding cube is larger than 1. The documentation of `Surface_geom::intersections` says `point0 + t*point1`, the code computes `point0 + t*(point1 - point0)`.
* C32: the result of `delete_bad_extrusions` depends on the order of its parallel loop although a comment says it does not.
* C36: the state after the last pass of `fix_admissibility` is never checked; a repair erases the Laplacian artificial viscosity; the reported number of iterations is one less than the passes made.
* C38: files are not written at every multiple of `write_freq` unless it is a multiple of `print_freq`; ramping may never happen; `print_freq` <= 0 is undefined or stuck.
* C40: a file without a final newline makes `read_csv` loop forever; a short row is undefined behaviour; surplus columns and everything after a blank line are ignored.
* C55: an exception in `connect_hanging` leaves a dangling face pointer; deleting one of two redundant connections clears the pointer to the other.
* C57: in one dimension faces stay unconnected.
* C58: unrefinement locks are ignored if an unlocked sibling is treated first (against include/Element.hpp 53).
* C59: `update` can leave elements without a tree cell.
* C60: `update` can create elements through which the surface passes; a second `set_surface` does not forget the first (against include/Mesh.hpp 147).
* C62: GMRES needs `n_restart + 4` vectors, not `n_restart + 3` as documented and asserted, so `Solver::update_implicit` writes outside its storage; an exact guess and more steps than unknowns give a solution that is not finite.
* C63: BiCGStab destroys an exact solution by dividing by zero.
* C64: in intervals of 1e-10 m below the altitudes where the lapse rate changes, the pressure of the standard atmosphere is too large by up to one part in 1e13 and so does not decrease with altitude.

Noticed while reading, not proved:

* `Linearized`'s constructor calls `matvec(1, 0)` with output and input sharing storage, against the note in Linear_equation.hpp, so its right-hand side is zero; it adds the solution itself rather than the solution times the step of the finite difference; it uses the first momentum component of the freestream for every dimension.
* `Accessible_mesh::update` is documented to return whether the mesh was changed but returns whether it has become smaller.
* The diffusivity of the equation that smoothes inadmissible states is constant, so the coefficients computed by `fix_admissibility` have no effect on the smoothing; `HEXED_ASSERT` inside a parallel loop terminates the program.
* The copy constructor of `Transferable_ptr` leaves `shareable_value` uninitialised; assigning a `Non_transferable_ptr` to itself clears it.
* `sort_simplices` recurses forever on more than 100 coincident degenerate simplices; `Equidistant` with row size 1 divides 0 by 0.
* `connect_hanging` with more than four fine elements indexes out of range; `purge` forgets extruded connections only for record 2 although elements go for any nonzero record; the lock against unrefinement is lost when `deform` replaces an element; there is a data race on `changed` in the smoothing loop.
* `export_polymesh` reads `verts[2]` of a two-dimensional element.
* Connections to orphaned elements survive `purge`; `set_surface` has no step that deletes extruded elements of an earlier surface; `Tree::def_elem` is never reset.
* The filter of the local kernel treats the time rate as `2*n_update` contiguous variables although the second block starts at `max(n_update, ceil(n_extrap/2))`; these differ for the advection equation in 3D with row size 2, where the filter misses part of the source.
* The copy to hanging faces in `calc_jacobian` restores a permutation where it would have to apply it if coarse and fine sides were exchanged, which does not happen.
* `Struct_expr` calls `back()` on an empty container for an empty left-hand side; `Stopwatch::reset` while running loses the start.
* C66: `write` lists the fine elements of a hanging-node connection in the order of `connection(i_fine)`, which is the order seen from the coarse element. `read_file` passes this list to
  the constructor, which expects the order seen from the fine elements and permutes it again. For flipped or transposed connections the fine elements come back on the wrong mortars and
  wrong vertices are merged (`MeshFile.flipped_refuted`).
* C66: in 2D `stretch[1]` is ignored when a connection is made but `read_file` uses it to compute the number of fine elements, and the constructor throws (`MeshFile.stretch_refuted`).
* C66: `read_file` recognises connections to extruded layers only if exactly one element has a cell of the tree. Those between two extruded layers, or in a mesh without tree, are lost
  (`MeshFile.extruded_lost`).
* C66: `write` overwrites `Element::record` with the number of the element and does not reset it. A call of `cleanup` after that deletes all elements of a mesh with a tree whose record is
  not 0, that is all but the first (`MeshFile.write_then_cleanup`). `update` and `set_surface` are not affected because they reset records first.
* C67: `Solver::update` bounds the nominal time step by `max_time_step` but then multiplies it by `chebyshev_step`, which exceeds 1 in the last of two or more sub-iterations, so the time
  step is longer than the documented maximum (`TimeStep.max_time_step_refuted`).
* C68: the constructor of `Solver::Linearized` computes the right-hand side with `matvec(1, 0)`, which subtracts vector 1 from the output, here itself. The right-hand side is always zero and the
  residual at the linearization point is never subtracted (`Implicit.right_hand_side`, `Implicit.operator_refuted`). What is subtracted from the new state is stage 1, which is not the old state
  but the convective time rate (include/Spatial.hpp 484-495). The reference momentum is computed from `"freestream" + n_dim`, the mass, in every dimension (`Implicit.ref_state_refuted`).
* C69: `Solver::read_state` is documented as "essentially a substitute for `initialize`", but it only fills the element data. The faces, which `initialize` computes from the state
  (`compute_write_face`, `compute_prolong`) and which `update` reads first, keep what `read_mesh` left there: face normals in the first `n_dim` variables and never written memory in the others.
  So the first time step after a restart is wrong (`StateFile.restart_refuted`) unless something else recomputes the faces first, as `update_art_visc_smoothness` does. Caches of boundary
  conditions are not initialized either.
* C71: in `update`, an element inherits the requests of the elements extruded from it with `if (inside.record == 0) inside.record = outside.record; else max`. If several elements are
  extruded from it (at edges and corners of the exposed surface) and only some of them ask for unrefinement, the last one treated wins, so the mesh depends on the thread schedule
  (`Synch.inherit_order_refuted`). An own request for unrefinement is always overridden by the extruded elements.
* C74: `Equiangle_skewness` normalizes the edges with Eigen, which leaves a zero vector as it is, so that a collapsed edge counts as perpendicular to all others and an element flattened to a line
  has skewness 0, "the best" (`Stats.skewness_collapsed_refuted`). `Record` is documented as "Returns `Element::record`" but returns 0 or 1 (`Stats.record_refuted`).
* C73: `filter_limit` is documented to limit mode n to `decay_rate^n`; the limit is that times the norm of the data, and so limiting twice may limit more than limiting once.
* C75: the documentation of `split_layers` and `layer_split_points` asks for strictly increasing split points, with the example 1/4, 1/2, 3/4. The code cuts what remains at the surface at
  `split/prev_split` starting from 1, so that the points have to be strictly decreasing; with the documented example the new vertices overtake each other and two of four layers have negative volume
  (`Split.split_points_increasing_refuted`). Adjustments of lateral faces are kept in the outer part and zero in the new one; the theorems assume that they are zero.
* C76: in three dimensions fine elements that touch a coarse element only along an edge take no part in the hanging-node connection, so that their value at the hanging vertex is not replaced by the
  interpolation. They disagree with their neighbours about it and the field is discontinuous (`Share.share_edge_refuted`). With the minimum, as for the time step scale in `calc_jacobian`
  (Solver.cpp:380), the interpolation at hanging vertices can exceed the limit of the fine element itself (`Share.share_min_limit_refuted`).
* C75 (not modelled): an `offset` of 1 divides by zero in `extrude`, and `split_layers` in the middle of a run does not recompute the states at the faces.
* C77: at hanging vertices the viscosity is interpolated from the corners of the coarse face, so that it can be less than what the fine element asks for (`Share.share_max_limit_refuted`). In
  `update_art_visc_smoothness` the coefficient `us_max*f/(us_max + f)` has no bound for negative `f` and is infinite for `f = -us_max` (`Visc.smoothness_negative_refuted`); the smoothed forcing is not clipped to be
  nonnegative. An element whose density is NaN gets the full viscosity from `set_art_visc_admis`, but none from `update_art_visc_elwise` (`Visc.stabilizing_invalid`, `Visc.elwise_nan`). With row size 2 the stabilizing
  viscosity of a valid state is at most half of the full value (`Visc.stabilizing_linear`).
* C78: `Vis_data::edges` and `Vis_data::face` recurse forever in one dimension (`Vis.edges_1d_refuted`), because `hypercube_matvec` does not end for an array with a single entry. The documentation of `edges` promises
  `n_sample + 1` points, but there are `n_sample`, as its layout says. A block of one point is not centered: it is the corner with the highest coordinates (`Vis.interior_single`).
* C79: `Heat_flux` is documented as the heat flux into the surface, but is its opposite (`Force.heat_flux_sign_refuted`); the HIL variable has the documented sign. At slip walls the reported stress contains friction which the
  wall does not exert (`Force.slip_friction_refuted`). Stress by artificial viscosity is not reported if both transport models are empty, and viscous stress is not reported on faces whose reference normal is shorter than 1e-3
  (`Force.degenerate_faces`). One degenerate face makes the force not a number (`Force.degenerate_force`). A vertical freestream makes lift and side force not a number (`Force.vertical_freestream_refuted`).
  The documentation calls the macros `compute_forces` and `print_forces`; Case.hil defines `compute_force` and `print_force`.
* C80: a freestream given by its velocity leaves `freestream_speed`, `freestream_mach` and `freestream_sound_speed` undefined, so `compute_force` fails (`Free.velocity_force_refuted`, `Free.no_speed_no_force`); the same holds for
  a state vector given directly (`Free.state_vector_only`). `altitude` silently overrides density or pressure (`Free.altitude_overrides`). "must specify all components or none" is not enforced for a vector without its first
  component (`Free.components_refuted`). A zero direction vector makes the gas rest at any speed (`Free.zero_direction`).
* C81: `residual_expr` and its parts read `prev_momentum0` to `prev_energy`, which no code defines, so that visualizing or integrating them fails (`Flow.residual_refuted`).
* C82: in a moving freestream the Gaussian of the vortex moves on, but the velocity is still computed with the position relative to the origin (`pos1` rather than `pos1 - v1*time`): the balance of mass fails for every `time` other than 0 (`Exact.vortex_moving_refuted`; exactly when is `vortex_moving`).
* C82: `Doublet` in three dimensions leaves the axial velocity out of pressure and energy and copies the axial momentum: entropy is not that of the freestream (`Exact.doublet_axial_refuted`).
* C82: `Random_func` is documented to return values in [mean - variation/2, mean + variation/2]; it returns values from the mean upward only (`Exact.random_mean_refuted`).
* C83: an assignment with nothing on one side, such as `x = ;` in `vis_field_vars`, is undefined behaviour rather than an error: spaces are removed with `front()` of an empty string (`Structured.make_ub`, exactly when).
* C83: `print_vars = {}` makes `header` and `report` erase two characters of an empty text (`Structured.header_empty_refuted`).
* C83: `report` passes a `std::string` to `snprintf` if a printed variable is text (`Structured.report_text_refuted`).
* C83: `report` also assigns to the variables of the case, so that `print_vars = {n_elements = n_elements;}` is an exception (`Structured.report_heisenberg_refuted`).
* C83: a sub-interpreter does not inherit the user's `format_double` (`Structured.point_format`).
* C84: the documented `thermal_bc = {emissivity = x; conduction = y; temperature = z}` is rejected, and `{conduction = y; temperature = z}` is taken for a wall of prescribed temperature: the program reads `heat_transfer_coef` (`Setup.thermal_doc_refuted`).
* C84: the documented parameter `transport_model` is not read. `viscosity_model = {sutherland}` is inviscid, although surfaces then get the no-slip condition by default (`Setup.transport_doc_refuted`). A model that lacks `offset` is undefined behaviour, since a `std::string` is passed to `snprintf` (`Setup.transport_bad_refuted`).
* C84: the mesh is a cube with the longest side of the box of `mesh_extreme…`; elements are documented to be within the box (`Setup.extent_refuted`).
* C84: a `flood_fill_start` of which another coordinate than the first is outside the domain is documented to default to the lower corner; the fill starts at the root cell instead, which marks cells that the lower corner does not reach (`Setup.flood_refuted`).
* C84: `pressure_outflow` cannot be used where the freestream is given by `freestream0`, …: `freestream_pressure` is not computed from it (`Setup.pressure_outflow_refuted`).
* C84: `is_def` is documented as a variable of refinement criteria but not assigned (`Setup.element_doc_refuted`).
* C85: a vertex that is both at the surface and at an extreme face of the domain is moved to the surface and then into the plane of the face, which in general takes it off the surface (`Relax.both_refuted`).
* C85: the smallest element size that `snap_vertices` computes as a hint for the search of the nearest point is always the largest number, since `std::max` is applied where `std::min` is meant (`Relax.min_size_refuted`). The hint is void, and the unsynchronised reads of positions of neighbours have no influence on the result.
* C85: the documentation of `relax` says that the factor 0 means no update; the boundary is snapped all the same (`Relax.factor_doc_refuted`).
* C85: `reset_verts` (used by `Solver::vis_cart_surf`) assigns a vector of `n_dim` components to one of three, which is undefined in two dimensions (`Relax.reset_refuted`).
* C85: a vertex that is to be smoothed stays in the list of a boundary even if no face of this boundary has it any more (`Relax.boundary_exact`).
* C86: with two nodes per row the snapped face is not on the surface, even if this is flat: the wanted adjustment times the distance between the faces is a polynomial of degree 2, which two nodes cannot represent. No problem is reported (`FaceSnap.row2_refuted`).
* C86: if both of two opposite faces of an element are snapped, the second is not put on the surface, since its intersections are relative to the warped opposite face but its adjustments to the straight one. In the example the element is left without volume and no problem is reported (`FaceSnap.both_warped_refuted`).
* C87: in three dimensions the rows along the second direction of a face are processed after those along the first and replace the values at their ends, so with two or three nodes per row the surface has gaps between elements that are neighbours in the first direction (`SnapMesh.gap_refuted`).
* C87: in the second sweep the code doubles one side of each fine connection and zeroes `state(1, false) + nfq*n_var`, which is the LDG part of side 1, not its state. So common displacements `x` become `3/2 x` (`SnapMesh.hanging_refuted`).
* C87: the residual cache is used to keep the state and not restored (`SnapMesh.state_restored`).
* C88: the smoothed indicator is not clipped before it enters `us_max*f/(us_max + f)` (Solver.cpp:566-567), so where the smoothing undershoots the artificial viscosity is negative, and the division is by zero if `f = -us_max` (`ArtVisc.defined`). `new_range` assumes `0 ≤ f`.
* C89: `Solver::set_uncert_surface_rep` is documented to ignore connections between deformed and Cartesian elements and to give zero for Cartesian ones (Solver.hpp:157-165). The code gives each face with a Cartesian neighbour the difference 1 (`SurfRep.cartesian_neighbour_counted`), and stores in a Cartesian element at the boundary the length of its momentum (`SurfRep.cartesian_element_momentum`), because `normals` are only loaded into deformed elements.
* C89: after `set_uncert_surface_rep` only the faces of elements are written again, so mortar faces of hanging connections keep zero momentum (`SurfRep.hanging_not_restored`, `SurfRep.faces_restored_refuted`). The function is called only from tests.
* C90: `Solver::fix_admissibility` marks elements, spreads the marks through vertices and interpolates them to `laplacian_av_coef`, but the diffusion that follows has diffusivity 1 everywhere and does not read it: the whole mesh is smoothed in each pass, whichever elements are marked (`Repair.marks_unused`). Because its time step is local, mass is not conserved between regions of different spacing (`Repair.fix_exchange`).
* C91: for hanging nodes in three dimensions `Accessible_mesh::extrude` takes the second fine element from the only record at the other end of the fine edge, without checking which refinement level or face that record is about (`Extrude.second_unchecked`). For a mesh where it is about another one, the elements would be looked up by the wrong key.
* C92: for `row_size = 1` the bounding box of the only point has no extent and `Physical_basis::evaluate` divides zero by zero (`PhysBasis.evaluate_number`), although the constant function would be a basis; the same for any element that is flat in the direction of a coordinate.
* C93: `force_symlink` removes the link and then makes it again, so a program killed between the two leaves no `latest` (`Output.crash_refuted`); making a new link and renaming it would be atomic. `write_final` writes the same iteration that `write_iter` may just have written, in place, so for that time `latest` leads to an incomplete file (`Output.rewrite_refuted`).
* C93: `force_symlink` asks `exists(link)`, which follows the link. If the file it leads to has been deleted, e.g. to save space, the link is not removed, `create_symlink` throws, and the case ends although the data file has been written (`Output.dangling_refuted`).
* C93: `write_init` writes a mesh and no state, so a new run in the directory of an old one makes `latest.mesh.h5` and `latest.state.h5` lead to different meshes until the first `write_state` (`Output.pair_refuted`).
* C93: with `vis_skew` and `vis_edges` the file of the skewness is overwritten by its wireframe, since its name does not depend on `edges` (`Output.skew_refuted`). `vis_lts_constraints` is documented and has a default but is never read (`Output.lts_refuted`). In one dimension `visualize` throws with the default switches (`Output.vis_line`).
* C94: the tolerance of `compute_contour` is absolute and 1e-3 by default. A function that varies by less has no contour whatever its value (`Contour.small_refuted`), e.g. any quantity in small units, and next to a place where it varies slowly a contour ends inside the element (`Contour.tolerance_refuted`).
* C94: where the contour meets the boundary of the element there are elements whose vertices are all the same (`Contour.degenerate_refuted`), which have no area and no normal vector.
* C94: `directions` is a sum of up to several unit votes and is not normalized, so the limit of half a step for the movement in one iteration of the projection is multiplied by the number of votes (`Contour.direction_refuted`, `Contour.move_bound`).
* C95: `Solver::update` starts and pauses its stopwatch by hand. If `fix_admissibility` gives up (Solver.cpp:974) the exception leaves it and those of "fix admis." running, so that every later `update` throws "attempt to start an already running `Stopwatch`", whatever is done in between, e.g. initializing the flow again (`Timing.failure_refuted`). `Stopwatch::Operator` would pause them.
* C95: "check admis." is a sibling of "fix admis." but is done within it, and so are the time steps of the flow, so the parts of the report add up to more than the total (`Timing.parts_refuted`). `compute_residual`, `set_art_visc_admis` and `is_admissible` count for their parts but not for the total, so that a part can be larger than the whole (`Timing.total_refuted`).
* C95: the task "update" of the advection is counted but never timed, so the report gives 0 seconds for any number of elements (`Timing.untimed_refuted`); "cartesian" and "deformed" in "diffusion" are timed but never counted, so the report gives 0 elements for any time (`Timing.uncounted_refuted`).
* C95: `Stopwatch::reset` of a running stopwatch keeps its start, so the time before the reset is counted at the next pause, against its documentation (`Timing.reset_refuted`).
* C96: `Solver::vis_lts_constraints` exchanges the flow variables with the limits of the time step while it writes the file. If `visualize_field` throws (unknown format, file cannot be written) they stay exchanged (`Residual.vis_failure_refuted`).
* C96: `Solver::max_dt` passes `use_filter` in the position of `compute_residual` of `Kernel_options` (Solver.cpp:124-129), without effect since `Max_dt` reads neither.
* C97: `.csv` geometry is documented to have at least 2 columns, and the check accepts more, but `segments` assigns columns of 3 or more numbers to columns of a 2 by 2 matrix, which is an assertion of the matrix library unless assertions are off (`CaseMesh.columns_refuted`).
* C97: with `n_dim = 1` a CAD file is read and then left out of the geometry without a message (`CaseMesh.line_refuted`).
* C98: `Function_bc` and `Cache_bc` pass the stored normal to the function, which is documented (Surface_func.hpp:16) to get a unit vector that points into the domain; it is scaled by the surface and points out of the domain at upper faces (`Prescribed.normal_refuted`).
* C98: `Function_bc` evaluates the function in every stage, but with time 0 (`Prescribed.time_refuted`).
* C98: the values of `Cache_bc` are recorded by `Solver::initialize` only. After `read_state`, or at connections that adaptation makes, they are zero (`Prescribed.restart_refuted`).
* C100: `Tecplot_file::Line_segments` declares one cell for each segment, but writes `row_size - 1` links for each, so that zones of segments with more than two nodes are inconsistent (`Tecplot.lines_refuted`). No caller in the repository uses it.
* C100: names of variables are joined by spaces without quotes, so that a name with a space or a comma shifts the variables (`Tecplot.columns_refuted`).
* C100: the auxiliary data give numbers for the density and the energy that are only right if the variables are the state (`Tecplot.roles_partial`, `Tecplot.roles_refuted`).
* C99: the wrong type of the operand of `abs` raises a `std::exception` instead of a `Hil_exception` (Interpreter.cpp:274, no exception type is given), so that `except` cannot handle it (`Hil.function_wrong_type_refuted`).
* C102: the default width of the columns of `Iteration_status` is 15, but a negative number with an exponent of three digits has 16 characters in the default format, so that the columns after it are shifted (`Status.aligned_refuted`).
