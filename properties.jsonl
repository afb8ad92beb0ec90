{"id": "C01", "title": "Tree leaves always tile the domain and find_leaf(level, coords, bias) finds the one that owns a point", "statement": "After any sequence of refine()/unrefine() calls on elements of a Tree, find_leaf(ref_level, coords, bias) called on the root returns exactly the leaf whose cell contains the integer point coords/2^ref_level, where in each dimension bias 0 means the cell owns its lower face and bias 1 means it owns its upper face. There is exactly one such leaf if the point is in the root cell so biased, and nullptr is returned exactly when it is not.", "quantifier": "every number of dimensions, every history of refine/unrefine calls, every ref_level, every integer coordinate vector, every bias in {0,1}^n_dim", "why_tests_cant": "the set of tree shapes, query levels and coordinates is infinite; uniqueness/coverage is a statement about all leaves of all trees", "anchors": ["include/Tree.hpp", "src/Tree.cpp", "Tree::find_leaf(int, VectorXi, VectorXi)", "Tree::refine", "Tree::unrefine"]}
{"id": "C02", "title": "find_leaf(position) locates every point of the closed domain", "statement": "find_leaf(nominal_position) returns nullptr exactly when the position is outside the closed nominal box of the element it is called on, and otherwise returns a leaf whose closed nominal box contains the position.", "quantifier": "every tree reachable by refine/unrefine, every root size > 0, every origin, every real position", "why_tests_cant": "infinitely many positions and trees, including positions exactly on shared faces", "anchors": ["include/Tree.hpp", "src/Tree.cpp", "Tree::find_leaf(Mat<>)", "Tree::nominal_position", "Tree::nominal_size"]}
{"id": "C03", "title": "find_neighbor returns the leaf across the requested face/edge/vertex", "statement": "find_neighbor(direction) on any tree element returns the unique leaf that touches this element's lowest-coordinate corner on the requested side, and nullptr exactly when the side lies on the boundary of the root cell.", "quantifier": "every reachable tree, every element of it, every direction in {-1,0,1}^n_dim", "why_tests_cant": "all tree shapes and refinement-level differences (unbounded) must be covered", "anchors": ["include/Tree.hpp", "src/Tree.cpp", "Tree::find_neighbor"]}
{"id": "C04", "title": "find_neighbors is complete, exact and duplicate-free", "statement": "find_neighbors(direction) returns every leaf that borders this element in that direction, nothing else, and nothing twice; it is empty exactly at the domain boundary. For face directions between leaves the relation is symmetric: b is in a.find_neighbors(d) iff a is in b.find_neighbors(-d).", "quantifier": "every reachable tree, every element, every direction in {-1,0,1}^n_dim, arbitrary level jumps between neighbours", "why_tests_cant": "completeness quantifies over all leaves of all trees", "anchors": ["include/Tree.hpp", "src/Tree.cpp", "Tree::find_neighbors", "Tree::add_extremal_leves"]}
{"id": "C05", "title": "flood_fill from a leaf terminates and marks exactly the connected region", "statement": "flood_fill(s) called on a leaf always terminates; afterwards the leaves with a changed status are exactly those unprocessed leaves reachable from the start through face-adjacent unprocessed leaves, all of them have status s, and every element that already had a status (the barrier) keeps it. If the start is already processed nothing changes.", "quantifier": "every reachable tree, every assignment of statuses, every start leaf, every s != unprocessed", "why_tests_cant": "reachability and termination over arbitrary graphs of leaves", "anchors": ["include/Tree.hpp", "src/Tree.cpp", "Tree::flood_fill", "Tree::set_status", "Tree::clear_status"]}
{"id": "C06", "title": "flood_fill on a non-leaf starts from the lowest leaf descendant instead", "statement": "Documented: if the element flood_fill is called on is not a leaf, it instead starts on the leaf descendant with the smallest coordinates. (The code also processes the non-leaf element itself and its neighbours, so the documented behaviour can be violated.)", "quantifier": "every reachable tree, every non-leaf element, every status assignment", "why_tests_cant": "needs all tree shapes/status patterns; the violation needs a particular barrier layout tests never build", "anchors": ["include/Tree.hpp", "src/Tree.cpp", "Tree::flood_fill"]}
{"id": "C07", "title": "Tree refine/unrefine bookkeeping", "statement": "refine() on a leaf yields exactly 2^n_dim children at level+1 whose cells partition the parent's cell, on a non-leaf it is rejected; unrefine() after refine() restores the element; count() is 1 plus the counts of the children and every element's parent/coordinates/level stay consistent under any history.", "quantifier": "every number of dimensions and every history of operations", "why_tests_cant": "histories are unbounded", "anchors": ["include/Tree.hpp", "src/Tree.cpp", "Tree::refine", "Tree::unrefine", "Tree::count", "Tree::nominal_size"]}
{"id": "C08", "title": "Mesh-file tree section round-trips", "statement": "Writing the refinement tree to the mesh file and reading it back yields a tree with the same shape, coordinates, statuses and element association; child indices in the file never dangle or alias.", "quantifier": "every tree and every element/status assignment", "why_tests_cant": "all shapes; file format correctness is a round-trip law", "anchors": ["src/Accessible_mesh.cpp", "Accessible_mesh::write (write_tree)", "Accessible_mesh::read_file (read_tree)"]}
{"id": "C09", "title": "A HIL variable has exactly one type for life and lookup returns the latest assigned value", "statement": "Under any sequence of create/assign/assign_default/lookup calls a name has at most one type; assign to an existing name with an inconvertible type is rejected without changing anything, int is promoted when assigned to a float variable, lookup returns the last assigned value, and other variables are never affected.", "quantifier": "every history of namespace operations over all names and values", "why_tests_cant": "histories and interleavings of names are unbounded", "anchors": ["include/Namespace.hpp", "Namespace::create", "Namespace::assign", "Namespace::assign_default", "Namespace::lookup"]}
{"id": "C10", "title": "Sub-namespaces see but never modify their parents' variables", "statement": "Assignments in a namespace never change the variables of the namespaces it inherits from; a lookup returns the local variable if there is one and otherwise a super-namespace's variable.", "quantifier": "every tree of namespaces, every history of assignments", "why_tests_cant": "arbitrary nesting and histories", "anchors": ["include/Namespace.hpp", "Namespace::exists_recursive", "Namespace::lookup", "Namespace::assign"]}
{"id": "C11", "title": "HIL expressions follow precedence and left associativity for every expression", "statement": "Executing the text of any expression made of integer literals, binary operators and parentheses gives the value determined by the documented precedence table with left associativity (a - b - c = (a-b)-c; * before +; comparison after arithmetic; parentheses override).", "quantifier": "every expression tree, any size, any spacing", "why_tests_cant": "infinitely many expressions", "anchors": ["include/Interpreter.hpp", "src/Interpreter.cpp", "Interpreter::_eval", "Interpreter::Interpreter (operator tables)", "doc/hil.dox"]}
{"id": "C12", "title": "HIL string literals quote arbitrary text", "statement": "A string literal formed by braces evaluates to exactly the quoted text: balanced inner braces are kept, and a backslash lets any character (including unbalanced braces) be quoted, so every string value has a literal that evaluates to it.", "quantifier": "every string", "why_tests_cant": "all strings", "anchors": ["include/Interpreter.hpp", "src/Interpreter.cpp", "Interpreter::_eval"]}
{"id": "C13", "title": "HIL arithmetic type rules", "statement": "A binary arithmetic/comparison operator applied to two ints gives an int; if either operand is float it gives the float result on the promoted operands; any other combination raises a HIL exception; comparison results are 0 or 1 and !=, ==, <, <=, >, >= are mutually consistent.", "quantifier": "every operator and every pair of values", "why_tests_cant": "all values of all types", "anchors": ["include/Interpreter.hpp", "src/Interpreter.cpp", "Interpreter::_arithmetic_op", "Interpreter::_comparison_op", "Interpreter::_general_eq", "Interpreter::_general_add", "Interpreter::_mod"]}
{"id": "C14", "title": "A HIL exception runs the handler and the statements after the failing one, and only those", "statement": "If a statement raises a HIL exception while `except` is set, the rest of that statement is discarded, the handler runs with `exception` set to the message, both are reset, and execution resumes with the next statement; if `except` is empty the exception reaches the caller and earlier statements' effects persist.", "quantifier": "every program (list of statements) and every handler", "why_tests_cant": "all programs and failure positions", "anchors": ["include/Interpreter.hpp", "src/Interpreter.cpp", "Interpreter::exec"]}
{"id": "C15", "title": "Two-sided pointers are always mutually consistent", "statement": "After any history of construction, destruction, pairing, unpairing, moves and move-assignments of Mutual_ptr objects, every non-null Mutual_ptr's partner points back at it (no dangling or one-sided pointer), and a partner is shared by no two objects.", "quantifier": "every history of operations on any number of Mutual_ptr objects", "why_tests_cant": "history-dependent pointer aliasing", "anchors": ["include/Mutual_ptr.hpp", "Mutual_ptr::pair", "Mutual_ptr::unpair", "Mutual_ptr::operator=", "Mutual_ptr::~Mutual_ptr"]}
{"id": "C16", "title": "Vertex merging keeps the neighbour graph symmetric and conserves mass-weighted position", "statement": "After any history of connecting, eating (merging) and destroying vertices, the neighbour relation is symmetric and irreflexive, merging never loses a record or an owner, the merged mass is the sum of masses and the merged position is the mass-weighted mean (so a merged vertex is the mean of all the original vertices, in whichever order they were merged).", "quantifier": "every history of connect/eat/disconnect operations", "why_tests_cant": "arbitrary merge orders and graphs", "anchors": ["include/Vertex.hpp", "src/Vertex.cpp", "Vertex::eat", "Vertex::connect", "Vertex::Transferable_ptr"]}
{"id": "C17", "title": "Element containers never confuse serial numbers", "statement": "After any history of emplace and purge, at(ref_level, serial) returns the element created with that (ref_level, serial) iff it has not been purged and otherwise reports an error; serial numbers are never reused; elements() lists the survivors in creation order.", "quantifier": "every history of emplace/purge", "why_tests_cant": "unbounded histories", "anchors": ["include/Element_container.hpp", "Complete_element_container"]}
{"id": "C18", "title": "Concatenated/viewed sequences index exactly like the concatenation", "statement": "Concatenation of sequences has size equal to the sum of the sizes and operator[](i) addresses exactly the i-th element of the concatenation, for every i below the size; nested concatenations behave alike.", "quantifier": "all sequences and indices", "why_tests_cant": "all lengths and nestings", "anchors": ["include/Sequences.hpp", "Concatenation", "Sequence"]}
{"id": "C19", "title": "Row traversal visits every quadrature point exactly once per dimension", "statement": "For every n_dim, row_size >= 1 and dimension, iterating the row index from 0 to its end visits row_size^(n_dim-1) rows whose row_size points together enumerate every quadrature point exactly once, and the face quadrature point index enumerates the face's points exactly once in the same order as the tensor ordering with that dimension removed.", "quantifier": "all n_dim, row_size, i_dim", "why_tests_cant": "all sizes; tests sample a few", "anchors": ["include/Row_index.hpp"]}
{"id": "C20", "title": "Tensor-product operators equal the mathematical Kronecker product", "statement": "hypercube_matvec applies the matrix along every dimension, i.e. equals the Kronecker power of the matrix acting on the vector; dimension_matvec acts on one dimension only; applications along different dimensions commute; pow_outer is the outer power.", "quantifier": "all matrices, vectors and numbers of dimensions", "why_tests_cant": "infinitely many sizes and entries", "anchors": ["include/math.hpp", "src/math.cpp", "hypercube_matvec", "dimension_matvec", "pow_outer"]}
{"id": "C21", "title": "Integer power and logarithm", "statement": "math::pow(b, n) is b^n for every n >= 0 ; math::log(base, arg) is the least n >= 0 with base^n >= arg when base >= 2, and -1 when base < 2, without overflow as long as that power is representable.", "quantifier": "all integers in range", "why_tests_cant": "all integer pairs", "anchors": ["include/math.hpp", "math::pow", "math::log"]}
{"id": "C22", "title": "Bisection always keeps the root bracketed", "statement": "math::bisection on a bracket with a sign change always keeps a bracket with a sign change, halves it every iteration, stops, and returns an end of a bracket with a sign change no wider than the tolerance (so within the tolerance of a root of a continuous function).", "quantifier": "all functions, brackets and tolerances", "why_tests_cant": "all functions", "anchors": ["include/math.hpp", "math::bisection"]}
{"id": "C23", "title": "Face vertex matching is a consistent bijection between the two sides of any connection", "statement": "For every legal connection direction the list of vertices on one side is matched one-to-one with those on the other side, and matched faces are parametrised consistently: going from one side's face numbering to the other's and back is the identity (match then restore leaves face data unchanged).", "quantifier": "every n_dim in {1,2,3}, every legal connection direction, every row size and face data", "why_tests_cant": "all row sizes and all data values", "anchors": ["src/connection.cpp", "include/connection.hpp", "include/Spatial.hpp (Face_permutation)", "vertex_inds"]}
{"id": "C24", "title": "Shared-face numerical flux is conservative", "statement": "For any two neighbouring elements and any face state, the normal flux leaving one element through the shared face equals the flux entering the other, so interior faces create or destroy no mass, momentum or energy.", "quantifier": "all face states, directions and normals", "why_tests_cant": "all states", "anchors": ["include/Spatial.hpp (Neighbor, Neighbor_reconcile)"]}
{"id": "C25", "title": "Element data blocks never overlap and fill the storage exactly", "statement": "The pointers handed out by an element (state, stages, time step scale, artificial viscosity, forcing, advection state, residual cache, face data) address pairwise disjoint blocks inside its allocated storage for every parameter combination where they are documented as separate, and the variable numbers by which the equations address them lead to the same blocks. Face data of hanging-node connections fits for every row size up to 2*n_dim + 6, which includes all that the default build admits.", "quantifier": "all storage parameters", "why_tests_cant": "all parameter combinations", "anchors": ["include/Storage_params.hpp", "src/Storage_params.cpp", "src/Element.cpp", "include/Element.hpp"]}
{"id": "C26", "title": "History_monitor bounds the recent history", "statement": "After any sequence of samples at nonnegative iterations, add_sample has returned and min()/max() are exactly the least and greatest of the retained samples. These are the recorded samples inside the window, except that at most one of them (the oldest) may be missing for lack of space; the latest recorded sample is always among them, and a sample that is not recorded lies within the documented spacing of a recorded one.", "quantifier": "all sample sequences, all window sizes strictly between 0 and 1, all buffer sizes", "why_tests_cant": "unbounded histories", "anchors": ["src/History_monitor.cpp", "include/History_monitor.hpp"]}
{"id": "C27", "title": "Wall layers fill the column", "statement": "Extruding with a layer sequence whose wall layers take at most half of the height produces exactly n_layers() layers of positive height which together fill the column, all but the one at the wall as high as spacing() says, and outside the wall layers each twice as high as the previous. (The documentation also says that the heights of the sequence itself sum to 1 and does not limit the wall layers; both fail.)", "quantifier": "all wall spacings in (0,1/2] and wall-layer counts with product at most 1/2", "why_tests_cant": "continuum of parameters", "anchors": ["src/Layer_sequence.cpp", "include/Layer_sequence.hpp"]}
{"id": "C28", "title": "Nearest-point search returns a true nearest point", "statement": "A geometry's nearest_point never returns a point farther away than any other point of the geometry within the search radius, merging candidates in any order gives the same distance, and for compound geometries the result is the best of the components.", "quantifier": "all geometries, query points, radii, guesses", "why_tests_cant": "continuum of inputs, all candidate orders", "anchors": ["include/Nearest_point.hpp", "src/Surface_geom.cpp", "include/Simplex_geom.hpp", "src/Simplex_geom.cpp"]}
{"id": "C29", "title": "Ray/surface intersection search misses no simplex", "statement": "Simplex_geom::intersections reports every intersection between a line and the simplices: the bounding-volume recursion never discards a cell that contains an intersected simplex.", "quantifier": "all simplex sets, all lines, all domain sizes", "why_tests_cant": "continuum of inputs, any nesting depth", "anchors": ["include/Simplex_geom.hpp", "src/Simplex_geom.cpp", "math::intersects", "math::bounding_ball"]}
{"id": "C30", "title": "Mesh validity report is exact", "statement": "valid() reports zero missing and zero redundant connections iff every element face has exactly one connection; otherwise n_missing and n_redundant count the unconnected faces and the surplus connections.", "quantifier": "all sets of elements and connections", "why_tests_cant": "all meshes", "anchors": ["src/Accessible_mesh.cpp", "Accessible_mesh::valid", "Connection_validity"]}
{"id": "C31", "title": "Refinement-level smoothing terminates in a 2:1 balanced mesh", "statement": "The refinement smoothing loop in update() always terminates, never refines beyond the largest existing level, and on exit no element has a neighbour more than one level finer.", "quantifier": "all trees and all refinement requests", "why_tests_cant": "all meshes; termination", "anchors": ["src/Accessible_mesh.cpp", "Accessible_mesh::update", "Accessible_mesh::needs_refine"]}
{"id": "C32", "title": "Removal of bad extrusion sites is order independent", "statement": "Claimed in a comment: deletion of elements that would give bad extrusions gives repeatable results independent of element order and thread schedule.", "quantifier": "all meshes, all processing orders", "why_tests_cant": "all schedules", "anchors": ["src/Accessible_mesh.cpp", "Accessible_mesh::delete_bad_extrusions"]}
{"id": "C33", "title": "Characteristic decomposition is exact", "statement": "The characteristic decomposition of a flow state splits any state into three parts that add up to it, each an eigenvector of the normal inviscid flux Jacobian with eigenvalue v_n - c, v_n + c or v_n.", "quantifier": "all admissible states and normals", "why_tests_cant": "continuum of states", "anchors": ["include/pde.hpp", "Navier_stokes::Characteristics"]}
{"id": "C34", "title": "Estimated characteristic speed never underestimates the physical one", "statement": "The speed used for the time-step limit is at least |v| + c for every admissible flow state, so the CFL restriction is never violated by an underestimate.", "quantifier": "all admissible states", "why_tests_cant": "continuum of states", "anchors": ["include/pde.hpp", "Navier_stokes::char_speed"]}
{"id": "C35", "title": "Wall boundary conditions let nothing through", "statement": "For the nonpenetration wall the average of interior and ghost normal momentum is zero so the wall mass and energy flux vanish; reflecting twice is the identity; for the no-slip wall average momentum is zero. For advected scalars walls let nothing through and leave the scalars unchanged; open boundaries keep the velocity and fix the scalars to one.", "quantifier": "all interior states and normals", "why_tests_cant": "continuum of states", "anchors": ["src/Boundary_condition.cpp", "Nonpenetration", "No_slip"]}
{"id": "C36", "title": "Admissibility repair only returns repaired states", "statement": "fix_admissibility either throws or returns, in bounded iterations, with the state admissible at the checks it performed; it reports whether anything was repaired and leaves the artificial-viscosity coefficients as they were.", "quantifier": "all initial states and all behaviours of the smoothing pass", "why_tests_cant": "all numerical behaviours", "anchors": ["src/Solver.cpp", "Solver::fix_admissibility", "Solver::is_admissible"]}
{"id": "C37", "title": "Lagrange interpolation is exact on polynomials", "statement": "Basis::interpolate reproduces nodal values at nodes, preserves constants, and is exact for every polynomial of degree < row_size; the Equidistant differentiation matrix is exact on the same polynomials.", "quantifier": "all polynomials, all node sets, all sample points", "why_tests_cant": "continuum", "anchors": ["src/Basis.cpp", "src/Equidistant.cpp"]}
{"id": "C38", "title": "Case update schedule lands on print_freq multiples", "statement": "Each update of a case stops at the first later multiple of print_freq (the very first update makes one iteration), from wherever it starts. In a run the report is printed at every multiple of print_freq once and in order, the data written and the flow visualized at exactly the common multiples of print_freq and their own frequency, and the monitors receive increasing nonnegative iterations.", "quantifier": "all positive frequencies, all numbers of iterations, all starting iterations", "why_tests_cant": "unbounded histories", "anchors": ["src/Case.cpp"]}
{"id": "C39", "title": "Exported polymesh is well formed", "statement": "Exporting a three-dimensional mesh in the OpenFOAM format yields a well-formed polyhedral mesh: one face for each connection between elements and for each boundary connection, each interior face has owner < neighbour which are the elements it joins, its vertices are those of the finer element's face and are ordered so that the normal points out of the owner, boundary patches partition the boundary faces contiguously in the order of the boundary conditions, and if every face of every element is connected once then the faces of every cell, including coarse cells at hanging faces, close.", "quantifier": "all meshes with conformal, hanging and boundary connections in any orientation, all vertex positions", "why_tests_cant": "all meshes and directions", "anchors": ["src/Accessible_mesh.cpp", "Accessible_mesh::export_polymesh"]}
{"id": "C40", "title": "Numeric file reader returns the table that was written", "statement": "read_csv returns exactly the numbers of a well-formed rectangular comma-separated table, and malformed input is rejected rather than misread.", "quantifier": "all tables", "why_tests_cant": "all inputs", "anchors": ["src/read_csv.cpp"]}
{"id": "C41", "title": "Macro substitution in HIL is textual substitution of the operand's value", "statement": "Executing `$e rest`, where e is an operand that evaluates to a string s, has the same effect as executing the text s followed by rest with its leading spaces removed, at any point of a program and for every e.", "quantifier": "all operand expressions, all string values, all continuations, all interpreter states", "why_tests_cant": "the operand, its value and the continuation are arbitrary texts", "anchors": ["src/Interpreter.cpp", "Interpreter::_eval", "doc/hil.dox"]}
{"id": "C42", "title": "A hanging-node connection joins each fine element to the mortar face and the vertices at its own place", "statement": "For every connection of one coarse face to the fine faces that cover it - any dimension, direction, order of the two sides, and choice of tangential directions not split - each fine element is joined to the mortar face lying where that element lies, and every vertex merged is merged with the one at the same point of the shared face.", "quantifier": "every n_dim in {1,2,3}, every legal connection direction, fine-first or coarse-first, every stretching of the tangential directions", "why_tests_cant": "the directions, orders and stretchings combine, and a unit test compares indices with a hand-made list instead of with positions in space", "anchors": ["include/connection.hpp", "Refined_connection", "src/connection.cpp", "vertex_inds", "math::stretched_ind"]}
{"id": "C43", "title": "Hanging vertices get the multilinear interpolation of the coarse face", "statement": "After matching hanging vertices, the value at each vertex of each fine element on the face is the multilinear interpolation, at that vertex's position on the coarse face, of the values at the coarse face's corners; corner values are unchanged and no other vertex is touched.", "quantifier": "n_dim 2 and 3, every face, every stretching, all vertex values", "why_tests_cant": "all values; all combinations of face and stretching", "anchors": ["src/Hanging_vertex_matcher.cpp", "include/Hanging_vertex_matcher.hpp", "math::hypercube_matvec", "math::stretched_ind"]}
{"id": "C44", "title": "Moving data between a coarse face and the fine faces covering it is conservative and loses nothing that was coarse", "statement": "For every quadrature rule exact to the advertised degree: interpolating a polynomial of degree < row_size from a face to its halves is exact; projecting the halves back recovers it; projecting any data (polynomial or not) preserves the integral, and the difference is orthogonal to every polynomial of degree < row_size.", "quantifier": "all row sizes, all quadrature rules exact to degree 2*row_size-1 (resp. 2*row_size-2 / row_size), all data", "why_tests_cant": "unbounded row sizes and arbitrary data; a test checks generated numbers to a tolerance", "anchors": ["script/Basis.py", "Basis.prolong", "Basis.restrict", "script/auto_generate.py"]}
{"id": "C45", "title": "The derivative operator of the DG scheme is conservative and exact", "statement": "The integral over the element of the computed derivative equals the difference of the two face values supplied, whatever the interior values are; the derivative of a polynomial of degree < row_size with its own face values is exact, also if it is computed from the interior values alone; interior and boundary contributions add up to the whole.", "quantifier": "all row sizes, all quadrature rules with exactness row_size-1 or higher, all interior and face data", "why_tests_cant": "arbitrary data and sizes", "anchors": ["include/Derivative.hpp", "Derivative::operator()"]}
{"id": "C46", "title": "The modal filter damps high modes, keeps the mean, and never amplifies", "statement": "The orthogonal-polynomial table of a basis is orthonormal in its quadrature; the filter matrix multiplies mode m by 2^-m; filtering preserves the integral of any nodal data; and it never increases its quadrature norm.", "quantifier": "all row sizes, all rules with positive weights exact to degree 2*row_size-3 (Gauss-Legendre and Gauss-Lobatto), all data", "why_tests_cant": "all sizes and all data", "anchors": ["script/Basis.py", "Basis.legendre", "Basis.filter", "script/auto_generate.py"]}
{"id": "C47", "title": "Inviscid time steps conserve mass, momentum and energy", "statement": "On every valid mesh of Cartesian and deformed elements with hanging-node faces, from every state, with every time step: the total of each conserved variable changes in a two-stage step by exactly the source minus the flux through the boundary faces (the stated average of the two stages' boundary fluxes); in a closed domain totals never change over any number of steps; and with local time stepping a converged solution has zero net boundary flux.", "quantifier": "all dimensions, row sizes, quadrature rules of the advertised exactness, valid meshes, states, step sizes, numbers of steps, filter on or off", "why_tests_cant": "the meshes and states are unbounded; a test evaluates a residual on a few meshes to a tolerance", "anchors": ["include/Spatial.hpp", "Spatial::Local", "Spatial::Neighbor", "Spatial::Restrict", "Spatial::Prolong", "src/pde_kernels.cpp", "compute_euler"]}
{"id": "C48", "title": "Viscous time steps conserve mass, momentum and energy", "statement": "The same for a stage with diffusion (LDG gradient, reconciled fluxes, laplacian artificial viscosity): the change of the total is the source minus the convective and the average diffusive flux through the boundary faces; totals in a closed domain never change.", "quantifier": "all dimensions, row sizes, rules, valid meshes, states, transport coefficients, step sizes, numbers of steps", "why_tests_cant": "unbounded meshes and states; two passes over faces with sign conventions that can compensate on symmetric test meshes", "anchors": ["include/Spatial.hpp", "Spatial::Reconcile_ldg_flux", "Spatial::Neighbor_reconcile", "Spatial::Local", "compute_navier_stokes"]}
{"id": "C49", "title": "The result of a time step does not depend on the order in which elements and connections are processed", "statement": "For every valid mesh, processing the elements, the connections and the refined faces in any other order (including any parallel schedule equivalent to some order, since no two items write the same storage) gives exactly the same state.", "quantifier": "all permutations of elements, connections and refined faces, all meshes and states, all kernels of a step", "why_tests_cant": "the number of orders is factorial and the mesh unbounded; tests run one order", "anchors": ["include/Spatial.hpp", "include/Kernel_mesh.hpp", "src/pde_kernels.cpp"]}
{"id": "C50", "title": "The viscous flux is the Navier-Stokes viscous flux", "statement": "From the conserved variables and their gradients the code computes the gradients of velocity and temperature exactly as calculus gives them, and from these the Newtonian stress, its work and Fourier heat conduction; the artificial viscosities are those that the element stores, and the diffusivity that limits the time step is made of the same coefficients; viscous dissipation is never negative; Sutherland's law gives the reference viscosity at the reference temperature and is never negative.", "quantifier": "all states with nonzero density, gradients, dimensions, transport laws", "why_tests_cant": "continuum of states and gradients", "anchors": ["include/pde.hpp", "Navier_stokes::Pde::compute_flux_diff", "src/Transport_model.cpp", "include/Transport_model.hpp"]}
{"id": "C51", "title": "Mass and energy are kept in a domain bounded by walls", "statement": "In a domain bounded by nonpenetration and no-slip walls, running any number of time steps with any step sizes never changes the total mass, and changes the total energy only by the prescribed wall heat flux times area times time; not at all when walls are insulated or the gas inviscid.", "quantifier": "all meshes with any shape and any hanging-node structure, all states, step sizes, numbers of steps", "why_tests_cant": "unbounded meshes, states and histories", "anchors": ["src/Solver.cpp", "Solver::update", "Solver::apply_state_bcs", "Solver::apply_flux_bcs", "src/Boundary_condition.cpp"]}
{"id": "C52", "title": "Inflow and outflow boundaries impose exactly the incoming waves and always give a physical ghost state", "statement": "The Riemann-invariant boundary condition adds to the interior state exactly the incoming waves of the jump to the freestream: the free stream is undisturbed, a supersonic outflow is left alone, a supersonic inflow is the freestream; whatever the freestream, the ghost state has at least half the density and half the pressure of the interior. Its diffusive flux has exactly the incoming waves of the flux inside. The pressure outflow imposes the prescribed pressure on subsonic outflow and keeps mass and momentum.", "quantifier": "all admissible interior states, all freestreams, all normals, both sides, all dimensions", "why_tests_cant": "continuum of states", "anchors": ["src/Boundary_condition.cpp", "Riemann_invariants", "Pressure_outflow"]}
{"id": "C53", "title": "The discretization is exact on polynomials and preserves uniform and steady flow", "statement": "On a mesh of cubes with hanging faces, if the flow variables and fluxes are polynomials of degree at most row_size - 1 in each coordinate, one stage changes the flow by exactly the time step times the right-hand side of the differential equation at every quadrature point, and leaves exact face values. Steady states of that kind never change. In particular uniform flow stays uniform through any number of steps of viscous or inviscid flow with free-stream, characteristic or outflow boundaries, whatever the step sizes, local time step scales and filter.", "quantifier": "all meshes of cubes in 1 to 3 dimensions with any hanging-face structure, all quadrature rules exact to the needed degree, all PDEs with local fluxes, all polynomial fields, all step sizes and numbers of steps", "why_tests_cant": "unbounded meshes, polynomial degrees and histories", "anchors": ["include/Spatial.hpp", "Spatial::Local", "Spatial::Neighbor", "Spatial::Prolong_refined", "Spatial::Restrict_refined", "Spatial::Write_face", "src/Solver.cpp", "Solver::update", "src/Boundary_condition.cpp"]}
{"id": "C54", "title": "The numerical flux is upwind and keeps states physical", "statement": "For any two states with positive density and pressure on the two sides of a face, and any face normal, a state that receives its own flux and gives off the numerical flux keeps positive density and pressure as long as the step times the signal speed times the face area is at most 1. The numerical flux of the advection equation increases with the quantity inside and decreases with the quantity outside.", "quantifier": "all pairs of admissible states, all normals, all dimensions, all step sizes up to the limit", "why_tests_cant": "continuum of states; a counterexample would be at extreme pressure or density ratios", "anchors": ["include/Spatial.hpp", "Spatial::Neighbor", "include/pde.hpp", "Navier_stokes::Pde::compute_char_speed", "Advection"]}
{"id": "C55", "title": "Connections always match the elements, through every history of building, purging and closing a mesh", "statement": "Starting from an empty mesh, through any sequence of adding elements, connecting them (conformal, deformed, hanging-node, boundary), disconnecting boundaries, purging and connecting the rest, no call is undefined; every connection joins faces of elements that exist; each connect call adds exactly the requested pairing of faces and no other; a failing call leaves elements and connections alone; purge removes exactly the chosen elements and the connections that touch them; connect_rest gives exactly the open faces one boundary connection each; and each element face refers to the storage of its connection and to nothing if it has none.", "quantifier": "all histories of calls in 1 to 3 dimensions with any elements, levels, serial numbers and predicates", "why_tests_cant": "unbounded histories", "anchors": ["src/Accessible_mesh.cpp", "Accessible_mesh::connect_cartesian", "Accessible_mesh::connect_deformed", "Accessible_mesh::connect_hanging", "Accessible_mesh::connect_rest", "Accessible_mesh::purge", "include/connection.hpp", "include/Mesh_by_type.hpp"]}
{"id": "C56", "title": "The kernels see every connection exactly once", "statement": "Looping over the kernel connections of the Cartesian and of the deformed part of the mesh visits every conformal connection, every fine part of every hanging-node connection and every boundary connection exactly once.", "quantifier": "all meshes reachable by any history, all indices", "why_tests_cant": "unbounded meshes; index arithmetic depends on the numbers of connections of each kind", "anchors": ["include/Mesh_by_type.hpp", "Mesh_by_type::kernel_connections", "Connection_view", "include/Sequence.hpp"]}
{"id": "C58", "title": "Unrefinement merges exactly the groups of elements that agree, and spares locked ones", "statement": "After refinement, update merges elements only into a cell all of whose elements are at its children and all asked to be unrefined; elements whose unrefinement is locked are never merged; all such groups that may be merged are, unless an element bordering on the merged cell would be more than one level finer; everything else stays; and the loop ends.", "quantifier": "all trees, elements, requests and locks", "why_tests_cant": "unbounded meshes; merging one group can allow another one in a later pass", "anchors": ["src/Accessible_mesh.cpp", "Accessible_mesh::update", "include/Element.hpp", "Element::unrefinement_locked", "src/Tree.cpp", "Tree::unrefine"]}
{"id": "C59", "title": "Every history of updates leaves a mesh fit for computing", "statement": "After every call of update and set_surface, whatever a user has done before and in whatever order the threads have treated the elements, tree elements are at leaves of the tree and no two at the same one, none is left marked for deletion, neighbours differ by at most one refinement level, layers can be extruded from all exposed faces, and before a surface is set the elements cover the whole domain. The calls end, and no assertion fails and no null or dangling pointer is dereferenced on the way. Every element that is not extruded belongs to a cell.", "quantifier": "all histories of add_tree, update with arbitrary criteria and locks, and set_surface with arbitrary surfaces; all orders of the parallel loops", "why_tests_cant": "unbounded histories, meshes and thread schedules", "anchors": ["src/Accessible_mesh.cpp", "Accessible_mesh::update", "Accessible_mesh::set_surface", "Accessible_mesh::add_tree", "Accessible_mesh::purge"]}
{"id": "C60", "title": "set_surface keeps exactly one side of the surface and clears its surroundings", "statement": "After set_surface no element is close to the surface. On the first call, elements are kept only in leaves that can be reached from the starting point through leaves sharing faces without coming close to the surface, and exactly these leaves are marked as inside. Surfaces set before are forgotten.", "quantifier": "all meshes a user can arrive at, all surfaces and starting points, all orders of the parallel loops", "why_tests_cant": "unbounded meshes; reachability; any previous history", "anchors": ["src/Accessible_mesh.cpp", "Accessible_mesh::set_surface", "include/Mesh.hpp", "Mesh::set_surface", "src/Tree.cpp", "Tree::flood_fill"]}
{"id": "C61", "title": "Exactly the elements that have to be deformed are deformed", "statement": "After update and set_surface the deformed tree elements are those with a face towards a missing element, their neighbours through faces in other dimensions, and those required so that the neighbours of a deformed element through one face are all deformed or all not; no others. The choice depends only on which cells have elements, not on the order in which threads treat them nor on which elements were deformed before, and the computation ends without error.", "quantifier": "all meshes and all orders of the parallel loops", "why_tests_cant": "least fixed point over unbounded meshes, computed by racing threads", "anchors": ["src/Accessible_mesh.cpp", "Accessible_mesh::deform"]}
{"id": "C57", "title": "Every face of every tree element is connected exactly once and to the right elements", "statement": "After every call of update and set_surface every face of every element of the tree is an end of exactly one connection. If the elements on the other side are of the same refinement level the connection is conformal; if they are finer it has hanging nodes and joins the coarse face with all of the finer ones in the natural order of the quarters of the face; at the end of the domain it is a boundary connection with the condition given for that side; and where there is no element it is with an extruded element. It is of the deformed kind exactly if all its elements are deformed. No assertion fails.", "quantifier": "all histories of add_tree, update and set_surface in 2D and 3D; all sets of connections left over from before", "why_tests_cant": "unbounded meshes and histories; the order in which elements are connected decides which connection is made from which side", "anchors": ["src/Accessible_mesh.cpp", "Accessible_mesh::connect_new", "Accessible_mesh::purge", "include/connection.hpp", "Refined_connection", "src/Accessible_mesh.cpp", "Accessible_mesh::extrude"]}
{"id": "C62", "title": "GMRES minimises the residual and stays in its storage", "statement": "Called for a linear equation with a finite guess and right-hand side, GMRES does not access vectors the equation does not have. If it leaves a finite solution, the residual is not larger than that of the guess; after one round it is the smallest that can be reached by adding a combination of the first n_restart Krylov vectors of the initial residual, and with as many steps as unknowns and an invertible operator the equation is solved. The right-hand side is unchanged. A guess that already solves the equation is kept.", "quantifier": "all real inner product spaces, linear operators, guesses, right-hand sides, numbers of steps and of rounds, and all correct least squares routines", "why_tests_cant": "quantifies over every operator and dimension; optimality compares with infinitely many candidate solutions", "anchors": ["include/iterative.hpp", "src/iterative.cpp", "iterative::gmres", "include/Linear_equation.hpp", "Linear_equation", "src/Solver.cpp", "Solver::update_implicit"]}
{"id": "C63", "title": "BiCGStab keeps the true residual and minimises it along its direction", "statement": "Called for a linear equation with a finite guess and right-hand side, BiCGStab rejects equations with fewer than eight vectors and never accesses vectors the equation does not have. As long as the solution is finite, the vector maintained as the residual is the residual of the solution, and each iteration goes to a point whose residual is orthogonal to the initial residual and then along that residual to where the new residual is smallest. A solved equation stays solved when more iterations are asked for.", "quantifier": "all real inner product spaces, linear operators, guesses, right-hand sides and numbers of iterations", "why_tests_cant": "quantifies over every operator, dimension and number of iterations", "anchors": ["include/iterative.hpp", "src/iterative.cpp", "iterative::bicgstab", "include/Linear_equation.hpp", "Linear_equation"]}
{"id": "C64", "title": "The standard atmosphere is in hydrostatic equilibrium", "statement": "For geopotential altitudes from 0 to 80 km the pressure is the one in hydrostatic equilibrium with the piecewise linear ICAO temperatures and one atmosphere at sea level, independent of the temperature offset; it decreases with altitude; density and pressure obey the ideal gas law at the ICAO temperature plus the offset; other altitudes are rejected. Geometric altitudes are converted with gravity decreasing with the square of the distance from the center of the Earth, and all from 0 to 80 km are accepted.", "quantifier": "all altitudes and temperature offsets", "why_tests_cant": "continuum of altitudes; equilibrium is a differential equation", "anchors": ["src/standard_atmosphere.cpp", "standard_atmosphere", "standard_atmosphere_geopot", "include/constants.hpp"]}
{"id": "C65", "title": "Uniform flow is preserved on curved meshes", "statement": "After calc_jacobian, the Jacobian determinants and normals of elements, faces and connections are those of the polynomial surfaces that the vertices and node adjustments define, both sides of a connection see the same normal whatever the orientation of the elements relative to each other, and a uniform flow is not changed by any number of time steps, with hanging faces, free-stream, characteristic or outflow conditions, viscosity, artificial viscosity and filter. The degree of the surfaces is limited: no limit in 2D; in 3D (n_dim - 1)*degree <= row_size + 1, or row_size if there are hanging faces, which admits straight edges for every row size. Beyond these limits, and also if the surfaces do not meet, the fine sides of a deformed hanging face still get the interpolated normal of the coarse face.", "quantifier": "all conforming meshes with hanging faces, shapes of elements, orientations, flow states, numbers and sizes of time steps", "why_tests_cant": "the metric has to cancel exactly for every shape and orientation; tests use a few meshes and tolerances", "anchors": ["src/Solver.cpp", "Solver::calc_jacobian", "src/Deformed_element.cpp", "Deformed_element::set_jacobian", "include/Spatial.hpp", "Derivative"]}
{"id": "C66", "title": "A mesh written to a file and read back is the same mesh", "statement": "write followed by constructing a mesh from the file gives a mesh with the same elements in the same order (type, refinement level, nominal position, node adjustments), the same conformal, hanging-node and boundary connections, every face connected as often as before, the same vertex positions, and vertices shared between the same corners.", "quantifier": "all meshes made by any history of calls to the mesh API in 1 to 3 dimensions, all positions and orders of elements", "why_tests_cant": "every combination of element types, orientations, stretching and order of connections must survive; tests write one mesh", "anchors": ["src/Accessible_mesh.cpp", "Accessible_mesh::write", "Accessible_mesh::read_file", "Accessible_mesh::cleanup", "include/Mesh.hpp", "Mesh::write"]}
{"id": "C67", "title": "The time step respects the stability limits everywhere", "statement": "With one time step for the mesh, the computed limit is the largest time for which the convective and diffusive numbers, each divided by its safety factor, add up to at most one at every quadrature point; with local time steps every point gets exactly its own limit. n Chebyshev sub-iterations cover n^2 nominal steps and never amplify an error mode for which one nominal step is stable. In every step of update the convective number of every point is at most max_safety. The flow time grows by exactly the time steps taken, and no time step is longer than max_time_step.", "quantifier": "all meshes, states, bases, numbers of sub-iterations and behaviours of the flow solver, exact arithmetic", "why_tests_cant": "the limit is a minimum over all points of all elements and states; stability of the sub-iterations is a statement about polynomials of every degree", "anchors": ["include/Spatial.hpp", "Spatial::Max_dt", "src/kernels_max_dt.cpp", "src/Solver.cpp", "Solver::max_dt", "Solver::update", "src/math.cpp", "math::chebyshev_step", "include/math.hpp", "math::interp"]}
{"id": "C68", "title": "The implicit update solves the linearized equations", "statement": "The operator given to the iterative solver is the finite difference of the residual at the current state, its right-hand side is the residual at that state, applying it changes nothing but the output vector, the inner product is symmetric and positive with the freestream as reference scale, and the solution is added to the current state.", "quantifier": "all flow solvers (arbitrary update functions), states, vectors, meshes and finite difference sizes, exact arithmetic", "why_tests_cant": "the operator must be right for every state and direction, and aliasing of input and output vectors shows only in particular calls", "anchors": ["src/Linearized.cpp", "Solver::Linearized", "Solver::Linearized::matvec", "src/Solver.cpp", "Solver::update_implicit", "include/Linear_equation.hpp"]}
{"id": "C69", "title": "A simulation restarted from a state file continues as if it had not been stopped", "statement": "A state file holds all numerical data of all elements. Reading it into a solver with the same mesh and parameters restores every value in its place, and from there the same time steps give the same states as in the run that was not interrupted. A file with too few elements, variables or points makes reading throw.", "quantifier": "all meshes, states, histories of time steps before and after, contents of the memory of the reading solver, file extents; exact arithmetic", "why_tests_cant": "what the reading solver has in its face storage and memory depends on the history of the process, so a test only sees one content", "anchors": ["src/Solver.cpp", "Solver::read_state", "Solver::write_state", "Solver::initialize", "Solver::read_mesh", "include/Solver.hpp"]}
{"id": "C70", "title": "Uncertainty of layers reaches the elements below, whatever the threads do", "statement": "synch_extruded_uncert ends, no matter how the iterations of its parallel loop interleave, and even if updates are lost. Afterwards each element has at least the uncertainty of every element in the layers extruded from it, up to 1e-14 per layer, and no more than the greatest of them; no uncertainty has been lowered and elements nothing was extruded from are unchanged. Two runs differ by at most 1e-14 per layer. It also ends with infinite values and NaN.", "quantifier": "all interleavings of atomic reads and writes in every pass, all numbers of connections and arrangements of layers, all values including NaN", "why_tests_cant": "interleavings are chosen by the scheduler and cannot be enumerated by running the code", "anchors": ["src/Solver.cpp", "Solver::synch_extruded_uncert", "include/Accessible_mesh.hpp", "Accessible_mesh::extruded_connections"]}
{"id": "C71", "title": "Elements inherit the requests and locks of the elements extruded from them", "statement": "In update, an element is refined if and only if it or an element extruded from it asks for it, and its unrefinement is locked if and only if one of them is locked; whether it asks for unrefinement depends only on the requests, not on the order in which threads treat the elements.", "quantifier": "all requests, locks and orders of the parallel loop, all numbers of elements extruded from the same one", "why_tests_cant": "the order is chosen by the thread scheduler", "anchors": ["src/Accessible_mesh.cpp", "Accessible_mesh::update", "include/Mesh.hpp"]}
{"id": "C72", "title": "Integrals, averages and norms that a user asks for are the exact ones", "statement": "integral_field and integral_surface return the exact integrals over the elements (or over the boundary faces with the requested boundary condition, and no others) whenever the integrand is a polynomial of a degree for which the quadrature is exact; on elements that do not overlap this is the integral over the domain, and for the constant 1 the volume. Integration is linear on any mesh. The integrals of mass, momentum and energy over a closed domain stay the same in every time step. Elem_average lies between any bounds of the function and Elem_l2 is at least its magnitude.", "quantifier": "all meshes (numbers, sizes, Jacobians of elements), dimensions, bases, polynomials, integrands, numbers of time steps", "why_tests_cant": "tests integrate a few functions on a few meshes", "anchors": ["src/Solver.cpp", "Solver::integral_field", "Solver::integral_surface", "src/Element_func.cpp", "Elem_average", "Elem_l2"]}
{"id": "C73", "title": "The modal limiter and the nonsmoothness indicator act on the Legendre modes as documented", "statement": "filter_limit reduces every Legendre mode of total degree t to at most decay_rate to the power t times the norm, leaves modes which are small enough alone, never changes the mean and never increases the norm; decay rate 1 changes nothing and decay rate 0 leaves the mean only. Elem_nonsmooth is the root mean square over the dimensions of the modes of the highest degree: zero exactly for polynomials of lower degree, unchanged by adding such, proportional to the magnitude. Its normalized variant is between 0 and 1 in elements with constant Jacobian determinant.", "quantifier": "all data, dimensions, bases with the discrete orthogonality of C05, decay rates", "why_tests_cant": "tests try a few data sets", "anchors": ["src/filter_limit.cpp", "filter_limit", "src/Element_func.cpp", "Elem_nonsmooth", "Normalized_nonsmooth"]}
{"id": "C74", "title": "Mesh quality: skewness is 0 for perfect and 1 for degenerate elements; Record reports the record", "statement": "Equiangle_skewness is the largest deviation of the angle between two edges that share a vertex from a right angle. It is between 0 and 1, 0 exactly if all edges meet at right angles and 1 exactly if some pair of adjacent edges is parallel; an element with a collapsed edge is not reported as perfect. Record returns Element::record.", "quantifier": "all Jacobian matrices at the vertices, in any dimension of at least two; all records", "why_tests_cant": "tests compute it for a few elements", "anchors": ["src/Element_func.cpp", "include/Element_func.hpp", "Equiangle_skewness", "Record"]}
{"id": "C75", "title": "Splitting wall layers cuts the elements without changing geometry, state or totals", "statement": "split_layers (and extrude with offsets) cuts each element at the exposed surface at the requested relative distances from it: positions in each layer are positions in the original element, the state in each layer is the same polynomial, exposed vertices move exactly once and elements away from the surface do not change. The integral of each variable over a column of layers is that over the original element. The documented split points (strictly increasing, between 0 and 1) cut a valid element into valid layers.", "quantifier": "all meshes, exposed faces, dimensions, bases, states, lists of split points", "why_tests_cant": "tests split a few boxes at one or two points", "anchors": ["src/Accessible_mesh.cpp", "Accessible_mesh::extrude", "src/Case.cpp", "split_layers", "include/Mesh.hpp", "doc/parameters.dox"]}
{"id": "C76", "title": "Data shared at vertices is the same from all elements and gives a continuous field", "statement": "Quantities that elements share at their vertices (time step scale, stabilizing viscosity, uncertainty, ...) come out the same from every element that has the vertex: the largest (or smallest) value any of them had, and on faces with hanging nodes the interpolation of the values of the coarse element. The field interpolated from them is continuous across all faces, stays within the bounds of the original values and does not depend on the schedule of the threads, and no element gets a value beyond its own limit.", "quantifier": "all meshes with hanging nodes, values, thread schedules, addresses of pointers", "why_tests_cant": "tests share values on a few small meshes with one schedule", "anchors": ["src/Solver.cpp", "Solver::share_vertex_data", "src/Vertex.cpp", "Vertex::shared_value", "src/Element.cpp", "src/Hanging_vertex_matcher.cpp"]}
{"id": "C77", "title": "Stabilizing artificial viscosity is bounded, vanishes in smooth flow and is never NaN", "statement": "The stabilizing viscosity that set_art_visc_admis gives an element is a continuous, monotone ramp of how much of the specific volume is in the modes of highest degree: exactly zero for polynomials of lower degree, the full value (row_size-1)*speed*size when clearly above the threshold or when the density is NaN or zero, never outside this range and independent of the unit of density. The field at the quadrature points is a continuous interpolation of the values shared at the vertices, within the same bounds, and no element gets less than it asks for. The elementwise and smoothness-based viscosities are bounded by their documented maxima, and setting them leaves the flow state unchanged.", "quantifier": "all states including NaN, meshes, sizes, row sizes, dimensions, bases, forcing", "why_tests_cant": "tests set viscosity for one or two flows and check its sign or size", "anchors": ["src/stabilizing_art_visc.cpp", "Stab_art_visc", "src/Solver.cpp", "Solver::set_art_visc_admis", "Solver::update_art_visc_elwise", "Solver::update_art_visc_smoothness"]}
{"id": "C78", "title": "Visualization data are the interpolating polynomials, and files show every element once", "statement": "Vis_data::interior, face, edges and sample give the values of the one polynomial of degree less than the row size in each coordinate that takes the given values at the quadrature points, at uniformly spaced points of the element, its faces or its edges, or at any points, in the documented layout. bounds_field gives the least and greatest value at the sample points of all elements; it is never too wide, and exact for row size 2. The files written by visualize_field and visualize_surface contain each element (edge, boundary face with the given condition) exactly once, as a block of points with interpolated positions and variables, whose cells connect neighboring points in the order of VTK, with all indices valid.", "quantifier": "all bases, row sizes, numbers of samples and variables, dimensions, meshes, functions", "why_tests_cant": "tests sample a few functions on one element and do not read the files", "anchors": ["src/Vis_data.cpp", "Vis_data::interior", "Vis_data::face", "Vis_data::edges", "Vis_data::sample", "src/Solver.cpp", "Solver::bounds_field", "Solver::visualize_field", "Solver::visualize_surface", "src/Xdmf_wrapper.cpp", "Xdmf_wrapper::write_block"]}
{"id": "C79", "title": "Reported surface stress, heat flux and aerodynamic force are those that the flow exerts", "statement": "On a boundary surface the reported normal is the unit vector into the flow, the reported viscous stress is the viscous stress tensor applied to it, and stress is that minus pressure times the normal; heat_flux is the heat conducted into the surface plus the work of viscous stress. The force that compute_force reports, for any mesh, is the momentum that the scheme lets flow through the surface per time when the boundary conditions are met there: in every time step the momentum of the gas changes by minus the time step times the force and by what flows through the other boundaries. drag, lift and side_force are the components of the force along the freestream direction and two further axes perpendicular to it and to each other, and the coefficients are these over the dynamic pressure", "quantifier": "all meshes, surfaces, bases, states, fluxes, boundary conditions that are met, freestream directions and dimensions", "why_tests_cant": "tests integrate constant functions over a few faces; that the reported force agrees with the momentum budget of the scheme has to hold for every state and mesh", "anchors": ["src/hil_properties.cpp", "hil_properties::surface", "src/Boundary_func.cpp", "Viscous_stress", "Heat_flux", "src/Surface_func.cpp", "Pressure_stress", "include/Case.hil", "compute_force", "compute_heating", "src/Solver.cpp", "Solver::integral_surface"]}
{"id": "C80", "title": "The freestream of a case is the one that was specified", "statement": "create_solver accepts a freestream given by altitude (with temperature offset) or exactly two of density, pressure and temperature, together with exactly one of velocity, speed and Mach number and a direction vector or angles of attack and sideslip, and rejects all others. Afterwards freestream_density, freestream_pressure, freestream_temperature, freestream_velocity, freestream_direction, freestream_speed, freestream_mach and freestream_sound_speed describe one gas state that agrees with everything that was given, and the state vector freestream (used by boundary conditions and the initial condition) is the conserved state of that gas", "quantifier": "all dimensions, all sets of variables that are defined and all their values", "why_tests_cant": "tests run a few input files; which of the 2^10 combinations of variables are accepted, and that the derived variables are consistent, has to hold for all values", "anchors": ["src/Case.cpp", "create_solver", "Case::_get_vector", "Case::_set_vector", "src/standard_atmosphere.cpp"]}
{"id": "C81", "title": "Quantities computed of the flow are what their names say", "statement": "Velocity, Mass, Pressure, Mach and Stag_pres return velocity, density, pressure, Mach number and stagnation pressure (the pressure after the gas is brought to rest at constant entropy and stagnation enthalpy) of the gas with the given state; the expressions velocity, speed, pressure, temperature, mach, pressure_coef, skin_friction_coef and the residuals of an input file return the same. Error functions are zero exactly where the state is the correct one. Concatenated functions return the values of each function after those of the functions before it, with their names.", "quantifier": "all states of a perfect gas with positive density and pressure, all heat ratios above one, dimensions, quadrature points, lists of functions", "why_tests_cant": "tests check a few states; formulas have to be right for all of them, and classes and input file expressions are written independently of each other", "anchors": ["src/Domain_func.cpp", "Pressure", "Mach", "Stag_pres", "Velocity", "Diff_sq", "Error_func", "src/Qpoint_func.cpp", "include/Output_data.hpp", "Concat_func", "include/Case.hil", "src/hil_properties.cpp"]}
{"id": "C82", "title": "Analytic flow fields are the flows they are named after", "statement": "The isentropic vortex of an input file is at every time and place a solution of the Euler equations, moving with the freestream, whose velocity is highest at the given radius and has there the given fraction of the speed of sound. Doublet is a flow without sources and vorticity outside of its center, the given circle is a streamline, far away it is the freestream, and entropy and stagnation enthalpy are those of the freestream. Sod is gas at rest with the classic left and right states. Spatial_gaussian is the normal distribution scaled to 1 at the origin. Annular_diffusion_test solves the Laplace equation. Linear is the dot product of coefficients and position, cut off at the shorter one. Random_func returns values spread over the given range around the given means.", "quantifier": "all times, positions, freestreams with positive density and pressure, heat ratios, radii, strengths that leave a positive density", "why_tests_cant": "tests compare a few points with numbers computed by the same formula; being a solution is a statement on derivatives at every point and time", "anchors": ["include/Case.hil", "vortex_gaussian", "vortex_mass", "src/Spacetime_func.cpp", "Doublet", "Sod", "Spatial_gaussian", "Annular_diffusion_test", "Linear", "Random_func"]}
{"id": "C83", "title": "Structured expressions are evaluated statement by statement", "statement": "The names and expressions of a structured expression are what stands left and right of the first equal sign of each piece between semicolons and line breaks, without surrounding spaces; pieces without an equal sign are ignored, a name with a dollar sign is rejected. Evaluating it does to the variables and the output what executing its text does, and gives one number for each name: the variable just after its statement. No other variable changes. As a function of space and time it is evaluated where pos0, pos1, pos2 and time are the point and the time, all other variables of the case can be read, and none of them changes. header and report print the names and values of print_vars in columns of the same place, and the variables of the case get the values reported.", "quantifier": "all texts, all programs of assignments with any expressions, all states of the variables, all points of up to three dimensions, all values that fit their columns", "why_tests_cant": "tests evaluate one or two expressions; here for every text, every program and every state, with the effect on all other variables", "anchors": ["src/Struct_expr.cpp", "Struct_expr::eval", "src/Spacetime_func.cpp", "Spacetime_expr", "src/Interpreter.cpp", "Interpreter::make_sub", "src/Case.cpp", "header", "report"]}
{"id": "C84", "title": "A case is set up as the input file says", "statement": "Walls: thermal_bc gives exactly the boundary condition whose variables it assigns. A prescribed heat flux is the flux of energy out of the domain, a prescribed temperature (or internal energy, equivalently) is that of the average of both sides of the wall, and in thermal equilibrium the flux is that of radiation and conduction at the wall temperature; the default lets no energy through. Each face of the domain and the surface get the boundary condition named for them, with the freestream of the case; unknown names are rejected. Transport models are zero or Sutherland's law with the parameters given. The mesh covers the box of the given extremes, which must be positive; the flood fill starts in the cell at its lower corner by default. Refinement criteria read the properties of the element at hand.", "quantifier": "all values of all variables involved, all states and fluxes at a wall, all normals, all coercions, all trees, all elements", "why_tests_cant": "tests run a few input files; here every specification is characterized, with the meaning of the resulting boundary condition for every state", "anchors": ["src/Case.cpp", "Case::_make_bc", "Case::_make_extremal_bcs", "create_solver", "src/Boundary_condition.cpp", "No_slip", "Thermal_equilibrium", "include/Transport_model.hpp", "include/Case.hil", "start", "src/hil_properties.cpp", "hil_properties::element", "src/Accessible_mesh.cpp", "add_tree", "set_surface"]}
{"id": "C85", "title": "Smoothing and snapping put the vertices where the mesh needs them", "statement": "Mesh::relax moves each vertex that is to be smoothed and that no element forbids to move to the weighted mean of its position and the mean position of its neighbours before the call, and no other vertex; with a factor between 0 and 1 no vertex leaves a box that contains it and its neighbours, the mesh is unchanged exactly if all these vertices are in the middle of their neighbours, and the result does not depend on the coordinate system. The vertices of a boundary are found exactly. Then the vertices at the extreme faces of the domain are exactly in the planes of these, the vertices at the surface are at the nearest point of the surface, and in the end every hanging vertex is exactly on the face it hangs on, so that there are no gaps. All this is independent of the number and the timing of the threads. set_all_smooth lists all vertices that may move. Reset_vertices puts the vertices at their nominal positions and, when destroyed, back where they were; in between the mesh refuses to be changed.", "quantifier": "all meshes, positions, neighbourhoods, factors, surfaces, arrangements of hanging faces, all orders of the iterations of parallel loops and all values that racing reads can see", "why_tests_cant": "tests compare a few positions of a few small meshes with few threads; the claims are about every mesh and every interleaving", "anchors": ["src/Accessible_mesh.cpp", "Accessible_mesh::relax", "snap_vertices", "id_boundary_verts", "id_smooth_verts", "set_all_smooth", "reset_verts", "restore_verts", "src/Vertex.cpp", "Vertex::is_mobile", "Vertex::needs_smooth", "src/Hanging_vertex_matcher.cpp", "include/Mesh.hpp", "Mesh::Reset_vertices"]}
{"id": "C86", "title": "Faces at a surface are snapped to it", "statement": "For each element at a surface whose faces need snapping, the face that touches the surface is warped so that its sample points, the Gauss-Lobatto points of one node less than the basis, are exactly on the surface: each at the intersection of the surface with the line through the corresponding points of this face and the opposite one that is nearest to the face. This holds unless a problem is reported, which happens exactly if a sample point has no intersection within 0.999 times the length of the element or if the warping is too steep. In this case three points per direction are moved along these lines towards the nearest point of the surface (more than three nodes per row), or the face is straight. Nothing but the adjustments of this face and the report is written.", "quantifier": "all positions of vertices, surfaces, bases with distinct nodes, numbers of nodes per row, two and three dimensions, all faces", "why_tests_cant": "tests check a few surfaces, row sizes and elements with a tolerance; the claim is about every surface, element and row size", "anchors": ["src/Boundary_condition.cpp", "Geom_mbc::snap_node_adj", "src/Element.cpp", "Element::face_position"]}
{"id": "C87", "title": "Snapping all faces leaves no gaps and does not touch the flow", "statement": "Snapping the faces of the mesh to the surface leaves the flow state of every element, the vertices, and the shapes of all faces that are not on the surface as they were. Where two faces on the surface meet, both are moved by the same amount, the average of the amounts found for each by itself, so that the surface of the mesh has no gaps.", "quantifier": "all meshes, numbers of elements, surfaces, states and orders of the loops over boundary connections; for the second sentence two neighbouring elements in two dimensions with any number of nodes per row from 3", "why_tests_cant": "tests check the volume of a mesh with a tolerance; a gap at one place or a lost digit of the state in one element is not seen", "anchors": ["src/Solver_snap_faces.cpp", "Solver::snap_faces"]}
{"id": "C88", "title": "Updating the artificial viscosity does not disturb the flow and adds none to uniform flow", "statement": "Updating the smoothness-based artificial viscosity leaves momentum, density, energy and the Laplacian artificial viscosity of every element exactly as they were, and the data of all faces as initialisation would leave it. The new bulk artificial viscosity is a saturating function of the smoothed indicator, between 0 and the prescribed limit where the indicator is not negative, and the reported residual is the root of the volume-weighted square of its change. The indicator measures the component of the advected scalars along the Legendre polynomial of the chosen row size and ignores all of lower degree. In uniform flow, on any curved mesh with hanging faces, any number of updates gives exactly zero artificial viscosity.", "quantifier": "all states, meshes, bases, boundary conditions, numbers of advection and smoothing iterations, local time steps and parameters; the last sentence for all uniform flows that fit the walls, from the state after construction", "why_tests_cant": "tests run one flow on one mesh and compare with a tolerance; a small lasting change of the state at each update is not seen", "anchors": ["src/Solver.cpp", "Solver::update_art_visc_smoothness", "Solver::diffuse_art_visc", "Solver::set_art_visc_row_size", "include/pde.hpp"]}
{"id": "C89", "title": "The surface representation uncertainty measures kinks of the surface", "statement": "Computing the surface representation uncertainty for a boundary condition leaves the flow variables of all elements and the faces' data of conforming connections as initialisation would leave them, and gives zero in elements not on that boundary. In an element on it, the result is the average, over the faces that meet the surface laterally, of the root-mean-square difference between the element's unit surface normal along that face and that of the neighbour which meets it there, counting zero where the face is itself a boundary. It is between 0 and 2, zero on flat surfaces, and \u221a2/2 in two dimensions at a 90 degree corner with one neighbour. As documented, connections with Cartesian elements and between Cartesian elements contribute nothing.", "quantifier": "all meshes of any dimension up to three, with curved elements and hanging faces, all bases, all boundary connections and all prior data", "why_tests_cant": "tests compare one wavy surface with a value; meshes that mix Cartesian and deformed elements at the surface, or with hanging faces there, are not among them", "anchors": ["src/Solver.cpp", "include/Solver.hpp", "Solver::set_uncert_surface_rep"]}
{"id": "C90", "title": "Repairing a flow smooths it without losing what it holds", "statement": "When a call to fix the thermodynamic admissibility smooths the flow, each pass takes two steps of 1/6 and 5/6 of a time step, stable up to 3.6 times the limit of a single step. However the call ends, the integrals of density, momentum and energy divided by the square of the mesh spacing are what they were; so mass, momentum and energy are conserved where the spacing is the same everywhere, and where it differs between two parts of the mesh, what one gains is the squared ratio of the spacings times what the other loses. If such an integral of density or energy is not positive the call throws, as it must. A uniform flow is left as it is on curved meshes with hanging faces too. Nothing else in the state but the time step scale changes, the faces agree with the solution afterwards, and which elements are marked makes no difference to the flow.", "quantifier": "all meshes of up to three dimensions with hanging and deformed faces and boundaries, all bases exact to the degree needed, all flows, all numbers of passes and all ways the call may end", "why_tests_cant": "tests repair one flow in one mesh; conservation and the failure of hopeless cases concern every flow and up to 100000 passes", "anchors": ["src/Solver.cpp", "src/kernels_max_dt.cpp", "src/thermo.cpp", "include/pde.hpp", "Solver::fix_admissibility", "Solver::is_admissible", "Fix_therm_admis"]}
{"id": "C91", "title": "A new layer of elements is connected completely and correctly", "statement": "When a layer of elements is extruded, every side face of a new element either gets the boundary condition of its parent or asks for a connection. If the extrusion succeeds, each face that asked has exactly one connection, and no other face has one. Connected faces belong together: without hanging nodes the elements have the same refinement level and either face each other or meet around an edge of the surface, and a connection around an edge is only made where none that face each other are left; with hanging nodes the fine elements are one level finer. A layer on any region of a box of grid cells where no two elements touch at an edge only is always connected completely, and each connection joins elements on the same cell, on neighbors or around the same empty cell, in any number of dimensions and for any order of elements and vertices. Levels that differ by more than one stop the extrusion.", "quantifier": "all sets of faces to be extruded, all orders of elements and vertices, all ways vertices are merged in between, all regions of a grid", "why_tests_cant": "tests extrude a few meshes; a wrong partner or a forgotten face depends on the arrangement of cells around each edge and on the order in which vertices are visited", "anchors": ["src/Accessible_mesh.cpp", "Accessible_mesh::extrude", "request_connection", "aligned_same_dim", "aligned_different_dim", "VERTEX_LOOP", "CONNECT_SAME_CONFORMING", "CONNECT_HANGING"]}
{"id": "C92", "title": "Projection onto polynomials in physical space is the best approximation", "statement": "A basis of polynomials in physical coordinates made from positions of quadrature points has one function for each set of exponents with sum less than the row size, and spans exactly the polynomials of total degree less than the row size, however the element is deformed, as long as the points are not all in a plane of constant coordinate. Legendre polynomials are only evaluated inside [-1, 1]. Projecting values onto the basis gives such a polynomial; the difference is orthogonal to all of them in the quadrature; none of them is closer; integrals are kept; values that are such a polynomial are left unchanged, so projecting twice is the same as projecting once. For row size one there is no number to evaluate.", "quantifier": "all positions, numbers of dimensions 1 to 3, row sizes, weights and values, and all solvers that solve the least squares problem", "why_tests_cant": "tests project one function on one deformed element; the numbering of exponents and the approximation property range over all row sizes, geometries and data", "anchors": ["src/Physical_basis.cpp", "include/Physical_basis.hpp", "Physical_basis::size", "Physical_basis::evaluate", "Physical_basis::projection"]}
{"id": "C93", "title": "Output files are complete, and latest leads to the last one", "statement": "After any history of write_mesh, write_state and visualize commands, of any iterations in any order and with repetitions, the file of every iteration holds what was written last for it, latest.mesh.h5 and latest.state.h5 lead to what was written last, so that input_data = {auto} restarts from it, and nothing else in the working directory has been touched; different iterations never share a file. The pictures named _latest1 and _latest0 are the last one and the one before. A program that is killed at any moment leaves a readable latest.", "quantifier": "all histories of commands, iterations, widths, switches of visualization, earlier contents of the directory and all points at which the program may be killed", "why_tests_cant": "tests run one case to its end in an empty directory; histories, crash points and earlier contents of the directory are unbounded", "anchors": ["src/Case.cpp", "include/Case.hil", "src/Xdmf_wrapper.cpp", "force_symlink", "Case::_iteration_suffix", "write_mesh", "write_state", "visualize"]}
{"id": "C94", "title": "Contours are closed, oriented and where the function crosses the value", "statement": "The contour lines (2D) and surfaces (3D) that Vis_data::compute_contour returns for an element form a mesh: no vertex is there twice, every element has the right number of vertices and all of them exist, and no array is accessed out of bounds. There is a vertex half way between any two neighbouring samples on different sides of the value and every vertex is next to such a place. Contours have no holes or ends inside the element and a consistent orientation, with the larger values on one side. A vertex is moved by at most half a step of the samples at a time.", "quantifier": "all functions, values, tolerances, numbers of samples and dimensions", "why_tests_cant": "tests compare a few contours of a few functions; the cases of samples above and below the value are exponentially many", "anchors": ["src/Vis_data.cpp", "Vis_data::compute_contour", "include/Vis_data.hpp"]}
{"id": "C95", "title": "The times of the performance report add up", "statement": "After any history of calls of the solver, with any mesh, the performance report gives for each task the time spent in it, how often it was done and how much work was done; no call throws because of measuring; the parts of a task never take longer than the task; and a stopwatch shows the time between starts and pauses since its last reset, also if threads add their stopwatches to it in any order. After an exception the solver can still be used.", "quantifier": "all histories of calls, numbers of iterations, sizes of meshes, durations of all pieces of work, schedules of threads", "why_tests_cant": "tests look at one report of a tree with fixed sleeps; durations, histories, schedules and points of failure are unbounded", "anchors": ["src/Stopwatch.cpp", "src/Stopwatch_tree.cpp", "include/kernel_factory.hpp", "Solver::stopwatch_tree", "Solver::update", "Solver::update_art_visc_smoothness"]}
{"id": "C96", "title": "Looking at a flow does not change it, and residuals are rates of change", "statement": "Printing residuals and visualizing the limits of the time step, any number of times between any time steps, leave the flow variables alone and never change what later time steps give. The residuals that are printed are the L2 norms of the rates of change of momentum, density and energy in the next time step, whatever the time step and its local scale, and if they are all zero no further time step changes anything.", "quantifier": "all histories of time steps, residuals and visualizations, meshes with hanging and deformed elements, states, transport coefficients, boundary conditions, time steps and time step scales", "why_tests_cant": "tests compare one residual of one flow with one derivative; the effect on later time steps, for every history and every mesh, is never tested", "anchors": ["Solver::compute_residual", "Solver::vis_lts_constraints", "Solver::initialize", "Solver::update", "src/Case.cpp: compute_residuals", "Physical_residual"]}
{"id": "C97", "title": "A case is meshed as the input file says", "statement": "The geometry of a case consists of exactly the files geom0, geom1, ... up to the first number that is missing, each read in the format of its extension in small or large letters; a table of points becomes the open polygonal curve through them. Meshing refines everywhere as often as asked, inserts the geometry, adapts the mesh until nothing changes but not more often than asked, splits the layers as often as asked, and leaves metrics that are those of the final mesh.", "quantifier": "all file names, numbers of files, contents of tables, dimensions, mesh parameters and behaviours of the refinement criteria", "why_tests_cant": "tests mesh a few cases with one or two files; names, numbers of files and the course of the adaptation, which depends on expressions of the user, are unbounded", "anchors": ["Case::_make_geom", "src/Case.cpp: init_refinement, add_geom, refine, split_layers", "include/Case.hil: mesh", "src/Simplex_geom.cpp: segments"]}
{"id": "C98", "title": "Boundary values that are given by a function", "statement": "A boundary condition that prescribes a function sets every point of the outside state to the value of the function at the position and inside state of that point, at the current time and with the unit normal that points into the domain, and changes nothing else. The variant that evaluates once keeps the values of the moment when the flow was initialized through every later history, and is the same as the function if that depends on the position only, also after a restart. The fluxes outside are those inside.", "quantifier": "all functions, numbers of points and variables, boundary connections, and histories of kernels, time steps, motions of the mesh, new and deleted connections and files that are read", "why_tests_cant": "tests apply the conditions once to one face with a normal of length one; functions and histories between initialization and use are unbounded", "anchors": ["Function_bc", "Cache_bc", "Copy", "Surface_func", "Solver::apply_state_bcs", "Solver::apply_flux_bcs", "Solver::initialize", "Solver::read_state"]}
{"id": "C99", "title": "The functions of the HIL", "statement": "Every named unary operator of the manual does what its table says: the functions of real numbers accept integers and floating point numbers and give a floating point number, round, floor and ceil give an integer, abs keeps the type, read gives the contents of a file, print and println print the operand as it is shown and give the empty string, shell gives the return code; operands of a wrong type and files that do not exist raise an exception of the language. An assignment of a function of an operand stores that value, changes no other variable and prints what operand and function print, in that order.", "quantifier": "every function, operand expression, spacing, variable and state of the namespaces", "why_tests_cant": "all values, expressions and file contents", "anchors": ["include/Interpreter.hpp", "src/Interpreter.cpp", "Interpreter::_numeric_unary", "Interpreter::_un_ops"]}
{"id": "C100", "title": "What a Tecplot file shows", "statement": "Every block, triangle or line segment that is written to a Tecplot file becomes part of a complete zone (a value of every variable at every declared node, a complete node map) with exactly the given coordinates and variables, in the order of the calls; a reader finds the coordinates and then the names of the variables, the auxiliary data name the right variables, and the picture of a triangulated geometry shows each of its triangles and nothing else.", "quantifier": "all dimensions, variable names, sequences of blocks, numbers of points, triangles and segments, and all values", "why_tests_cant": "tests can only check that files are written; their contents are for a proprietary reader and sequences of zones are unbounded", "anchors": ["Tecplot_file", "Tecplot_file::write_block", "Tecplot_file::Structured_block", "Tecplot_file::Triangles", "Tecplot_file::Line_segments", "Simplex_geom::visualize"]}
{"id": "C101", "title": "Kernels of the requested dimension and row size", "statement": "Whatever maximum row size is configured, every demand of a kernel gives the instance of exactly the requested dimension and row size if they are supported (1 to 3 dimensions, row size from 2 to the maximum) and raises an exception otherwise. A case creates a solver exactly if both are defined and supported, so that no kernel of its solver is missing.", "quantifier": "all maximum row sizes, dimensions and row sizes, including negative and undefined ones", "why_tests_cant": "tests run with one configured maximum and a few pairs; the chain of template instances must find every pair", "anchors": ["kernel_factory", "Kernel_lookup", "Case::Case", "config::max_row_size"]}
{"id": "C102", "title": "The progress table is aligned and can be parsed", "statement": "The header of an iteration status and every report of it are lines from which a CSV parser reads the labels and the values, in the same order, whatever the values, the labels and the width of the columns are (up to 99 characters). The columns of a report are aligned with those of the header.", "quantifier": "all values including infinite and undefined ones, all int values, all choices of labels and widths", "why_tests_cant": "tests compare a few lines; values of every length and sign have to fit", "anchors": ["Iteration_status::header", "Iteration_status::report", "Iteration_status::value_string", "Iteration_status::width"]}
{"id": "C103", "title": "New elements fit the grid and criteria see them as they are", "statement": "The vertices of a new element are the corners of its cell of the grid, with edges exactly between corners that an edge of the cube joins. Elements of neighboring cells have the same corners on their common face, and the cells of the next refinement level fill the cell. Criteria made from a function get the refinement level, the size, the uncertainty, whether the element is extruded, and the center of the element, which is in every box that contains its vertices.", "quantifier": "all positions, sizes, refinement levels and origins, 1 to 3 dimensions, all functions", "why_tests_cant": "tests construct a few elements; meshes fit together only if the corners agree for every pair of cells", "anchors": ["Element::Element", "criteria::criterion", "criteria::logical_not", "criteria::if_extruded"]}
{"id": "C104", "title": "A new solver keeps the settings of the user", "statement": "Constructing a solver leaves every setting that exists in the namespace (or in all namespaces it inherits from) as it is, creates the others with their documented defaults, sets the counters and times of the simulation to zero and changes no other variable of any namespace. It throws exactly if a counter or time exists with a type that cannot be set to zero.", "quantifier": "all reachable namespaces with any inheritance, all values of the settings", "why_tests_cant": "tests construct solvers in a fresh namespace; input files set any combination of variables before the solver exists", "anchors": ["Solver::Solver", "Namespace::assign_default", "Namespace::assign"]}
