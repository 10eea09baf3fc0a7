{"id": "C01", "title": "Hypernodes partition the degrees of freedom", "statement": "The dof indices returned by get_dof_indices for two different hypernodes are disjoint; over all hypernodes they are exactly the numbers 0..n_global_dofs()-1, each once; get_hyNode_from_dof_index maps every one of them back to its hypernode.", "quantifier": "every number of hypernodes, every number of dofs per node whose product fits the index type, every dof index", "why_tests_cant": "A test samples a few mesh sizes; an off-by-one or aliasing of dofs at one size silently couples unrelated unknowns.", "anchors": ["include/HyperHDG/hypernodefactory.hxx: HyperNodeFactory::get_dof_indices, get_hyNode_from_dof_index, n_global_dofs"]}
{"id": "C02", "title": "Reading, setting and adding dof values has exactly the documented effect", "statement": "set_dof_values followed by get_dof_values on the same hypernode returns what was set; set/add change only the dofs of the given hypernode and leave every other entry and the vector length untouched; add_to_dof_values adds each local value exactly once.", "quantifier": "every vector, hypernode, local values and value type", "why_tests_cant": "Frame conditions speak about all entries not touched, for every vector length.", "anchors": ["include/HyperHDG/hypernodefactory.hxx: get_dof_values, add_to_dof_values, set_dof_values"]}
{"id": "C03", "title": "No out-of-bounds access in the dof access functions", "statement": "If the hypernode index is smaller than n_hyNodes(), the global vector has n_global_dofs() entries and the product does not overflow the index type, then no dof access is out of bounds and no assertion fires; if the vector is too short, a build with assertions aborts instead of accessing memory out of bounds.", "quantifier": "every build mode, vector length, hypernode index, dofs per node", "why_tests_cant": "Undefined behaviour only manifests for particular sizes; unsigned overflow needs billions of dofs.", "anchors": ["include/HyperHDG/hypernodefactory.hxx: hy_assert conditions", "include/HyperHDG/hy_assert.hxx"]}
{"id": "C04", "title": "Tensorial index decomposition is a bijection", "statement": "For range > 0, Hypercube<dim>::index_decompose succeeds exactly for indices below range^dim, every returned component is below range, the index is recovered as the base-range number with these digits, and every tuple of components below range is returned for exactly one index.", "quantifier": "every dimension, range and index", "why_tests_cant": "Ranges over all dimensions and indices.", "anchors": ["include/HyperHDG/hypercube.hxx: Hypercube::index_decompose, Hypercube::pow"]}
{"id": "C05", "title": "Tensorial points enumerate the full tensor grid", "statement": "tensorial_pt with indices 0..n^dim-1 yields each point of the dim-fold Cartesian power of the given 1D points exactly once when the 1D points are distinct, first coordinate running fastest.", "quantifier": "every dimension and list of one-dimensional points", "why_tests_cant": "All dimensions / all point sets.", "anchors": ["include/HyperHDG/hypercube.hxx: Hypercube::tensorial_pt"]}
{"id": "C06", "title": "Dense matrix element access is faithful", "statement": "In a SmallMat, writing entry (i,j) and reading entry (k,l) gives the written value if (i,j)=(k,l) and the old value otherwise; get_column returns the entries of the column; set_column replaces exactly one column; transposed swaps the indices and is an involution.", "quantifier": "every matrix size, entry, position", "why_tests_cant": "Two positions aliasing for one shape is enough to break it; the statement is over all shapes.", "anchors": ["include/HyperHDG/dense_la.hxx: SmallMat::loc_matrix_index, operator(), get_column, set_column, transposed"]}
{"id": "C07", "title": "Dense products are the mathematical products", "statement": "operator* and mat_times_mat compute the matrix product, transposed_mat_times_mat(A,B) computes A^T B, mat_times_transposed_mat(A,B) computes A B^T, dyadic_product, scalar_product and cross_product the textbook products, hence the algebraic laws (associativity, transpose of a product, orthogonality of the cross product) hold in exact arithmetic.", "quantifier": "all matrices of all sizes over any commutative ring", "why_tests_cant": "A polynomial identity cannot be established by sampling; tests miss shapes.", "anchors": ["include/HyperHDG/dense_la.hxx: operator*, mat_times_mat_unfit, transposed_mat_times_mat, mat_times_transposed_mat, dyadic_product, scalar_product, cross_product"]}
{"id": "C08", "title": "Comparison of points is a strict total order consistent with equality", "statement": "operator< on SmallMat of equal shape is irreflexive, transitive and for any two matrices exactly one of a<b, a==b, b<a holds, so that sorting and duplicate search are meaningful.", "quantifier": "all matrices with entries in a linear order", "why_tests_cant": "Transitivity and trichotomy quantify over all triples.", "anchors": ["include/HyperHDG/dense_la.hxx: operator<, operator==, operator!="]}
{"id": "C09", "title": "Division by zero is always reported", "statement": "operator/= (scalar or entrywise) and hada_divi throw SmallMatDivByZeroException exactly when a divisor is zero, and otherwise return the entrywise quotient.", "quantifier": "all matrices, all divisors", "why_tests_cant": "Must hold for the position of the zero anywhere in matrices of every size.", "anchors": ["include/HyperHDG/dense_la.hxx: SmallMat::operator/=, hada_divi, SmallMatDivByZeroException"]}
{"id": "C10", "title": "Vector operations are safe under aliasing", "statement": "linear_combination(a,x,b,y,result) stores a*x+b*y as computed from the values before the call, even if result is the same object as x or y or both; inner_product is symmetric and bilinear; both need equal lengths.", "quantifier": "all vectors, factors and aliasing patterns", "why_tests_cant": "In-place updates with aliasing are correct only because of evaluation order; must hold for all lengths.", "anchors": ["include/HyperHDG/sparse_la.hxx: linear_combination, inner_product"]}
{"id": "C11", "title": "Conjugate gradient returns only solutions within tolerance", "statement": "If conjugate_gradient returns a vector x then, in exact arithmetic with a linear operator, ||b - A x||^2 < tolerance^2; it calls the operator at most n_iterations (or b.size() if 0 is given) times and otherwise throws SolveException.", "quantifier": "every right-hand side, linear operator, iteration limit and tolerance", "why_tests_cant": "Loop invariant over an unbounded number of iterations.", "anchors": ["include/HyperHDG/sparse_la.hxx: conjugate_gradient, SolveException"]}
{"id": "C12", "title": "Conjugate gradient converges for symmetric positive definite operators", "statement": "In exact arithmetic, for a symmetric positive definite (or negative definite) operator, tolerance > 0 and the default iteration limit, conjugate_gradient never throws, i.e. it converges in at most b.size() iterations, and no division by zero happens.", "quantifier": "every dimension, every SPD operator, every right-hand side", "why_tests_cant": "Finite termination is a theorem about Krylov spaces for every dimension.", "anchors": ["include/HyperHDG/sparse_la.hxx: conjugate_gradient"]}
{"id": "C13", "title": "Normalised QR decomposition stays a QR decomposition", "statement": "After qr_decomp, Q is orthogonal, Q times R equals the original matrix, R is upper triangular and all diagonal entries of R but the first are non-negative, and det(Q)=+1.", "quantifier": "all shapes n_rows >= n_cols, all matrices", "why_tests_cant": "Sign bookkeeping depends on parity of sizes and on the sign pattern of R.", "anchors": ["include/HyperHDG/dense_la.hxx: qr_decomp", "include/HyperHDG/wrapper/lapack.hxx: lapack_qr_decomp, get_q_from_lapack_qr_result, get_r_from_lapack_qr_result"]}
{"id": "C14", "title": "determinant() is the determinant", "statement": "determinant(A) equals the determinant of a square A; for a rectangular A its square equals det(A^T A).", "quantifier": "all matrices of all sizes", "why_tests_cant": "Depends on which Householder reflections are trivial, i.e. on measure-zero inputs tests rarely pick (identity, triangular matrices).", "anchors": ["include/HyperHDG/dense_la.hxx: determinant", "include/HyperHDG/wrapper/lapack.hxx: lapack_det"]}
{"id": "C15", "title": "Affine mappings of file geometries are consistent", "statement": "map_ref_to_phys maps the reference cube to the parallelotope spanned at the first vertex; the corners belonging to the first vertex and its neighbours are mapped to these vertices, and all corners to their vertices if the vertices form a parallelotope; the refined sub-elements of a hyperedge tile its image (they cover it and overlap at most in their boundaries) and neighbouring sub-elements agree on their common face; the area of the sub-elements adds up to the area of the hyperedge; areas of hyperedges and faces are the roots of the Gram determinants of the spanning vectors.", "quantifier": "every domain read from a file, hyperedge, refinement level, reference point and pair of dimensions for which the QR decomposition stays within its arrays (hyEdge_dim <= 2, hyEdge_dim = space_dim, or space_dim <= 6; otherwise see C13)", "why_tests_cant": "Quantifies over all refinement levels, all sub-elements, all points.", "anchors": ["include/HyperHDG/geometry/file.hxx: hyEdge, map_ref_to_phys, area", "include/HyperHDG/mapping/linear.hxx: Linear"]}
{"id": "C16", "title": "Matrix-free global operator is the sum of local contributions", "statement": "trace_to_flux(x) (residual_flux likewise) equals, at every dof, the sum over all hyperedges and all faces containing that dof of the local solver's output for the gathered local values; it does not depend on the order in which hyperedges are visited; it never modifies x and returns a vector of the same length.", "quantifier": "every hypergraph, dof vector, local solver, visiting order", "why_tests_cant": "Loop over arbitrarily many hyperedges with shared hypernodes; a stale local buffer or a missed addition shows only for particular meshes.", "anchors": ["include/HyperHDG/global_loop/prototype.hxx: prototype_mat_vec_multiply", "include/HyperHDG/global_loop/elliptic.hxx: trace_to_flux, residual_flux", "include/HyperHDG/global_loop/parabolic.hxx"]}
{"id": "C17", "title": "Assembled matrix and matrix-free operator agree", "statement": "The triplets returned by trace_to_flux_mat represent the same linear map as trace_to_flux, if the local solver is linear: summing value*x[col] into row gives trace_to_flux(x); exactly n_hyEdges*(2*dim*n_dofs)^2 triplets are written, all with indices below n_global_dofs().", "quantifier": "every hypergraph, linear local solver and vector, every set of declared Dirichlet indices", "why_tests_cant": "Agreement must hold for every vector and mesh.", "anchors": ["include/HyperHDG/global_loop/prototype.hxx: prototype_mat_generate", "include/HyperHDG/global_loop/elliptic.hxx: trace_to_flux_mat"]}
{"id": "C18", "title": "Linearity, symmetry and definiteness carry over from local to global", "statement": "If the local operators are linear / symmetric / negative semidefinite, so is the global operator; residual_flux(x) - residual_flux(0) = trace_to_flux(x) globally if it holds locally.", "quantifier": "every hypergraph and every local solver with the property", "why_tests_cant": "Needed for CG to be applicable on every mesh.", "anchors": ["include/HyperHDG/global_loop/prototype.hxx", "include/HyperHDG/global_loop/elliptic.hxx"]}
{"id": "C19", "title": "Uniform diffusion local solver: symmetric negative semidefinite", "statement": "The local trace_to_flux of DiffusionUniform is linear, symmetric and negative semidefinite for tau >= 0 whenever the local problem is solvable; it vanishes on traces of constants (conservation).", "quantifier": "every dimension, polynomial degree, tau and pair of traces, every integrator satisfying integration by parts", "why_tests_cant": "An algebraic property over all coefficient vectors.", "anchors": ["include/HyperHDG/local_solver/diffusion_uniform_ldgh.hxx: DiffusionUniform::assemble_loc_matrix, assemble_rhs, primal_at_boundary, dual_at_boundary, trace_to_flux"]}
{"id": "C20", "title": "Uniform diffusion local problem is uniquely solvable", "statement": "For tau > 0 the local matrix is invertible, so the local solve never throws LAPACKexception in exact arithmetic.", "quantifier": "every dimension and degree, tau > 0", "why_tests_cant": "Holds for every tau; tests try one.", "anchors": ["include/HyperHDG/local_solver/diffusion_uniform_ldgh.hxx: assemble_loc_matrix, solve_local_problem"]}
{"id": "C21", "title": "Diffusion local solver: affine residual and Dirichlet rows", "statement": "In LocalSolver::Diffusion residual_flux(lambda) = trace_to_flux(lambda) + residual_flux(0), trace_to_flux is linear, symmetric on non-Dirichlet faces, and both return exactly zero on faces of Dirichlet type.", "quantifier": "every hyperedge geometry, parameter functions, tau, traces, set of Dirichlet types", "why_tests_cant": "Universal over traces and data.", "anchors": ["include/HyperHDG/local_solver/diffusion_ldgh.hxx: Diffusion::trace_to_flux, residual_flux, solve_local_problem"]}
{"id": "C22", "title": "Dirichlet indices are exactly the dofs of Dirichlet nodes", "statement": "dirichlet_indices() returns, strictly increasing, exactly the dofs of hypernodes that are of Dirichlet type on some hyperedge of the current mesh, however often it is called and whatever refinements happened before.", "quantifier": "every mesh, node typing and call history", "why_tests_cant": "History dependence: calls interleaved with set_refinement.", "anchors": ["include/HyperHDG/global_loop/shifted_inverse_eigenvalue.hxx / mass_approx_eigenvalue.hxx / nonlinear_eigenvalue.hxx: dirichlet_indices"]}
{"id": "C23", "title": "User-declared Dirichlet dofs are removed from the operator", "statement": "After read_dirichlet_indices(I) with all indices below size_of_system(), trace_to_flux and residual_flux return 0 at exactly the entries in I (others as without declaration); order and repetition in I are irrelevant; a later call replaces the earlier set.", "quantifier": "every index list, vector, mesh and sequence of calls", "why_tests_cant": "All lists with duplicates and all call histories.", "anchors": ["include/HyperHDG/global_loop/elliptic.hxx: read_dirichlet_indices, trace_to_flux, residual_flux"]}
{"id": "C24", "title": "Topologies hand out valid hypernodes", "statement": "For every hyperedge index below n_hyEdges() the 2*dim hypernode indices returned are below n_hyNodes(), for every refinement level; conversely every hypernode created by refinement belongs to a hyperedge.", "quantifier": "every domain (cubic or file), dimension, refinement level, hyperedge", "why_tests_cant": "All grid sizes / levels.", "anchors": ["include/HyperHDG/topology/cubic.hxx: Cubic::hyEdge", "include/HyperHDG/topology/file.hxx: File::hyEdge"]}
{"id": "C25", "title": "Refinement is conforming", "statement": "Two refined hyperedges share a hypernode exactly when the corresponding (d-1)-dimensional faces coincide: inside one coarse hyperedge an interior face is shared by exactly the two adjacent sub-hyperedges, and two sub-hyperedges on a shared coarse face get the same refined hypernode for the same position on the face; the faces of one refined hyperedge are distinct hypernodes.", "quantifier": "every coarse hypergraph with distinct faces per edge, every level, every pair of refined hyperedges", "why_tests_cant": "Pairs of sub-elements over all levels and dimensions.", "anchors": ["include/HyperHDG/topology/cubic.hxx: Cubic::hyEdge", "include/HyperHDG/topology/file.hxx: File::hyEdge", "include/HyperHDG/wrapper/tpcc.hxx"]}
{"id": "C26", "title": "Refinement is history independent", "statement": "After any sequence of set_refinement calls a hypergraph behaves as one constructed and refined once to the last level: same counts, hypernodes, node types, dof numbering; setting level 1 restores the initial state.", "quantifier": "every sequence of refinement levels", "why_tests_cant": "History quantifier.", "anchors": ["include/HyperHDG/hdg_hypergraph.hxx: HDGHyperGraph::set_refinement", "include/HyperHDG/topology/*.hxx: set_refinement", "include/HyperHDG/node_descriptor/*.hxx: set_refinement"]}
{"id": "C27", "title": "Topology, geometry, node types and data stay in step", "statement": "After construction and after any sequence of set_refinement calls, topology, geometry, node descriptor, dof factory and per-edge data agree on the refinement level and number of hyperedges, so that operator[] is valid for each index below n_hyEdges().", "quantifier": "every sequence of operations", "why_tests_cant": "Invariant over all histories.", "anchors": ["include/HyperHDG/hdg_hypergraph.hxx: HDGHyperGraph", "include/HyperHDG/hy_data_container.hxx"]}
{"id": "C28", "title": "Node types are inherited under refinement", "statement": "The type of a face of a refined hyperedge is the type of the coarse face it lies on and 0 if it lies in the interior of a coarse hyperedge; for cubic grids a coarse face has type 0 iff it lies on no boundary of the grid, and the type determines which boundary parts it lies on.", "quantifier": "every grid, level, hyperedge, face", "why_tests_cant": "All grids/levels.", "anchors": ["include/HyperHDG/node_descriptor/cubic.hxx: Cubic::hyEdge", "include/HyperHDG/node_descriptor/file.hxx: File::hyEdge"]}
{"id": "C29", "title": "Duplicate detection is exact", "statement": "is_unique(v) is true iff v contains no two equal elements, and it does not modify v.", "quantifier": "every vector over a totally ordered type", "why_tests_cant": "All vectors.", "anchors": ["include/HyperHDG/read_domain.hxx: is_unique"]}
{"id": "C30", "title": "Accepted domains are consistent", "statement": "check_consistency returns true only if every hypernode index is below n_hyNodes, every point index below n_points, and points, hypernode lists and point lists are free of duplicates.", "quantifier": "every DomainInfo", "why_tests_cant": "Must reject a single bad index anywhere.", "anchors": ["include/HyperHDG/read_domain.hxx: DomainInfo::check_consistency"]}
{"id": "C31", "title": "Domain files round-trip", "statement": "Reading a .geo file written from a domain in the documented format yields exactly that domain; files of wrong dimension or with missing sections are rejected.", "quantifier": "every domain; every amount of whitespace, comments before sections", "why_tests_cant": "All files.", "anchors": ["include/HyperHDG/read_domain.hxx: read_domain_geo"]}
{"id": "C32", "title": "Epsilon neighbourhood graph is complete and irredundant", "statement": "make_epsilon_neighborhood_graph connects two points of the sorted point list by a hyperedge exactly if their distance is below epsilon, and by exactly one hyperedge; it is accepted iff the graph is connected.", "quantifier": "every finite set of distinct points, every epsilon", "why_tests_cant": "Breadth-first search over arbitrary point clouds.", "anchors": ["include/HyperHDG/epsilon_neighborhood_graph.hxx: make_epsilon_neighborhood_graph"]}
{"id": "C33", "title": "Unit cube geometry tiles the unit cube", "statement": "In Geometry::UnitCube every hyperedge maps reference points into [0,1]^space_dim, its area is the product of its side lengths, and for volume grids the areas sum up to 1 for every refinement level; face_area is the area of the face.", "quantifier": "every grid and refinement level", "why_tests_cant": "All grids.", "anchors": ["include/HyperHDG/geometry/unit_cube.hxx: UnitCube::hyEdge"]}
{"id": "C34", "title": "Normals are orthonormal and outward", "statement": "local_normal(i) are unit vectors, opposite on opposite faces, orthogonal to the face and pointing out of the element; outer normals are orthogonal to the hyperedge; inner_normal (of faces with even number) and outer_normal form an orthonormal system; volume, Jacobian, face areas and local normals satisfy the transformation rule of area vectors, so that integration by parts holds on every hyperedge which is not degenerate.", "quantifier": "every hyperedge of UnitCube and File geometries, face index, dimension", "why_tests_cant": "All dimension pairs.", "anchors": ["include/HyperHDG/geometry/unit_cube.hxx: local_normal, inner_normal, outer_normal, mat_q", "include/HyperHDG/mapping/linear.hxx: local_normal, inner_normal, outer_normal"]}
{"id": "C35", "title": "Plot files are internally consistent", "statement": "In a written vtu file the number of points and cells announced equal those written, every connectivity entry refers to an existing point, each cell lists 2^dim distinct points, offsets are the partial sums of cell sizes, and the number of point data values equals points times components.", "quantifier": "every hypergraph and every combination of plot options", "why_tests_cant": "All meshes and option combinations.", "anchors": ["include/HyperHDG/plot.hxx: plot_vtu_unstructured_geometry, vtu_sub_cube_connectivity, plot_edge_values, plot_boundary_values"]}
{"id": "C36", "title": "Plotting never overwrites an earlier plot", "statement": "With incrementFileNumber and printFileNumber set (the default), successive plot calls write to pairwise different files, and the file number grows by one per plot.", "quantifier": "every number of plots and every option set before", "why_tests_cant": "Sequence of arbitrary length.", "anchors": ["include/HyperHDG/plot.hxx: plot, open_ofstream"]}
{"id": "C37", "title": "Plot options: get returns what was set", "statement": "set_plot_option(o, v) with a non-empty valid value changes only option o, and returns the value now in force; with an empty value nothing is changed.", "quantifier": "every option, value, prior state", "why_tests_cant": "All states.", "anchors": ["include/HyperHDG/plot.hxx: set_plot_option"]}
{"id": "C38", "title": "Iteration visits every hyperedge exactly once", "statement": "A for_each from begin() to end() of a hypergraph visits the hyperedges 0..n_hyEdges()-1 in order, each exactly once, and terminates.", "quantifier": "every hypergraph", "why_tests_cant": "All sizes.", "anchors": ["include/HyperHDG/hdg_hypergraph.hxx: HDGHyperGraph::iterator, begin, end"]}
{"id": "C39", "title": "Initial values are consistent across hyperedges", "statement": "make_initial returns at each dof the local initial value of a hyperedge containing that dof at the requested time; if hyperedges agree on shared dofs, the result is independent of the visiting order; the contents of the input vector are irrelevant.", "quantifier": "every mesh, initial function, time", "why_tests_cant": "All times (also non-integer) and all meshes.", "anchors": ["include/HyperHDG/global_loop/parabolic.hxx: make_initial"]}
{"id": "C40", "title": "Errors are accumulated over all hyperedges", "statement": "errors(x) is the square root of the sum of the local squared errors of all hyperedges, independent of visiting order, and zero iff every local error vanishes.", "quantifier": "every mesh, vector", "why_tests_cant": "Arbitrary numbers of hyperedges.", "anchors": ["include/HyperHDG/global_loop/prototype.hxx: prototype_errors", "include/HyperHDG/local_solver/diffusion_uniform_ldgh.hxx: error_def"]}
{"id": "C41", "title": "Hyperedge data is updated once per hyperedge from its own dofs", "statement": "After set_data(x) the data of each hyperedge is what the local solver computes from the values of x on the faces of this hyperedge and from the former data of this hyperedge; no other data is touched; a data container with too few entries makes a build with assertions abort.", "quantifier": "all hypergraphs, all vectors x, all data, all local solvers", "why_tests_cant": "The loop reuses local buffers across hyperedges; a test on one mesh cannot show that no value of another hyperedge leaks into the result.", "anchors": ["include/HyperHDG/global_loop/parabolic.hxx: Parabolic::set_data", "include/HyperHDG/hy_data_container.hxx: HyDataContainer"]}
{"id": "C42", "title": "Jacobian of nonlinear eigenvalue problems is assembled from both vectors", "statement": "jacobian_of_trace_to_flux(x, lambda, x_val, lambda_val) returns at each dof the sum over all hyperedges and faces containing it of the local Jacobian action computed from the face values of x and of x_val, each taken from the right vector.", "quantifier": "all hypergraphs, all pairs of vectors, all local solvers", "why_tests_cant": "Swapped or stale local buffers are invisible for symmetric or equal arguments; the statement is about all pairs of vectors on all meshes.", "anchors": ["include/HyperHDG/global_loop/nonlinear_eigenvalue.hxx: NonlinearEigenvalue::jacobian_of_trace_to_flux"]}
{"id": "C43", "title": "Dense norms are the mathematical norms", "statement": "norm_1 and norm_infty of a matrix return the maximal absolute column and row sum, of a vector the sum and the maximum of absolute values, norm_2 of a vector the root of the sum of squares; entries_product the product of all entries.", "quantifier": "all matrices and vectors of all sizes over an ordered field", "why_tests_cant": "The maximum must be found wherever it is located, in matrices of all shapes.", "anchors": ["include/HyperHDG/dense_la.hxx: norm_1, norm_2, norm_infty, entries_product"]}
{"id": "C44", "title": "Dense solve solves", "statement": "b / A returns the unique x with A x = b if A is invertible and throws LAPACKexception if it is not; the version for constant arguments leaves them unchanged, the other one leaves the solution in b.", "quantifier": "all sizes, all right-hand sides, all matrices", "why_tests_cant": "All matrices, including singular ones.", "anchors": ["include/HyperHDG/dense_la.hxx: operator/(SmallMat, SmallMat)", "include/HyperHDG/wrapper/lapack.hxx: lapack_solve"]}
{"id": "C45", "title": "Evaluation points of the unit cube geometry", "statement": "lexicographic(index, points) is the physical point of the reference point whose coordinates are the given one-dimensional points numbered by the digits of index; boundary_lexicographic gives the points of the same kind on a face; face_barycenter is the midpoint of its face; the in-place and the copying version of map_ref_to_phys give the same points.", "quantifier": "every grid, refinement level, hyperedge, face, number of points and index", "why_tests_cant": "All grids, indices and dimensions.", "anchors": ["include/HyperHDG/geometry/unit_cube.hxx: lexicographic, boundary_lexicographic, face_barycenter, map_ref_to_phys"]}
{"id": "C46", "title": "Bulk values of the uniform diffusion solver", "statement": "bulk_values returns, component by component (dual components first, primal last), the values of the local solution at the points of the tensor grid of the given abscissas, in lexicographic order.", "quantifier": "every trace, list of abscissas, dimension, degree, tau for which the local problem is solvable", "why_tests_cant": "Indexing of components, shape functions and points must match for all sizes.", "anchors": ["include/HyperHDG/local_solver/diffusion_uniform_ldgh.hxx: DiffusionUniform::bulk_values"]}
{"id": "C47", "title": "Diffusion local solver: mass flux", "statement": "In LocalSolver::Diffusion trace_to_mass_flux and total_numerical_flux_mass return the numerical flux of a second local problem whose source is the primal solution of the first; for traces vanishing on Dirichlet faces mu . trace_to_mass_flux(lambda) is the L2 product over the hyperedge of the primal local solutions for lambda and mu, so the mass operator is symmetric and positive semidefinite.", "quantifier": "every hyperedge geometry, coefficient, tau > 0, pair of traces and set of Dirichlet types", "why_tests_cant": "An algebraic identity over all traces and coefficients; a test samples a few.", "anchors": ["include/HyperHDG/local_solver/diffusion_ldgh.hxx: trace_to_mass_flux, total_numerical_flux_mass, assemble_rhs_from_coeffs"]}
{"id": "C48", "title": "Diffusion local solver: bulk values and errors", "statement": "LocalSolver::Diffusion::bulk_values returns, point by point of the tensor grid of the abscissas, the values of the dual and primal unknown of the local solution with source and Dirichlet data, and errors compares the primal unknown of the same solution with the analytic result.", "quantifier": "every hyperedge, trace, list of abscissas, time and tau for which the local problem is uniquely solvable", "why_tests_cant": "Ranges over all traces, sizes and geometries.", "anchors": ["include/HyperHDG/local_solver/diffusion_ldgh.hxx: bulk_values, errors"]}
{"id": "C49", "title": "Copies of topologies answer like the original", "statement": "Copying a hypergraph topology (cubic or from a file) at any level of refinement gives an object that reports the same numbers of hyperedges and hypernodes, the same refinement level and the same hypernodes of every hyperedge as the original, also after any sequence of later refinements applied to both. (Node descriptors of files do not have this property once refined.)", "quantifier": "all topologies, all levels of refinement before and after the copy, all hyperedge indices", "why_tests_cant": "A copy constructor lists every member by hand; a forgotten or wrongly initialised member shows up only for refined objects and for some queries.", "anchors": ["include/HyperHDG/topology/cubic.hxx: Cubic(const Cubic&)", "include/HyperHDG/topology/file.hxx: File(const File&)", "include/HyperHDG/node_descriptor/file.hxx: File(const File&)"]}
{"id": "C50", "title": "Parabolic local solver computes a theta step, for every history of calls", "statement": "For every hypergraph, every sequence of global vectors and every number of time steps, the calls make_initial, set_data, ..., set_data of the parabolic diffusion solver return, and the data kept by the hyperedges are the states of the theta scheme started at the projection of the initial value: the residual of the next step sums the numerical fluxes of the next theta step weighted by theta with those of the kept state weighted by 1 - theta over the faces which are not of Dirichlet type; trace_to_flux is theta times the flux of the homogeneous problem; bulk_values evaluates the solution of the next step; a non-solvable local problem is reported by an exception.", "quantifier": "all hypergraphs, meshes satisfying the laws of the integrals, parameters theta, delta_t > 0 and tau >= 0, sequences of global vectors, numbers of time steps, former contents of data and output arrays", "why_tests_cant": "the state after n steps depends on the whole history; tests follow a few fixed histories on a few meshes", "anchors": ["include/HyperHDG/local_solver/diffusion_parab_ldgh.hxx: DiffusionParab::{trace_to_flux,residual_flux,set_data,make_initial,bulk_values,errors,solve_local_problem,assemble_*}", "include/HyperHDG/global_loop/parabolic.hxx: Parabolic::{trace_to_flux,residual_flux,set_data,make_initial,errors}"]}
{"id": "C51", "title": "Each time step has exactly one solution", "statement": "The operator of a time step, applied by trace_to_flux of the parabolic diffusion solver, is linear, symmetric and negative definite on vectors vanishing at the Dirichlet nodes, residual_flux differs from it by a vector independent of the argument, and so for positive tau, theta and delta_t there is exactly one vector vanishing at the Dirichlet nodes whose residual is zero, at every step and for a whole computation of any number of steps.", "quantifier": "all hypergraphs without isolated nodes, meshes satisfying the laws of the integrals, positive parameters, data kept from former steps, numbers of steps", "why_tests_cant": "unique solvability is a statement about all right-hand sides and all meshes", "anchors": ["include/HyperHDG/local_solver/diffusion_parab_ldgh.hxx: DiffusionParab::{trace_to_flux,residual_flux}", "include/HyperHDG/global_loop/parabolic.hxx: Parabolic::{trace_to_flux,residual_flux}"]}
{"id": "C52", "title": "Time stepping is stable", "statement": "If the same problem is computed from two initial values, the L2 distance of the two discrete solutions does not increase in any time step whose residual vanishes: unconditionally in delta_t for implicit Euler, and for every theta >= 1/2 if the coefficient does not depend on time and the initial values are compatible with the trace space.", "quantifier": "all hypergraphs, meshes, sources, Dirichlet data, initial values, step sizes and numbers of steps", "why_tests_cant": "stability is a statement about all initial values, all step sizes and arbitrarily many steps", "anchors": ["include/HyperHDG/local_solver/diffusion_parab_ldgh.hxx: DiffusionParab::{residual_flux,set_data,make_initial}", "include/HyperHDG/global_loop/parabolic.hxx: Parabolic::{residual_flux,set_data,make_initial}"]}
{"id": "C53", "title": "Time stepping conserves mass", "statement": "In a theta step the integral of the solution over a hyperedge changes by the source minus the numerical fluxes through its faces, and on a hypergraph without Dirichlet faces the total integral changes in every step whose residual vanishes exactly by the integral of the source: nothing is lost at the nodes.", "quantifier": "all hypergraphs, meshes, sources, initial values, step sizes, theta and numbers of steps", "why_tests_cant": "an exact balance for every mesh and data; tests compare a few numbers up to tolerances", "anchors": ["include/HyperHDG/local_solver/diffusion_parab_ldgh.hxx: DiffusionParab::{residual_flux,set_data,make_initial}", "include/HyperHDG/global_loop/parabolic.hxx: Parabolic::{residual_flux,set_data}"]}
{"id": "C54", "title": "Solving an elliptic problem returns the discrete solution", "statement": "On a hypergraph each of whose nodes is connected to a Dirichlet node by a chain of hyperedges, the condensed diffusion problem has exactly one discrete solution for every tau > 0, and the program which computes the right-hand side from the residual (or from the Dirichlet values) and calls conjugate_gradient returns, without exception, a vector with zero corrections at the Dirichlet nodes and a residual below the tolerance.", "quantifier": "all hypergraphs, meshes, polynomial degrees, coefficients, data, tau > 0 and tolerances", "why_tests_cant": "unique solvability and convergence depend on every mesh and every coefficient; tests run a few of them", "anchors": ["tests_c++/diffusion_dimensions.cxx", "include/HyperHDG/global_loop/elliptic.hxx: Elliptic::{trace_to_flux,residual_flux,read_dirichlet_indices,zero_vector}", "include/HyperHDG/sparse_la.hxx: SparseLA::conjugate_gradient", "include/HyperHDG/local_solver/diffusion_ldgh.hxx: Diffusion, DiffusionUniform"]}
{"id": "C55", "title": "Refinement keeps hypergraphs connected", "statement": "Any two hypernodes of a cubic grid are connected by a chain of hyperedges, at every refinement level and for every dimension of hyperedges and space; the refined hypergraph of a domain file is connected exactly if the coarse one is. Hence a single Dirichlet node suffices for the elliptic problem on such a hypergraph to have exactly one discrete solution, which the program finds.", "quantifier": "all grid sizes, dimensions, domain files and refinement levels whose numbers fit the index type", "why_tests_cant": "reachability through arbitrarily long chains in arbitrary grids and dimensions", "anchors": ["include/HyperHDG/topology/cubic.hxx: Cubic::{operator[],set_refinement}", "include/HyperHDG/topology/file.hxx: File::{operator[],set_refinement}", "tests_c++/diffusion_dimensions.cxx"]}
{"id": "C56", "title": "Local solver for eigenvalue problems: flux of the local solution", "statement": "For a given eigenvalue the local solver for eigenvalue problems returns, from a trace, the numerical flux of the unique local solution (zero on Dirichlet faces), linearly in the trace and symmetrically; for eigenvalue 0 it is the operator of stationary diffusion; for eigenvalues that are not positive the local problem is always solvable; where it is not solvable the failure is reported and no values are returned. Bulk values are those of the local solution.", "quantifier": "all hyperedges, integrals, coefficients, traces, eigenvalues, stabilisation parameters, dimensions and polynomial degrees", "why_tests_cant": "an identity of linear maps for every mesh, trace and eigenvalue, including eigenvalues at which the local problem is singular", "anchors": ["include/HyperHDG/local_solver/diffusion_eigs_ldgh.hxx: DiffusionEigs::{trace_to_flux,bulk_values,make_initial,node_types}"]}
{"id": "C57", "title": "The Jacobian of the eigenvalue problem is the derivative", "statement": "For coefficients which do not depend on the eigenvalue and orthonormal shape functions, what jacobian_of_trace_to_flux returns, locally and globally, is the directional derivative of trace_to_flux with respect to trace and eigenvalue at the given point, for every point at which the local problems are solvable; in the direction of the eigenvalue at 0 it is the mass operator of stationary diffusion.", "quantifier": "all hypergraphs, hyperedges, traces, eigenvalues and directions", "why_tests_cant": "a statement about a limit at every point and in every direction; finite differences check a few points up to rounding", "anchors": ["include/HyperHDG/local_solver/diffusion_eigs_ldgh.hxx: DiffusionEigs::{jacobian_of_trace_to_flux,trace_to_flux}", "include/HyperHDG/global_loop/nonlinear_eigenvalue.hxx: NonlinearEigenvalue::{trace_to_flux,jacobian_of_trace_to_flux}"]}
{"id": "C58", "title": "Eigenpairs of the condensed problem", "statement": "If the global trace_to_flux vanishes for a number and a trace which is not zero and vanishes on the Dirichlet faces, then the number is the Rayleigh quotient of the function composed of the local solutions, it is not negative, it is positive if every node is connected to a Dirichlet node, it is zero exactly for traces of constants, and eigenfunctions for different eigenvalues are orthogonal in L2.", "quantifier": "all hypergraphs, meshes, coefficients, eigenpairs and tau > 0", "why_tests_cant": "quantifies over all eigenpairs of all discrete problems", "anchors": ["include/HyperHDG/local_solver/diffusion_eigs_ldgh.hxx: DiffusionEigs::trace_to_flux", "include/HyperHDG/global_loop/nonlinear_eigenvalue.hxx: NonlinearEigenvalue::trace_to_flux"]}
{"id": "C59", "title": "The Bilaplacian local solver computes the mixed method of the biharmonic problem", "statement": "On a hyperedge whose integrals satisfy the laws of integration and for tau > 0, trace_to_flux of the Bilaplacian solver solves the two coupled diffusion problems for the two halves of the trace and returns their numerical fluxes (that of the Laplacian first), zero exactly where the corresponding value is prescribed; it is linear, symmetric, returns for every trace, and maps traces of constants to zero; the mass flux, the bulk values and the errors are those of the same mixed solution.", "quantifier": "all dimensions, degrees, hyperedges, coefficients, boundary descriptors, traces, tau > 0, both build modes", "why_tests_cant": "quantifies over all hyperedges, coefficients and traces", "anchors": ["include/HyperHDG/local_solver/bilaplacian_ldgh.hxx: Bilaplacian::trace_to_flux, trace_to_mass_flux, total_numerical_flux_mass, bulk_values, errors, node_types"]}
{"id": "C60", "title": "Residual and initial trace of the Bilaplacian solver", "statement": "residual_flux of the Bilaplacian solver is trace_to_flux plus the residual for the zero trace (an affine function with trace_to_flux as linear part), and make_initial returns the projection of the initial values to the skeleton.", "quantifier": "all hyperedges, data and traces", "why_tests_cant": "the programs in the repository only call residual_flux with the zero trace, for which the error is invisible", "anchors": ["include/HyperHDG/local_solver/bilaplacian_ldgh.hxx: Bilaplacian::residual_flux, make_initial"]}
{"id": "C61", "title": "The condensed biharmonic problem", "statement": "Summed over a hypergraph, trace_to_flux of the Bilaplacian solver is a symmetric linear operator; if value and Laplacian are prescribed on the same nodes and every node is connected to one of them, there is exactly one trace vanishing there whose flux cancels the residual of the zero trace.", "quantifier": "all hypergraphs, meshes, coefficients, data and tau > 0", "why_tests_cant": "quantifies over all hypergraphs and meshes of any size", "anchors": ["include/HyperHDG/local_solver/bilaplacian_ldgh.hxx: Bilaplacian::trace_to_flux, residual_flux", "include/HyperHDG/global_loop/elliptic.hxx: Elliptic::trace_to_flux, residual_flux"]}
{"id": "C62", "title": "The BilaplacianUniform local solver", "statement": "For tau > 0, trace_to_flux of BilaplacianUniform returns for every trace the numerical fluxes of the mixed local problem on the reference cube (first of the value, then of the Laplacian), is linear, agrees with DiffusionUniform in the second half, is symmetric after exchanging the halves of one argument, and vanishes for traces of constants; with declared Dirichlet indices the condensed problem has exactly one solution for all boundary values and right-hand sides.", "quantifier": "all dimensions, degrees, traces, tau > 0, hypergraphs, declared indices and boundary values", "why_tests_cant": "quantifies over all traces, hypergraphs and boundary values", "anchors": ["include/HyperHDG/local_solver/bilaplacian_uniform_ldgh.hxx: BilaplacianUniform::trace_to_flux, residual_flux, bulk_values", "include/HyperHDG/global_loop/elliptic.hxx: Elliptic::trace_to_flux"]}
{"id": "C63", "title": "The BilaplacianParab local solver", "statement": "For tau, theta, delta_t > 0 and a nonnegative coefficient, trace_to_flux, residual_flux and set_data of BilaplacianParab return on every hyperedge; set_data replaces the stored unknowns by those of the implicit Euler step of the mixed LDG-H method from the stored value, for theta = 1; trace_to_flux is linear, symmetric on traces vanishing where prescribed, zero in the prescribed rows, and added to the residual of the zero trace it gives the numerical fluxes of the step. For theta != 1 the step is a theta step exactly if the old discrete Laplacian vanishes.", "quantifier": "all dimensions, degrees, hyperedges, data, traces, times and parameters", "why_tests_cant": "quantifies over all integrals, traces, stored data and parameters", "anchors": ["include/HyperHDG/local_solver/bilaplacian_parab_ldgh.hxx: BilaplacianParab::trace_to_flux, residual_flux, set_data, make_initial, errors, bulk_values"]}
{"id": "C64", "title": "Time stepping for the biharmonic problem", "statement": "On every hypergraph and after any number of time steps with any vectors, the hyperedges keep the state of the step scheme started from the projected initial value; the linear system a program solves for the next step says exactly that the numerical fluxes of the next state balance in every node; it has exactly one solution if value and Laplacian are prescribed on the same nodes and the coefficient is positive; and the L2 distance of two computations with different initial values never grows, for any step size.", "quantifier": "all hypergraphs, numbers of steps, sequences of vectors, initial values, step sizes", "why_tests_cant": "quantifies over histories of any length and all hypergraphs", "anchors": ["include/HyperHDG/local_solver/bilaplacian_parab_ldgh.hxx: BilaplacianParab", "include/HyperHDG/global_loop/parabolic.hxx: Parabolic::trace_to_flux, residual_flux, set_data, make_initial", "reproducibles_python/bilaplacian_convergence_parabolic.py"]}
{"id": "C65", "title": "The BilaplacianEigs local solver", "statement": "For every hyperedge, trace and eigenvalue, trace_to_flux returns the numerical fluxes of the solution of the local mixed LDG-H eigenvalue problem (the flux of the Laplacian where u is not prescribed, the flux of u where the Laplacian is not prescribed, exact zeros otherwise) or fails if that problem is not uniquely solvable; it is linear and symmetric for each eigenvalue, it always returns for eigenvalues <= 0 if tau > 0 and the coefficient is nonnegative, and for eigenvalue 0 it agrees with the operator of the stationary problem. make_initial and bulk_values return the documented integrals and point values (up to recorded deviations).", "quantifier": "all dimensions, degrees, hyperedges, traces, eigenvalues and parameters", "why_tests_cant": "quantifies over all integrals, traces and eigenvalues", "anchors": ["include/HyperHDG/local_solver/bilaplacian_eigs_ldgh.hxx: BilaplacianEigs::trace_to_flux, make_initial, bulk_values, node_types"]}
{"id": "C66", "title": "The Jacobian for biharmonic eigenvalue problems is the derivative", "statement": "If the shape functions are orthonormal and the coefficient does not depend on the eigenvalue, then the vector which jacobian_of_trace_to_flux returns, on a hyperedge and on the whole hypergraph, is the directional derivative of trace_to_flux with respect to trace and eigenvalue; at eigenvalue 0, its part for the eigenvalue is the mass operator of the stationary problem. If the coefficient depends on the eigenvalue (which the code passes as its time) this fails.", "quantifier": "all hypergraphs, points (trace, eigenvalue) with solvable local problems, and directions", "why_tests_cant": "a statement about derivatives in all directions at all points", "anchors": ["include/HyperHDG/local_solver/bilaplacian_eigs_ldgh.hxx: BilaplacianEigs::jacobian_of_trace_to_flux, assemble_rhs_from_coeffs", "include/HyperHDG/global_loop/nonlinear_eigenvalue.hxx: NonlinearEigenvalue::trace_to_flux, jacobian_of_trace_to_flux"]}
{"id": "C67", "title": "Eigenpairs of the biharmonic operator", "statement": "If trace_to_flux of a nonzero vector, zero where prescribed, vanishes for an eigenvalue, then the eigenvalue is the Rayleigh quotient of the norm of the discrete Laplacian and that of the eigenfunction; it is not negative if value and Laplacian are prescribed at the same nodes, tau > 0 and the coefficient is positive, and it is positive if every node is connected to a prescribed one; eigenfunctions for different eigenvalues, and their Laplacians, are orthogonal.", "quantifier": "all hypergraphs, eigenvectors and eigenvalues", "why_tests_cant": "quantifies over all hypergraphs and all eigenpairs", "anchors": ["include/HyperHDG/local_solver/bilaplacian_eigs_ldgh.hxx: BilaplacianEigs::trace_to_flux", "include/HyperHDG/global_loop/nonlinear_eigenvalue.hxx: NonlinearEigenvalue::trace_to_flux"]}
{"id": "C68", "title": "The Timoshenko solver computes the hybridised solution of a beam", "statement": "trace_to_flux and residual_flux take displacement and rotation of the ends of a beam to its frame, solve the hybridised local problem of the Timoshenko beam (without or with loads and prescribed values), and add the resulting forces and moments, as vectors in space, to the output; results vanish on faces where displacement and rotation are prescribed. The local operator is linear, residual_flux is affine with it as linear part, it is symmetric and negative semidefinite, and for tau > 0 and positive stiffnesses all functions return. bulk_values evaluates the displacement of the solution, errors the squared differences to the analytic displacement.", "quantifier": "all beams with complete data and stiffness coefficients different from zero, all traces and all polynomial degrees", "why_tests_cant": "quantifies over all traces, beams and shape functions", "anchors": ["include/HyperHDG/local_solver/timoshenko_network.hxx: TimoshenkoNetwork::trace_to_flux, residual_flux, bulk_values, errors"]}
{"id": "C69", "title": "A clamped network of beams has exactly one discrete equilibrium", "statement": "On each hypergraph of beams the global operator is linear, symmetric and negative semidefinite on the vectors vanishing where values are prescribed; if every hypernode is connected by beams to one where displacement and rotation are prescribed, then exactly one vector which vanishes there makes the global residual_flux vanish.", "quantifier": "all well-formed hypergraphs of beams with orthonormal frames and tau > 0", "why_tests_cant": "quantifies over all networks", "anchors": ["include/HyperHDG/local_solver/timoshenko_network.hxx: TimoshenkoNetwork::trace_to_flux, residual_flux", "include/HyperHDG/global_loop/elliptic.hxx: Elliptic::trace_to_flux, residual_flux"]}
{"id": "C70", "title": "Stiffnesses of the cross section", "statement": "The stiffnesses used in the direction of a normal of the frame are those given with the beam for the normals of its cross section: if the normals of the frame are those of the cross section, in any order and up to sign, the given ones, and for other frames those of the rotated cross section.", "quantifier": "all beams with twelve numbers as extra data and all orthonormal frames", "why_tests_cant": "the test networks have only a few frames", "anchors": ["include/HyperHDG/local_solver/timoshenko_network.hxx: TimoshenkoNetwork::assemble_loc_matrix"]}
{"id": "C71", "title": "Rigid motions of a network cause no forces", "statement": "If the ends of a beam are moved by a rigid motion, displacement a + r x p and rotation r, the beam transmits neither forces nor moments, whatever its position, direction and frame.", "quantifier": "all beams, frames computed by the mapping and rigid motions", "why_tests_cant": "quantifies over all rigid motions and directions of beams", "anchors": ["include/HyperHDG/local_solver/timoshenko_network.hxx: TimoshenkoNetwork::trace_to_flux, node_dof_to_edge_dof, assemble_loc_matrix", "include/HyperHDG/mapping/linear.hxx: Linear::inner_normal, outer_normal", "include/HyperHDG/wrapper/lapack.hxx: lapack_qr_decomp_full"]}
{"id": "C72", "title": "The time-dependent advection solver computes the theta scheme of the upwind HDG method", "statement": "After make_initial and n calls of set_data with the traces of the time steps, the hyperedges keep the solution of the n-th step of the theta scheme for the upwind HDG method with these traces; trace_to_flux returns theta times the numerical flux of the local solution for a trace and zero on Dirichlet faces, residual_flux the theta-weighted fluxes of the step from the kept solution; trace_to_flux is linear, residual_flux affine with it as linear part; bulk_values and errors use the kept solution. If a local problem is not uniquely solvable all of them fail.", "quantifier": "all hypergraphs, all traces vanishing on Dirichlet faces, all numbers of time steps, all theta, tau, delta_t", "why_tests_cant": "quantifies over all histories of calls, traces and velocity fields", "anchors": ["include/HyperHDG/local_solver/advection_parab_ldgh.hxx: AdvectionParab::trace_to_flux, residual_flux, make_initial, set_data, errors, bulk_values", "include/HyperHDG/global_loop/parabolic.hxx: Parabolic::trace_to_flux, residual_flux, make_initial, set_data"]}
{"id": "C73", "title": "Discrete conservation of the advected quantity", "statement": "In each time step whose vector makes residual_flux vanish, the integral of the solution over the hypergraph changes exactly by the integral of the source minus what flows through Dirichlet and outflow faces, weighted by theta and 1 - theta: nothing is lost or created at the other hypernodes.", "quantifier": "all hypergraphs, velocity fields, numbers of time steps, theta, tau and delta_t", "why_tests_cant": "quantifies over all hypergraphs and all histories", "anchors": ["include/HyperHDG/local_solver/advection_parab_ldgh.hxx: AdvectionParab::trace_to_flux, residual_flux, set_data", "include/HyperHDG/global_loop/parabolic.hxx: Parabolic::residual_flux, set_data"]}
{"id": "C74", "title": "Time steps of the advection problem exist, are unique and do not amplify differences", "statement": "For tau >= 0, theta > 0, delta_t > 0 and velocity fields without sinks inside hyperedges and at hypernodes, every time step has exactly one vector which vanishes at the Dirichlet nodes and makes residual_flux vanish, hence so has the whole computation; the L2 distance of two solutions with different initial values does not grow, for implicit Euler, and for theta >= 1/2 if the velocity field does not depend on the time.", "quantifier": "all hypergraphs, velocity fields without sinks, initial values and numbers of time steps", "why_tests_cant": "quantifies over all hypergraphs, data and step sizes", "anchors": ["include/HyperHDG/local_solver/advection_parab_ldgh.hxx: AdvectionParab::trace_to_flux, residual_flux, set_data", "include/HyperHDG/global_loop/parabolic.hxx: Parabolic::trace_to_flux, residual_flux, set_data"]}
{"id": "C75", "title": "Free stream preservation", "statement": "If initial value and Dirichlet data are the constant 1, there is no source and the velocity field is divergence free in the hyperedges and balanced at the hypernodes, then for every number of time steps the traces of the constant make residual_flux vanish and the kept solution is exactly the constant.", "quantifier": "all hypergraphs, balanced divergence free velocity fields, theta, tau, delta_t and numbers of steps", "why_tests_cant": "quantifies over all histories and velocity fields", "anchors": ["include/HyperHDG/local_solver/advection_parab_ldgh.hxx: AdvectionParab::make_initial, residual_flux, set_data", "include/HyperHDG/global_loop/parabolic.hxx: Parabolic::make_initial, residual_flux, set_data"]}
{"id": "C76", "title": "Inflow and outflow faces", "statement": "A face of boundary type which is neither declared Dirichlet nor outflow is of exactly one of the two types: Dirichlet if the velocity does not point out of the hyperedge there, outflow if it does, for every geometry.", "quantifier": "all hyperedges of all geometries and all velocity fields", "why_tests_cant": "quantifies over all positions and directions of hyperedges", "anchors": ["include/HyperHDG/local_solver/advection_parab_ldgh.hxx: AdvectionParab::is_dirichlet, is_outflow", "include/HyperHDG/geometry/unit_cube.hxx: UnitCube::hyEdge::inner_normal", "include/HyperHDG/geometry/file.hxx: File::hyEdge::inner_normal", "include/HyperHDG/mapping/linear.hxx: Linear::inner_normal"]}
{"id": "C77", "title": "Evaluation points of geometries read from files", "statement": "For a hyperedge of a geometry read from a file and refined, lexicographic(index, points) is the point of the hyperedge whose coordinates in its sub-element are the given one-dimensional points numbered by the digits of index; boundary_lexicographic gives the points of the same kind on a face; the in-place and the copying version of map_ref_to_phys give the same points.", "quantifier": "every domain, refinement level, hyperedge, face, number of points and index", "why_tests_cant": "All domains, indices and dimensions.", "anchors": ["include/HyperHDG/geometry/file.hxx: File::hyEdge::lexicographic, boundary_lexicographic, map_ref_to_phys"]}
{"id": "C78", "title": "Error of the postprocessed solution", "statement": "errors of DiffusionPostprocess returns the squared distance of the analytic result to the postprocessed solution: the unique function w of degree one higher with (kappa grad w, grad v) = -(q, grad v) for all v of that degree and the mean value of u, where q and u are the local solution with source and Dirichlet data. It is exact if q is the flux of such a function. It returns for tau > 0 and positive diffusion; if the local problem is not solvable the debug build aborts and the release build throws, if only the postprocessing is not solvable both throw.", "quantifier": "every hyperedge dimension, number of shape functions, trace, data, penalty parameter and hyperedge with lawful integrals", "why_tests_cant": "All traces, degrees and hyperedges; a test sees one convergence rate.", "anchors": ["include/HyperHDG/local_solver/diffusion_ldgh_pp.hxx: DiffusionPostprocess::errors"]}
{"id": "C79", "title": "What the interior penalty solver computes", "statement": "For DiffusionIP, trace_to_flux returns zero on Dirichlet faces and on the others the numerical flux - kappa grad u . n + tau (u - lambda) of the solution u of the hybridised interior penalty problem on the hyperedge; residual_flux is the same with source and Dirichlet data; errors and bulk_values evaluate that solution. It is linear (affine) in the trace, does not read the output argument, conserves (fluxes tested by 1 add up to the integral of the source), and returns zero for traces of constants. If the local problem is not uniquely solvable the debug build aborts and the release build throws. The diffusion coefficient is taken at the given time.", "quantifier": "every hyperedge dimension, polynomial degree, trace, time, penalty parameter and hyperedge", "why_tests_cant": "All traces, degrees, times and hyperedges; tests with steady coefficients cannot see the time argument.", "anchors": ["include/HyperHDG/local_solver/diffusion_ip.hxx: DiffusionIP::trace_to_flux, residual_flux, errors, bulk_values, assemble_loc_matrix, primal_at_boundary, dual_at_boundary, node_types"]}
{"id": "C80", "title": "Penalty condition, definiteness and unique solvability of the interior penalty method", "statement": "If 4 tau exceeds the constant of the discrete trace inequality, local problems are uniquely solvable, the operator of trace_to_flux is negative semidefinite on vectors vanishing on Dirichlet faces and vanishes only for traces of functions without energy; so on each hypergraph on which each hypernode is connected to a Dirichlet node there is exactly one discrete solution. This holds for unit cubes of every dimension, every degree and constant coefficient. In one dimension the operator is symmetric; in two dimensions it is not, and for a small penalty it is not semidefinite.", "quantifier": "every hypergraph, dimension, degree, trace and penalty parameter as stated", "why_tests_cant": "All hypergraphs, traces and penalty parameters; a test tries one parameter on one mesh.", "anchors": ["include/HyperHDG/local_solver/diffusion_ip.hxx: DiffusionIP::trace_to_flux", "reproducibles_python/diffusion_convergence_elliptic_ip.py"]}
{"id": "C81", "title": "What the solver for diffusion, advection and reaction computes", "statement": "For DiffusionAdvectionReaction, trace_to_flux returns zero on Dirichlet faces and on the others the numerical flux q . n + tau (u - lambda) of the solution of the local problem q = - kappa grad u + b u, div q + r u = 0 with trace lambda; residual_flux is the same with source and Dirichlet data; the mass fluxes, errors and bulk_values are those of these solutions. It is linear (affine) in the trace and does not read the output argument. Fluxes tested by 1 add up to the integral of the source less that of the reaction; solutions which lie in the discrete space are reproduced exactly, in particular a constant in a constant velocity gives the flux b . n times the constant; without velocity and reaction the results are those of Diffusion. If the local problem is not uniquely solvable the debug build aborts and the release build throws. All coefficients are taken at the given time.", "quantifier": "every hyperedge dimension, polynomial degree, trace, time, stabilisation parameter, velocity, reaction rate and hyperedge", "why_tests_cant": "All traces, degrees, times and coefficients; tests with steady velocities cannot see the time argument.", "anchors": ["include/HyperHDG/local_solver/diffusion_advection_reaction_ldg.hxx: DiffusionAdvectionReaction::trace_to_flux, residual_flux, trace_to_mass_flux, total_numerical_flux_mass, errors, bulk_values, assemble_loc_matrix, solve_local_problem, solve_mass_problem"]}
{"id": "C82", "title": "When the solver for diffusion, advection and reaction has exactly one solution", "statement": "If the reaction dominates (for constants: |b|^2 < 4 kappa r) and tau > 0, local problems are uniquely solvable, the operator of trace_to_flux is negative definite, and on every hypergraph there is exactly one discrete solution, with or without Dirichlet nodes. If the velocity is constant on each hyperedge, the reaction rate not negative and tau > - b . n / 2 on each face, local problems are uniquely solvable; if moreover each hypernode is connected to a Dirichlet node and at each other hypernode not more flows in from the hyperedges than flows out to them (Kirchhoff), there is exactly one discrete solution. The balance cannot be dropped, and the operator is neither symmetric nor semidefinite.", "quantifier": "every hypergraph, dimension, degree, velocity, reaction rate and stabilisation parameter as stated", "why_tests_cant": "All hypergraphs, velocities and parameters; a test tries one flow on one mesh.", "anchors": ["include/HyperHDG/local_solver/diffusion_advection_reaction_ldg.hxx: DiffusionAdvectionReaction::trace_to_flux, residual_flux", "reproducibles_python/advection_diffusion_reaction_hypergraph_convergence_elliptic.py"]}
{"id": "C83", "title": "Changed headers are noticed", "statement": "Before it compiles, HyperHDG.include checks whether the headers have changed since the shared object was linked. This check ends for all files, also if headers include each other in a cycle. It says that nothing has to be compiled if and only if all headers of the library which are included by the given ones, directly or indirectly, exist and are not newer than the shared object; if all of them exist, it says that the program has to be compiled if and only if one of them is newer.", "quantifier": "every set of files with any contents and times, every list of headers, every time", "why_tests_cant": "All include graphs, with cycles and diamonds of any size.", "anchors": ["import/HyperHDG/import_cxx/compile_prep.py: need_compile_check_hy_files"]}
{"id": "C84", "title": "include returns the class which was asked for", "statement": "Whatever has happened before (any calls of include with any configurations, in any number of processes, each of which may stop at any point; files changed at any time, also while the compiler runs): if HyperHDG.include(conf) returns a class, this comes from a program which was generated from the templates and compiled for the C++ class of conf, up to spaces, and for the debug mode of conf. Assertions are active if and only if debug mode was asked for. Different classes or modes never share a module.", "quantifier": "every history of calls, crashes and edits, every configuration", "why_tests_cant": "All histories and crash points.", "anchors": ["import/HyperHDG/import_cxx/include.py: include", "import/HyperHDG/import_cxx/names.py: files", "import/HyperHDG/import_cxx/compile_prep.py: need_compile, own_code"]}
{"id": "C85", "title": "include returns a class which is up to date", "statement": "If HyperHDG.include(conf) returns a class, this was compiled from the present contents of the headers, templates and options, with the replacements and the own code of conf.", "quantifier": "every history of calls, crashes and edits, every configuration", "why_tests_cant": "All histories, crash points and schedules of edits and compilations.", "anchors": ["import/HyperHDG/import_cxx/include.py: include", "import/HyperHDG/import_cxx/compile_prep.py: need_compile, own_code, need_compile_check_hy_files"]}
{"id": "C86", "title": "Names of templates, headers and replacements", "statement": "A name of a global loop which consists of words (upper case letter, lower case letters) is turned into the words in lower case, joined by underscores. The class name is what comes before the first < or space. The header found for a class lies in the folder and contains its definition, whether with class or with struct; if there is one, one is found. Each replacement in the templates is the one of the user, or the default one if it is missing or empty; it is an error if both are missing.", "quantifier": "every name, every contents of the folders, every configuration", "why_tests_cant": "All names and files.", "anchors": ["import/HyperHDG/import_cxx/names.py: cython_from_cpp", "import/HyperHDG/import_cxx/cpp.py: extract_classname, find_definition", "import/HyperHDG/import_cxx/config.py: generate_cy_replace"]}
{"id": "C87", "title": "Configuration objects do not influence each other", "statement": "What HyperHDG.include(conf) compiles and returns does not depend on which other configuration objects have been included before in the same process.", "quantifier": "every sequence of calls in a process", "why_tests_cant": "All sequences of configurations; a test with one configuration sees nothing.", "anchors": ["import/HyperHDG/import_cxx/config.py: config, extract_includes"]}
{"id": "C88", "title": "Python objects pass everything on to C++ objects", "statement": "Constructing an object of an included class from Python constructs the C++ object with these arguments, or raises an exception. Each method then returns the result of the C++ method; a C++ exception becomes a Python exception. size_of_system() is the size of the system. refine(n) sets the refinement and returns n, refine() returns it.", "quantifier": "every class, all arguments, all states of the C++ object", "why_tests_cant": "All classes and arguments, exceptions of the C++ code, and systems with more than 2^31 unknowns.", "anchors": ["cython/elliptic.pyx, cython/elliptic.pxd: __cinit__, size_of_system, refine", "cython/parabolic.pyx, cython/mass_approx_eigenvalue.pyx, cython/nonlinear_eigenvalue.pyx, cython/shifted_inverse_eigenvalue.pyx"]}
{"id": "C89", "title": "The programs for time-dependent problems compute the time steps", "statement": "The example programs for time-dependent problems (diffusion, advection, biharmonic problem) make the initial data, and in each time step a right-hand side, one linear system, and new data. If the linear solvers are exact, then whatever the number of time steps, a program which ends has computed the steps of the scheme: every vector vanishes at the Dirichlet nodes and makes the fluxes of this time step balance at all other hypernodes, starting from the projection of the initial value, and the error it prints is that of the last step. If one of the solvers always succeeds the program ends.", "quantifier": "every number of time steps, every mesh, time step size and coefficients, every list of solvers", "why_tests_cant": "All numbers of steps, meshes and coefficients; with coefficients which do not depend on the time a wrong time argument is invisible.", "anchors": ["reproducibles_python/diffusion_convergence_parabolic.py", "reproducibles_python/bilaplacian_convergence_parabolic.py", "reproducibles_python/advection_convergence_parabolic.py, advection_convergence_rotation.py, advection_convergence_leVeque_hypergraph.py", "cython/parabolic.pyx: trace_to_flux, residual_flux, set_data, make_initial"]}
{"id": "C90", "title": "The eigenvalue programs return eigenpairs of the discrete problem", "statement": "The example programs which approximate eigenvalues (mass approximation and shifted inverse, for diffusion and the biharmonic problem) remove the unknowns at the Dirichlet nodes, hand operators on the remaining unknowns to an eigenvalue solver and extend the vector it returns by zeros. If the solvers are exact, then whatever mesh and shift, the number and the vector a program returns belong together: the vector is not zero, vanishes at the Dirichlet nodes and satisfies the equation of the discrete eigenvalue problem with this number in every row; for diffusion the number is positive and no other eigenvalue is nearer to the shift. The vector plotted is that eigenvector. For diffusion over the real numbers the program returns unless the shift is an eigenvalue or the mass operator zero.", "quantifier": "every mesh, list of Dirichlet nodes, coefficients, shift, linear solver and eigenvalue solver", "why_tests_cant": "All lists of Dirichlet indices and all positions of free unknowns between them; a plot of the wrong vector is not seen by a test of the eigenvalue.", "anchors": ["reproducibles_python/diffusion_convergence_eigenvalue_approx.py: helper_ev_approx, eigenvalue_approx_MA", "reproducibles_python/diffusion_convergence_eigenvalue_shifted_inverse.py", "reproducibles_python/diffusion_convergence_eigenvalue_shifted_inverse_cross.py", "reproducibles_python/bilaplacian_convergence_eigenvalue_approx.py", "reproducibles_python/bilaplacian_convergence_eigenvalue_shifted_inverse.py", "include/HyperHDG/global_loop/mass_approx_eigenvalue.hxx", "include/HyperHDG/global_loop/shifted_inverse_eigenvalue.hxx"]}
{"id": "C91", "title": "The Newton programs return approximate eigenpairs, and find an eigenpair they start near", "statement": "The example programs which compute an eigenvalue with Newton's method evaluate the residual (the fluxes, and the norm of the trace minus one) and its derivative, and damp the steps. If a program returns, then the number and the trace it returns belong together: the trace vanishes where it is prescribed, its norm is one and its fluxes for this number are zero, up to 10^-9. Every accepted step has decreased the residual. The damping loop ends after at most 14 passes. The Jacobian product is the derivative of the residual (diffusion, bilaplacian) wherever the local problems have one solution. Started with a normalised eigenpair the program returns it; started near a simple one it returns a pair near it, if the linear solver reports success for the first system. If a linear solver fails, the program raises the exception which its caller catches. The list with the initial value which the caller passes is not changed.", "quantifier": "every mesh, coefficients, start, number of steps and linear solver", "why_tests_cant": "Convergence near every simple eigenpair is a statement about all starts in a neighbourhood; failures of the linear solver hardly occur in a test.", "anchors": ["reproducibles_python/diffusion_convergence_eigenvalue_newt.py: helper_ev_newt, eigenvalue_newt", "reproducibles_python/diffusion_convergence_eigenvalue_comb.py", "reproducibles_python/bilaplacian_convergence_eigenvalue_newt.py: helper_ev_newt, eigenvalue_newt", "reproducibles_python/bilaplacian_convergence_eigenvalue_comb.py", "include/HyperHDG/global_loop/nonlinear_eigenvalue.hxx: trace_to_flux, jacobian_of_trace_to_flux, make_initial", "include/HyperHDG/local_solver/diffusion_ldgh.hxx: DiffusionEigs", "include/HyperHDG/local_solver/bilaplacian_ldgh.hxx: BilaplacianEigs"]}
{"id": "C92", "title": "Exact solutions in the discrete spaces are reproduced", "statement": "If polynomials of the degree of the local solver on the hyperedges (flux and primal unknown) solve the diffusion problem - the equations hold pointwise, the values at common hypernodes agree, the fluxes at the hypernodes cancel, the Dirichlet values are attained - then, whatever the positive penalty parameter is, the vector of the values at the hypernodes is the only one which vanishes at Dirichlet nodes and has residual zero; for this vector the returned bulk values are the values of the exact solution and its flux, and the returned error is zero. The vector which the example program returns differs from it by at most what the tolerance permits.", "quantifier": "every hypergraph of affine hyperedges with each hypernode connected to a Dirichlet node, every dimension, degree and penalty parameter, all admissible data with a polynomial solution", "why_tests_cant": "A convergence test sees a few meshes and one solution; exactness is a statement for all meshes, coefficients and polynomial solutions.", "anchors": ["include/HyperHDG/local_solver/diffusion_ldgh.hxx: Diffusion::residual_flux, errors, bulk_values", "include/HyperHDG/global_loop/elliptic.hxx: residual_flux", "examples/diffusion_elliptic.cxx", "reproducibles_python/parameters/diffusion.hxx: HG::TestParametersQuadEllipt"]}
{"id": "C93", "title": "The data of the examples belong to their analytic results", "statement": "The analytic result of each parameter structure of the examples solves the differential equation with the coefficients and the right-hand side of this structure on each hyperedge of the hypergraph, and agrees with its Dirichlet values (and, for the fourth order problem, with the values of the Laplacian); so errors reported by the programs are errors of the method.", "quantifier": "every flat hyperedge of every dimension in a space of every dimension, all its points, all times", "why_tests_cant": "Tests compare numbers at few points; whether a function solves a differential equation on all hyperedges is a statement about derivatives at all points.", "anchors": ["reproducibles_python/parameters/diffusion.hxx", "reproducibles_python/parameters/bilaplacian.hxx", "reproducibles_python/parameters/diffusion_advection_reaction.hxx", "reproducibles_python/parameters/advection.hxx", "examples/parameters/diffusion.hxx", "reproducibles_python/fiber_network_diffusion.py", "reproducibles_python/advection_convergence_rotation.py"]}
{"id": "C94", "title": "The discrete solution converges to the solution", "statement": "For a classical solution of a diffusion problem, the error of the computed flux is bounded by a constant times the errors with which polynomials of the degree of the local solver approximate the solution and its flux on the hyperedges; the constant depends on degree, dimension and basis only, and not on hypergraph, sizes of hyperedges, coefficients or penalty parameter (whose influence is explicit). On networks of edges, the errors at the nodes and the errors which the program returns are bounded in the same way, with the total length of the network in the constant. On an interval divided into n edges, for a smooth solution, the squared errors of flux, values at the nodes and returned errors are at most C(tau) n^-(2p+1), where C(tau) is given.", "quantifier": "every hypergraph of affine hyperedges with each hypernode connected to a Dirichlet node, every dimension, degree, penalty parameter, all admissible data with a classical solution; for the rates, every number of edges", "why_tests_cant": "A convergence test sees finitely many meshes and one solution and can not tell a rate from its beginning; the estimate is a statement for all meshes, data and solutions.", "anchors": ["include/HyperHDG/local_solver/diffusion_ldgh.hxx: Diffusion::residual_flux, errors, bulk_values", "include/HyperHDG/global_loop/elliptic.hxx: residual_flux", "reproducibles_python/diffusion_convergence_elliptic.py", "examples/diffusion_elliptic.cxx"]}
{"id": "C95", "title": "The Python programs for elliptic problems return the solution of the discrete problem, up to the tolerance of the linear solver", "statement": "A Python program for an elliptic problem either raises an exception or returns a vector whose residual, as computed by residual_flux, has norm at most tol times that of the zero vector and which vanishes at Dirichlet nodes, together with the error which the class computes for this vector. If all linear solvers fail it raises an exception; if one of them finds solutions of solvable systems it returns. With exact linear solvers the vector is the one discrete solution. Programs which assemble the sparse matrix and programs which use the operator solve the same system. This holds for diffusion (with and without postprocessing), interior penalty, diffusion-advection-reaction and networks of beams; for plates the program solves the linear system, whose residual is not that of residual_flux.", "quantifier": "every hypergraph with each hypernode connected to a Dirichlet node, all data, every tolerance, every list of linear solvers which satisfy their contract, both ways to set up the system", "why_tests_cant": "Tests run the programs for a few meshes and one linear solver; the claim is about all meshes, data, tolerances and all histories of successes and failures of the linear solvers.", "anchors": ["reproducibles_python/diffusion_convergence_elliptic.py", "reproducibles_python/diffusion_convergence_elliptic_postprocess.py", "reproducibles_python/diffusion_hypergraph_convergence_elliptic_ip.py", "reproducibles_python/bilaplacian_convergence_elliptic.py", "reproducibles_python/advection_diffusion_reaction_convergence_elliptic.py", "reproducibles_python/timoshenko_convergence_cross.py", "cython/elliptic.pyx: sparse_stiff_mat", "include/HyperHDG/global_loop/elliptic.hxx: trace_to_flux, residual_flux, errors, sparse_stiff_mat"]}
{"id": "C96", "title": "The penalty chosen by the interior penalty programs is large enough on every grid, for every polynomial degree", "statement": "For every dimension of hyperedges, every positive polynomial degree p and every number of refinements k the penalty 5 (d + 1) p^3 2^k, which the programs hand to the local solver, exceeds the threshold beyond which all local problems are solvable and the global problem has exactly one solution; hence the programs compute that solution up to the tolerance of the linear solver and never fail in the local solver. Every cubic grid has Dirichlet nodes, all of its cells are cubes with side 2^-k. For degree 0 the formula gives 0, and then no flux is ever returned.", "quantifier": "every dimension of hyperedges and of space up to 3, every positive polynomial degree, every number of refinements, every constant diffusion coefficient below 5 (the programs use 1 and 2 / pi), all right-hand sides and boundary values", "why_tests_cant": "The programs run degrees 1 to 3 and at most 32 cells per direction; that the formula is large enough for all degrees and meshes needs a sharp inverse inequality for polynomials.", "anchors": ["reproducibles_python/diffusion_convergence_elliptic_ip.py", "reproducibles_python/diffusion_hypergraph_convergence_elliptic_ip.py", "reproducibles_python/parameters/diffusion.hxx: diffusion_coeff, dirichlet_nodes", "include/HyperHDG/local_solver/diffusion_ip.hxx: constructor, assemble_loc_matrix", "include/HyperHDG/geometry/unit_cube.hxx", "include/HyperHDG/node_descriptor/cubic.hxx"]}
{"id": "C97", "title": "On networks of edges the operator is a weighted graph Laplacian: direction of edges irrelevant, discrete maximum principle, monotone in the boundary values", "statement": "For diffusion on networks (hyperedges of dimension one) the map from values at the nodes to fluxes is a weighted graph Laplacian: each edge has a positive weight, depending only on its geometry, coefficient, degree and penalty, and contributes weight times difference of the values at its ends. So the result does not depend on the direction in which an edge is given; without sources the values of the discrete solution lie between the smallest and the largest prescribed value, for every polynomial degree and penalty; and larger prescribed values with the same sources give values at least as large at all nodes. The edge statement also holds for the interior penalty solver beyond its threshold.", "quantifier": "all networks of edges (any number of edges meeting at a node), all polynomial degrees, all positive penalties and coefficients, all Dirichlet types, values and sources; Dirichlet data through node types (Diffusion) or through declared indices (DiffusionUniform)", "why_tests_cant": "Sign and comparison statements for all graphs, data and degrees; a test computes finitely many solutions.", "anchors": ["include/HyperHDG/local_solver/diffusion_ldgh.hxx: trace_to_flux, residual_flux", "include/HyperHDG/local_solver/diffusion_uniform_ldgh.hxx: trace_to_flux", "include/HyperHDG/local_solver/diffusion_ip.hxx: trace_to_flux", "include/HyperHDG/global_loop/elliptic.hxx: trace_to_flux, residual_flux, read_dirichlet_indices"]}
{"id": "C98", "title": "The numbers of hyperedges and hypernodes do not matter", "statement": "Reordering the hyperedges of a file and renumbering its hypernodes only renumbers the results. For every refinement the new topology is the old one with other numbers (same positions in the coarse hyperedges, same types of faces); fluxes, residuals and masses of renumbered vectors are the renumbered ones, also with declared Dirichlet indices; a vector is a discrete solution iff the renumbered vector solves the renumbered problem; data of time dependent problems move with the hyperedges; the returned errors are the same. The vector returned by make_initial is the same if the local initial values agree at common hypernodes; otherwise it depends on the order of the hyperedges.", "quantifier": "all hypergraphs, all permutations of hyperedges and hypernodes, all refinements without overflow, all local solvers (arbitrary local functions), all vectors", "why_tests_cant": "Ranges over all pairs of hypergraphs and permutations and over all local solvers.", "anchors": ["include/HyperHDG/topology/file.hxx", "include/HyperHDG/node_descriptor/file.hxx", "include/HyperHDG/global_loop/prototype.hxx", "include/HyperHDG/global_loop/elliptic.hxx", "include/HyperHDG/global_loop/parabolic.hxx: set_data, make_initial"]}
{"id": "C99", "title": "The generator of fibre networks writes the network which its tables describe", "statement": "make_geo.py turns tables of nodes, fibres and connections into a .geo file. It does not fail on complete tables; each connection becomes an edge between the vertices of its two points, the pieces of each connected fibre form a chain from its beginning through all connection points in their order to its end, every edge joins two different existing vertices, and 'Error' is never printed. Each hyperedge is written with the properties of its own connection or fibre. Connections and fibres which belong to the same point meet in the same vertex. The file is read back by the library as exactly this network, with type 1 for the faces at hypernodes in the boundary of the bounding box.", "quantifier": "all tables of nodes, fibres, connections and properties, in exact arithmetic", "why_tests_cant": "Ranges over all networks; the errors only show for crossing fibres and for points which nearly coincide.", "anchors": ["domains/morgan/make_geo.py", "include/HyperHDG/read_domain.hxx"]}
{"id": "C100", "title": "On networks of edges the computed values at the nodes are exact", "statement": "For diffusion on a network of edges whose inverse diffusion coefficient is on each edge a polynomial of degree less than the polynomial degree p of the local solver (e.g. constant, p at least one), every vector with residual zero consists of the values of the exact solution at the nodes, and the local solver returns the exact fluxes at the ends of all edges. This holds for every right-hand side, whatever the lengths of the edges, the degree and the penalty tau > 0. For degree zero it does not hold.", "quantifier": "all networks in which each node is connected to a Dirichlet node, all data with a classical solution, all degrees, all tau > 0, exact integrals and exact arithmetic", "why_tests_cant": "A test compares values for a few networks up to rounding errors; that the error vanishes for all right-hand sides and does not depend on tau is a statement about infinitely many problems.", "anchors": ["include/HyperHDG/local_solver/diffusion_ldgh.hxx: residual_flux, trace_to_flux", "include/HyperHDG/global_loop/elliptic.hxx: residual_flux"]}
{"id": "C101", "title": "What flows out is what the sources produce; problems without Dirichlet nodes", "statement": "For the diffusion solver, what flows out of a hyperedge through its faces is the integral of the source over it, and what leaves the hypergraph at the Dirichlet nodes is the integral of all sources. If there are no Dirichlet nodes and the hypergraph is connected, a vector with zero residual exists exactly if the sources cancel, such vectors differ by constants, and the C++ program which solves the problem by conjugate gradients returns one of mean zero within the tolerance; if the sources do not cancel the program throws SolveException for each tolerance below a bound given by the sources.", "quantifier": "all hypergraphs of any dimension, all data, all polynomial degrees, all tau > 0, all tolerances; exact integrals and exact arithmetic", "why_tests_cant": "The existence of a solution for all balanced sources, and its absence for all others, concerns infinitely many right-hand sides and graphs; a run which fails does not show that no solution exists.", "anchors": ["include/HyperHDG/local_solver/diffusion_ldgh.hxx: residual_flux, trace_to_flux", "include/HyperHDG/global_loop/elliptic.hxx: residual_flux, trace_to_flux", "include/HyperHDG/sparse_la.hxx: conjugate_gradient", "tests_c++/diffusion_dimensions.cxx"]}
{"id": "C102", "title": "Time stepping approaches the stationary solution", "statement": "If diffusion coefficient, source and Dirichlet values do not depend on the time, the time steps computed with DiffusionParab (theta > 1/2) approach the discrete solution computed with Diffusion for the same data: there are rho < 1 and C, independent of the initial values, such that after n steps the square of the L2 distance to the stationary solution is at most rho^n times the one at the beginning; for implicit Euler the vectors of the time steps converge to the vector of the stationary problem. A computation started with the stationary solution keeps it.", "quantifier": "all hypergraphs in which each hypernode is connected to a Dirichlet node, all data, all dimensions and degrees, all tau > 0, delta_t > 0, 1/2 < theta, all initial values, every number of time steps; exact arithmetic", "why_tests_cant": "The statement is about infinitely many time steps and all initial values, and about the agreement of two classes for all data.", "anchors": ["include/HyperHDG/local_solver/diffusion_parab_ldgh.hxx: set_data, residual_flux, make_initial", "include/HyperHDG/local_solver/diffusion_ldgh.hxx: residual_flux", "include/HyperHDG/global_loop/parabolic.hxx", "include/HyperHDG/global_loop/elliptic.hxx"]}
{"id": "C103", "title": "Superposition, reciprocity and work of loads", "statement": "Diffusion on hypergraphs and Timoshenko beam networks: (1) if source and prescribed values are a times those of one problem plus b times those of another on the same hyperedges, then a times the discrete solution of the one plus b times that of the other is the discrete solution (values at the hypernodes and coefficients on the hyperedges); (2) with zero prescribed values the load of one problem does the same work along the solution of another as the other way round (Maxwell-Betti); (3) the work of a load along its own solution is not negative, and zero only if the load is zero on all hyperedges.", "quantifier": "all hypergraphs, all dimensions and degrees, all coefficients, all loads and prescribed values, all tau > 0; exact arithmetic", "why_tests_cant": "The statements relate the results of all pairs of loads on all hypergraphs; a test compares a few.", "anchors": ["include/HyperHDG/local_solver/diffusion_ldgh.hxx: residual_flux, solve_local_problem", "include/HyperHDG/local_solver/timoshenko_network.hxx: residual_flux", "include/HyperHDG/global_loop/elliptic.hxx: residual_flux"]}
{"id": "C104", "title": "Diffusion on networks: solvable, and refinement does not change the values at the nodes", "statement": "A diffusion problem with continuous data on a network of edges whose nodes are connected to Dirichlet nodes has exactly one classical solution. If the network is read from a domain file and each edge is refined into n parts, the discrete problem has exactly one solution, and it consists of the values of that classical solution at the nodes of the file and at the new nodes. So the values at the nodes of the file do not depend on n, on the polynomial degree (if it exceeds the degree of the inverse coefficient), or on tau.", "quantifier": "all domain files of dimension one with at least one Dirichlet node per component, all continuous right-hand sides and Dirichlet values, all polynomial inverse coefficients, all refinements without overflow of indices, all degrees, all tau > 0; exact arithmetic and exact integrals", "why_tests_cant": "The statement compares the results for all pairs of refinements of all networks.", "anchors": ["include/HyperHDG/topology/file.hxx: set_refinement, get_hyNode_indices", "include/HyperHDG/node_descriptor/file.hxx: get_hyFace_types", "include/HyperHDG/local_solver/diffusion_ldgh.hxx: residual_flux", "include/HyperHDG/global_loop/elliptic.hxx: residual_flux"]}
{"id": "C105", "title": "Beam networks: equilibrium exists, and the computed displacements and rotations of the joints are exact", "statement": "A network of Timoshenko beams with continuous loads whose joints are connected to fixed ones has exactly one equilibrium. With polynomial degree at least three, the discrete problem has exactly one solution, and its entries are the displacements and rotations of the joints in that equilibrium; applied to it, the residual of a beam consists of the exact forces and moments at its ends. So the result does not depend on the degree (at least three), on tau > 0, on the basis of the polynomials or on the solver of the local systems.", "quantifier": "all networks of straight beams with orthonormal frames and positive stiffnesses, all continuous forces, moments and prescribed displacements and rotations, all degrees at least three, all tau > 0; exact arithmetic and exact integrals", "why_tests_cant": "The statement compares the computed vector with the solution of the differential equations for all networks and loads, most of which have no closed form.", "anchors": ["include/HyperHDG/local_solver/timoshenko_network.hxx: TimoshenkoNetwork::residual_flux, assemble_loc_matrix, assemble_rhs_from_global_rhs", "include/HyperHDG/global_loop/elliptic.hxx: Elliptic::residual_flux"]}
{"id": "C106", "title": "Beam networks: refinement does not change the displacements and rotations of the joints", "statement": "If a network of beams is read from a domain file and each beam is refined into n parts, the discrete problem (degree at least three) has exactly one solution; it consists of the displacements and rotations of the equilibrium of the network, at the joints of the file and at the new ones inside the beams, and applied to it the residual of a part consists of the exact forces and moments at its ends. So the values at the joints do not depend on n, on the degree or on tau.", "quantifier": "all domain files of dimension one with at least one fixed joint per component, all admissible beams and continuous loads, all refinements without overflow of indices, all degrees at least three, all tau > 0; exact arithmetic and exact integrals", "why_tests_cant": "The statement compares the results for all pairs of refinements of all networks.", "anchors": ["include/HyperHDG/topology/file.hxx: set_refinement, get_hyNode_indices", "include/HyperHDG/node_descriptor/file.hxx: get_hyFace_types", "include/HyperHDG/local_solver/timoshenko_network.hxx: TimoshenkoNetwork::residual_flux", "include/HyperHDG/global_loop/elliptic.hxx: Elliptic::residual_flux"]}
{"id": "C107", "title": "An accepted domain file can be used as hypergraph", "statement": "With assertions enabled, if read_domain returns a domain (from a .geo file, or from a .pts file converted to a neighborhood graph), then all lists have the announced lengths, all indices are valid and nothing occurs twice; hence for every refinement whose numbers fit into unsigned int each hyperedge has existing and pairwise different hypernodes, its face types can be asked for, and its geometry can be constructed without an index out of range. For edges of dimension one the two ends are different points. Without assertions the program accepts a file with a hypernode that does not exist, whose values are then read outside of the vector of degrees of freedom.", "quantifier": "all contents and names of files, all dimensions, all refinements and hyperedges without overflow", "why_tests_cant": "Tests read a few files; the statement covers all texts a user may write and all refinements.", "anchors": ["include/HyperHDG/read_domain.hxx: read_domain, read_domain_geo, DomainInfo::check_consistency", "include/HyperHDG/topology/file.hxx: get_hyNode_indices", "include/HyperHDG/geometry/file.hxx: hyEdge", "include/HyperHDG/node_descriptor/file.hxx: get_hyFace_types"]}
{"id": "C108", "title": "The computed values of the bilaplacian at the nodes of networks are exact", "statement": "On a network of intervals with the affine coefficients of the edges and a coefficient b of the second equation that is a polynomial of degree at most p - 3, the vector that solves the global system of the Bilaplacian solver (the values at the given nodes are removed and the load comes from residual_flux of the zero vector) has exactly the values of the classical solution u and of its Laplacian w at every node that is not given; conversely this vector solves the global system. Every such problem has a classical solution. The right-hand side f may be any continuous function.", "quantifier": "all networks in which each node is connected to a given node, all polynomial degrees p, all orthonormal bases, all stabilizations tau > 0, all continuous right-hand sides, all boundary values, all vectors of the global system", "why_tests_cant": "Tests measure errors for single solutions and meshes; that there is no error at the nodes for all networks and right-hand sides is a statement about infinitely many problems.", "anchors": ["include/HyperHDG/local_solver/bilaplacian_ldgh.hxx: Bilaplacian::trace_to_flux, Bilaplacian::residual_flux, Bilaplacian::assemble_loc_matrix, Bilaplacian::assemble_rhs_from_lambda, Bilaplacian::assemble_rhs_from_global_rhs", "include/HyperHDG/global_loop/elliptic.hxx: Elliptic::trace_to_flux, Elliptic::residual_flux"]}
{"id": "C109", "title": "Bilaplacian on networks: refinement does not change the values at the nodes", "statement": "The problem of the Bilaplacian solver on the network of a domain file in which each node is connected to a node with prescribed values, with continuous data, has exactly one classical solution. For every refinement of the edges, every polynomial degree p such that the coefficient b is a polynomial of degree at most p - 3 on each edge, and every positive tau, the global system has exactly one solution, whose entries are the values of the same classical solution u and of its Laplacian w at the nodes of the file and at the new nodes in the interior of the edges. So the computed values at the nodes of the file do not depend on refinement, degree and tau.", "quantifier": "all domain files of networks, all refinements without overflow, all degrees, all tau > 0, all continuous right-hand sides", "why_tests_cant": "A test compares a few refinements of a few networks up to a tolerance; the statement is about all of them.", "anchors": ["include/HyperHDG/local_solver/bilaplacian_ldgh.hxx: Bilaplacian::trace_to_flux, Bilaplacian::residual_flux", "include/HyperHDG/topology/file.hxx: File::set_refinement, File::get_hyNode_indices", "include/HyperHDG/node_descriptor/file.hxx: get_hyFace_types", "include/HyperHDG/global_loop/elliptic.hxx: Elliptic::trace_to_flux, Elliptic::residual_flux"]}
{"id": "C110", "title": "Beam networks: forces and moments are balanced", "statement": "For every vector of displacements and rotations, the forces in the vector returned by the global residual_flux of the Timoshenko solver plus the forces at the ends where displacement and rotation are prescribed add up to the sum of all loads; so in the discrete equilibrium the reactions carry the loads exactly. If the frames of all beams have the same orientation, the same holds for moments: residual, reactions and loads do the same work in every rigid motion. A network without prescribed displacements whose loads do not add up to zero has no equilibrium: no vector makes the residual zero.", "quantifier": "all networks of beams, all vectors, all loads and prescribed values, all stiffnesses, all tau > 0, all rigid motions", "why_tests_cant": "Tests compare displacements for single networks; that no force gets lost in any network and for any load is a statement about all of them.", "anchors": ["include/HyperHDG/local_solver/timoshenko_network.hxx: residual_flux, assemble_loc_matrix, assemble_rhs_from_global_rhs", "include/HyperHDG/global_loop/elliptic.hxx: Elliptic::residual_flux"]}
{"id": "C111", "title": "Steady states of the time-dependent biharmonic solver", "statement": "If coefficient, source and prescribed values do not depend on the time, the time steps computed with BilaplacianParab (any theta > 0, any step size) converge: there are rho < 1 and C, independent of the initial values, such that after n steps the square of the L2 distance to a stationary solution is at most rho^n times the one at the beginning, and the vectors converge as fast. The limit is the discrete solution computed with Bilaplacian for the source divided by theta: the correct one for implicit Euler, a wrong one for every other theta unless the source vanishes. A computation started with the limit keeps it.", "quantifier": "all hypergraphs whose nodes are connected to prescribed ones, all data independent of time with a coefficient which is symmetric and not negative, all tau, theta, delta_t > 0, all initial values, any number of steps", "why_tests_cant": "Tests run few steps from one initial value with theta = 1; the long-time behaviour and the wrong limit for other theta concern all initial values and arbitrarily many steps.", "anchors": ["include/HyperHDG/local_solver/bilaplacian_parab_ldgh.hxx: trace_to_flux, residual_flux, set_data, make_initial", "include/HyperHDG/local_solver/bilaplacian_ldgh.hxx: trace_to_flux, residual_flux", "include/HyperHDG/global_loop/parabolic.hxx: Parabolic"]}
{"id": "C112", "title": "Balances of the biharmonic solvers", "statement": "In each call of BilaplacianParab::set_data for a time step the integral of u over the hyperedge changes by delta_t times the integral of the source (weighted between the ends of the step by theta) minus theta delta_t times what flows out of w through the faces, and what flows out of u is the integral of b w. If a step solves its linear system, nothing is lost or created at hypernodes where nothing is prescribed: the integral of u over all hyperedges changes by the integral of all sources minus what flows out at the prescribed hypernodes, and if nothing is prescribed, after any number of steps it is the integral of the initial value plus the sum of the integrals of the sources. For the stationary solver Bilaplacian, what flows out of w at the prescribed hypernodes is the integral of all sources; without prescribed hypernodes and with sources whose integral is not zero the linear system has no solution.", "quantifier": "all hypergraphs, traces, data, coefficients, sources, initial values, all theta, tau, delta_t > 0, all numbers of steps, every solver of the local linear systems meeting its specification", "why_tests_cant": "a test integrates the result of a few steps on a few meshes up to rounding; the balance must hold exactly for every mesh, every trace and every number of steps", "anchors": ["include/HyperHDG/local_solver/bilaplacian_parab_ldgh.hxx: set_data, residual_flux, trace_to_flux", "include/HyperHDG/local_solver/bilaplacian_ldgh.hxx: trace_to_flux, residual_flux", "include/HyperHDG/global_loop/parabolic.hxx"]}
{"id": "C113", "title": "Superposition, reciprocity and work of loads for the biharmonic problem", "statement": "For the program of the bilaplacian (global vector from trace_to_flux and residual_flux of Bilaplacian, zero at the prescribed hypernodes): (1) if right-hand sides and prescribed values (of u and of its Laplacian) of a problem are a times those of one problem plus b times those of another with the same hypergraph, geometry and coefficient, then the same combination of discrete solutions of these problems (vector, u and Laplacian on each hyperedge) is a discrete solution of it; (2) if u and the Laplacian are prescribed at the same hypernodes and each hypernode is connected to one of them, there is exactly one discrete solution; (3) with zero prescribed values the right-hand side of one problem does the same work along the solution of another as conversely; (4) the work of a right-hand side along its own solution is the integral of b w w, w the Laplacian, so it is not negative, and for a positive coefficient it is zero only if the right-hand side and w are zero.", "quantifier": "all hypergraphs, space dimensions, degrees, geometries, tau > 0, coefficients (symmetric for reciprocity), sets of prescribed hypernodes, right-hand sides, prescribed values and factors a, b", "why_tests_cant": "A test compares a few pairs of loads on a few meshes; that the discrete solution operator is linear, symmetric and not negative is a statement about all pairs on all hypergraphs, and needs the coupling of the two flux balances at the hypernodes.", "anchors": ["include/HyperHDG/local_solver/bilaplacian_ldgh.hxx: Bilaplacian::trace_to_flux, residual_flux", "include/HyperHDG/global_loop/elliptic.hxx: Elliptic::trace_to_flux, residual_flux"]}
{"id": "C114", "title": "Superposition for the time-dependent biharmonic solver", "statement": "Let the initial values, the right-hand sides and the prescribed values (of u and of its Laplacian) of a time-dependent biharmonic problem be, at all times, a times those of one problem plus b times those of another with the same hypergraph, geometry and coefficient. If a program does make_initial and any number of set_data with a times the vectors used for the first problem plus b times those used for the second, then each hyperedge keeps the same combination of the values (u, and after a step also its gradient, the Laplacian and the gradient of the Laplacian) which it keeps for the two problems; and if the next vectors solve the linear systems (trace_to_flux, residual_flux) of the two problems, their combination solves the linear system of the combined problem.", "quantifier": "all hypergraphs, space dimensions, degrees, geometries, tau, theta, time steps > 0, coefficients >= 0 (also time-dependent), initial values, right-hand sides, prescribed values, factors a, b, vectors and numbers of steps", "why_tests_cant": "A test can add two computed histories for some data; that the scheme is linear in the data holds for all data and all numbers of steps only by induction over the history, because each step uses the values kept by the one before.", "anchors": ["include/HyperHDG/local_solver/bilaplacian_parab_ldgh.hxx: BilaplacianParab::make_initial, set_data, trace_to_flux, residual_flux", "include/HyperHDG/global_loop/parabolic.hxx: Parabolic::make_initial, set_data, trace_to_flux, residual_flux"]}
{"id": "C115", "title": "Superposition for the time-dependent diffusion solver", "statement": "Let the initial values, the right-hand sides and the Dirichlet values of a time-dependent diffusion problem be, at all times, a times those of one problem plus b times those of another with the same hypergraph, geometry and coefficient. If a program does make_initial and any number of set_data with a times the vectors used for the first problem plus b times those used for the second, each hyperedge keeps a times the values of u which it keeps for the first problem plus b times those of the second, and residual_flux of such a combination of vectors returns the same combination of the residuals. So the combination of the vectors of the time steps of the two problems (each one zero at the Dirichlet hypernodes and without residual) are the vectors of the time steps of the combined problem, for every theta > 0.", "quantifier": "all hypergraphs, space dimensions, degrees, geometries with orthonormal shape functions, tau >= 0, theta > 0, time steps > 0, coefficients (also time-dependent), initial values, right-hand sides, Dirichlet values, factors a, b, vectors and numbers of steps", "why_tests_cant": "A test can add two computed histories for some data; that the scheme is linear in the data holds for all data and all numbers of steps only by induction over the history, because each step uses values, fluxes and residuals kept by the one before.", "anchors": ["include/HyperHDG/local_solver/diffusion_parab_ldgh.hxx: DiffusionParab::make_initial, set_data, residual_flux", "include/HyperHDG/global_loop/parabolic.hxx: Parabolic::make_initial, set_data, residual_flux"]}
{"id": "C116", "title": "Superposition for the time-dependent advection solver", "statement": "Let the initial values, the right-hand sides and the Dirichlet values of an advection problem be, at all times, a times those of one problem plus b times those of another with the same hypergraph, geometry, velocity and types of faces. If a program does make_initial and any number of set_data with a times the vectors used for the first problem plus b times those used for the second (all zero on Dirichlet faces), each hyperedge keeps a times the values of u which it keeps for the first problem plus b times those of the second, and residual_flux of such a combination of vectors returns the same combination of the residuals. So the combination of the vectors of the time steps of the two problems are the vectors of the time steps of the combined problem.", "quantifier": "all hypergraphs, space dimensions, degrees, geometries with orthonormal shape functions, velocities (also time-dependent, with inflow and outflow), tau, theta and time steps for which the local problems are solvable, initial values, right-hand sides, Dirichlet values, factors a, b, vectors and numbers of steps", "why_tests_cant": "A test can add two computed histories for some data; that the upwind scheme is linear in the data, with faces whose type depends on the velocity, holds for all data and all numbers of steps only by induction over the history.", "anchors": ["include/HyperHDG/local_solver/advection_parab_ldgh.hxx: AdvectionParab::make_initial, set_data, residual_flux", "include/HyperHDG/global_loop/parabolic.hxx: Parabolic::make_initial, set_data, residual_flux"]}
{"id": "C117", "title": "Superposition for the diffusion-advection-reaction solver", "statement": "Let the right-hand side and the Dirichlet values of a problem of diffusion, advection and reaction be a times those of one problem plus b times those of another with the same hypergraph, geometry, diffusion coefficient, velocity, reaction rate and types of faces. If residual_flux returns R1 for the first problem and the vector y1, and R2 for the second and y2, it returns a R1 + b R2 for the combined problem and a y1 + b y2; in particular combinations of discrete solutions are discrete solutions. The values which are plotted (flux and primal unknown at the points of the grid) are combined in the same way.", "quantifier": "all hypergraphs, space dimensions, degrees, geometries, coefficients (variable diffusion, velocity, reaction) and tau with solvable local problems, right-hand sides, Dirichlet values, factors a, b, vectors and grids of points", "why_tests_cant": "A test can add two computed vectors for some data; linearity in right-hand sides, Dirichlet values and vectors together is a statement about all data on all hypergraphs.", "anchors": ["include/HyperHDG/local_solver/diffusion_advection_reaction_ldg.hxx: residual_flux, bulk_values, solve_local_problem", "include/HyperHDG/global_loop/elliptic.hxx: Elliptic::residual_flux"]}
