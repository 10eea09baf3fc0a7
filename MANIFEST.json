{
 "claims": [
  {
   "property": "C01",
   "status": "proved",
   "theorems": [
    "HyperHDG.HyperNodeFactory.C01_partition",
    "HyperHDG.HyperNodeFactory.C01_disjoint",
    "HyperHDG.HyperNodeFactory.C01_inverse",
    "HyperHDG.HyperNodeFactory.C01_inverse_rejects",
    "HyperHDG.HyperNodeFactory.C01_overflow_witness"
   ],
   "note": "Under the stated precondition n_hyNodes*n < 2^32; C01_overflow_witness shows that it is needed."
  },
  {
   "property": "C02",
   "status": "proved",
   "theorems": [
    "HyperHDG.HyperNodeFactory.C02_get",
    "HyperHDG.HyperNodeFactory.C02_set",
    "HyperHDG.HyperNodeFactory.C02_set_const",
    "HyperHDG.HyperNodeFactory.C02_add",
    "HyperHDG.HyperNodeFactory.C02_get_after_set",
    "HyperHDG.HyperNodeFactory.C02_add_entry"
   ],
   "note": "All four dof access functions, both build modes."
  },
  {
   "property": "C03",
   "status": "proved",
   "theorems": [
    "HyperHDG.HyperNodeFactory.C03_debug_aborts",
    "HyperHDG.HyperNodeFactory.C03_debug_no_ub",
    "HyperHDG.HyperNodeFactory.C03_release_ub",
    "HyperHDG.HyperNodeFactory.C03_overflow_witness"
   ],
   "note": "Includes the converse (abort in debug, UB in release when the vector is too short) and an overflow witness."
  },
  {
   "property": "C04",
   "status": "proved",
   "theorems": [
    "HyperHDG.Hypercube.C04_faces_vertices",
    "HyperHDG.Hypercube.C04_decompose_iff",
    "HyperHDG.Hypercube.C04_outcome",
    "HyperHDG.Hypercube.C04_bijection",
    "HyperHDG.Hypercube.C04_pow"
   ],
   "note": "For dim >= 1; the accepted range for dim = 0 is described by C04_outcome."
  },
  {
   "property": "C05",
   "status": "proved",
   "theorems": [
    "HyperHDG.Hypercube.C05_tensor_grid",
    "HyperHDG.Hypercube.C05_in_grid"
   ],
   "note": ""
  },
  {
   "property": "C06",
   "status": "proved",
   "theorems": [
    "HyperHDG.C06_one_to_one",
    "HyperHDG.C06_read_after_write",
    "HyperHDG.C06_out_of_range",
    "HyperHDG.C06_from_vector",
    "HyperHDG.C06_get_column",
    "HyperHDG.C06_set_column",
    "HyperHDG.C06_transposed",
    "HyperHDG.C06_transposed_involution",
    "HyperHDG.C06_release_alias",
    "HyperHDG.C06_move"
   ],
   "note": "SmallMat and matrices correspond one to one through the element access; reads after writes, columns, transposed. C06_release_alias records that without assertions a row index out of range silently reads another entry."
  },
  {
   "property": "C07",
   "status": "partial",
   "theorems": [
    "HyperHDG.C07_mul",
    "HyperHDG.C07_mul_unfit",
    "HyperHDG.C07_transposed_mul",
    "HyperHDG.C07_mul_transposed_partial",
    "HyperHDG.C07_mul_transposed_symmetric_partial",
    "HyperHDG.C07_mul_transposed_witness",
    "HyperHDG.C07_dyadic",
    "HyperHDG.C07_scalar_product",
    "HyperHDG.C07_cross_product",
    "HyperHDG.C07_laws",
    "HyperHDG.C07_entrywise",
    "HyperHDG.C07_diagonal",
    "HyperHDG.C07_diagonal_vector",
    "HyperHDG.C07_example"
   ],
   "note": "All products proved, except mat_times_transposed_mat: it computes A^T B^T instead of A B^T (C07_mul_transposed_witness refutes the documented value; C07_mul_transposed_partial says what is computed; correct for symmetric A)."
  },
  {
   "property": "C08",
   "status": "proved",
   "theorems": [
    "HyperHDG.C08_equality",
    "HyperHDG.C08_lexicographic",
    "HyperHDG.C08_point_order",
    "HyperHDG.C08_strict_total_order",
    "HyperHDG.C08_example"
   ],
   "note": "Linear order of entries (no NaN)."
  },
  {
   "property": "C09",
   "status": "proved",
   "theorems": [
    "HyperHDG.C09_div_scalar",
    "HyperHDG.C09_div_scalar_iff",
    "HyperHDG.C09_hada_divi",
    "HyperHDG.C09_scalar_div",
    "HyperHDG.C09_example"
   ],
   "note": "Exact field; the state of the left operand after an exception is not modelled."
  },
  {
   "property": "C10",
   "status": "proved",
   "theorems": [
    "HyperHDG.SparseLA.C10_alias_safe",
    "HyperHDG.SparseLA.C10_linear_combination",
    "HyperHDG.SparseLA.C10_inner_product",
    "HyperHDG.SparseLA.C10_length_mismatch",
    "HyperHDG.C10_norm"
   ],
   "note": "Aliasing modelled with a store of vectors; also the outcomes for different lengths."
  },
  {
   "property": "C11",
   "status": "proved",
   "theorems": [
    "HyperHDG.SparseLA.C11_invariant",
    "HyperHDG.SparseLA.C11_returns_solution",
    "HyperHDG.SparseLA.C11_operator_exception"
   ],
   "note": "For every linear operator and an arbitrary function in place of division. The documented return value n_iterations does not exist (parameter by value), see DESIGN.md."
  },
  {
   "property": "C12",
   "status": "proved",
   "theorems": [
    "HyperHDG.SparseLA.C12_subspace",
    "HyperHDG.SparseLA.C12_converges"
   ],
   "note": "Exact arithmetic over any linearly ordered field."
  },
  {
   "property": "C13",
   "status": "partial",
   "theorems": [
    "HyperHDG.C13_qr_decomp_partial",
    "HyperHDG.C13_det_q",
    "HyperHDG.C13_exception",
    "HyperHDG.C13_qr_decomp_q",
    "HyperHDG.C13_example",
    "HyperHDG.C13_det_witness",
    "HyperHDG.C13_full_r_witness",
    "HyperHDG.C13_out_of_bounds",
    "HyperHDG.C13_stale_entry"
   ],
   "note": "Orthogonality, product, triangularity and non-negative diagonal proved under LAPACK's documentation of dgeqr2. Refuted parts: det(Q)=+1 (C13_det_q, C13_det_witness), first argument as R (C13_full_r_witness), shapes for which mat_r is overrun or not fully written (C13_out_of_bounds, C13_stale_entry)."
  },
  {
   "property": "C14",
   "status": "partial",
   "theorems": [
    "HyperHDG.C14_square_partial",
    "HyperHDG.C14_generic_sign",
    "HyperHDG.C14_sign_witness",
    "HyperHDG.C14_gram"
   ],
   "note": "Absolute value and Gram determinant proved; the sign is wrong for generic square matrices (C14_generic_sign, C14_sign_witness: determinant 15, returned -15)."
  },
  {
   "property": "C15",
   "status": "proved",
   "theorems": [
    "HyperHDG.C15_constructed",
    "HyperHDG.C15_map",
    "HyperHDG.C15_face_barycenter",
    "HyperHDG.C15_span_vec",
    "HyperHDG.C15_area",
    "HyperHDG.C15_face_area",
    "HyperHDG.C15_corner",
    "HyperHDG.C15_agree",
    "HyperHDG.C15_disjoint",
    "HyperHDG.C15_common_face",
    "HyperHDG.C15_covers",
    "HyperHDG.C15_areas_add",
    "HyperHDG.C15_example"
   ],
   "note": "File geometry with Mapping::Linear, in exact arithmetic over an ordered field, for every LAPACK satisfying Geqr2Spec (satisfiable over the reals: Householder.exists_geqr2_real).  QrInBounds is the condition under which qr_decomp does not access its factor out of bounds (C13_out_of_bounds is the counterexample otherwise).  Vertices other than the first and its neighbours are ignored by the linear mapping, so C15_corner needs a parallelotope for them."
  },
  {
   "property": "C16",
   "status": "proved",
   "theorems": [
    "HyperHDG.HyGraph.C16_sum_of_contributions",
    "HyperHDG.HyGraph.C16_order_independent",
    "HyperHDG.HyGraph.C16_exception_propagates"
   ],
   "note": "Value, independence of the visiting order, propagation of exceptions."
  },
  {
   "property": "C17",
   "status": "proved",
   "theorems": [
    "HyperHDG.HyGraph.C17_matrix_agrees",
    "HyperHDG.HyGraph.C17_length_overflow",
    "HyperHDG.HyGraph.C17_overflow_reachable"
   ],
   "note": "Needs n_hyEdges*(2*dim*n)^2 < 2^32; C17_length_overflow proves that the code writes out of bounds otherwise."
  },
  {
   "property": "C18",
   "status": "proved",
   "theorems": [
    "HyperHDG.HyGraph.C18_linear",
    "HyperHDG.HyGraph.C18_symmetric",
    "HyperHDG.HyGraph.C18_semidefinite",
    "HyperHDG.HyGraph.C18_residual_affine"
   ],
   "note": ""
  },
  {
   "property": "C19",
   "status": "proved",
   "theorems": [
    "HyperHDG.DiffusionUniform.C19_flux",
    "HyperHDG.DiffusionUniform.C19_linear",
    "HyperHDG.DiffusionUniform.C19_symmetric",
    "HyperHDG.DiffusionUniform.C19_semidefinite",
    "HyperHDG.DiffusionUniform.C19_kernel",
    "HyperHDG.DiffusionUniform.C19_conservation",
    "HyperHDG.DiffusionUniform.C19_global"
   ],
   "note": "Under Spec.Lawful for the integrals (integration by parts, positive mass matrix, traces spanned by orthonormal face functions, unisolvence); proved for the exact integrals of tensor products of orthonormal polynomials of each degree and dimension."
  },
  {
   "property": "C20",
   "status": "proved",
   "theorems": [
    "HyperHDG.DiffusionUniform.C20_solvable",
    "HyperHDG.DiffusionUniform.C20_constructor",
    "HyperHDG.DiffusionUniform.C20_tau_zero",
    "HyperHDG.DiffusionUniform.C20_polynomials"
   ],
   "note": "Same assumptions; C20_polynomials shows them for tensor products of orthonormal polynomials; exact arithmetic."
  },
  {
   "property": "C21",
   "status": "proved",
   "theorems": [
    "HyperHDG.Diffusion.C21_flux",
    "HyperHDG.Diffusion.C21_residual",
    "HyperHDG.Diffusion.C21_dirichlet_zero",
    "HyperHDG.Diffusion.C21_linear",
    "HyperHDG.Diffusion.C21_affine",
    "HyperHDG.Diffusion.C21_symmetric",
    "HyperHDG.Diffusion.C21_semidefinite",
    "HyperHDG.Diffusion.C21_kernel",
    "HyperHDG.Diffusion.C21_solvable",
    "HyperHDG.Diffusion.C21_node_types",
    "HyperHDG.Diffusion.C21_make_initial",
    "HyperHDG.Diffusion.C21_global",
    "HyperHDG.C21_file_laws"
   ],
   "note": "Laws of the integrals (FormLaws) are hypotheses; proved for every affine hyperedge from the laws on the reference cube (affine_laws)."
  },
  {
   "property": "C22",
   "status": "partial",
   "theorems": [
    "HyperHDG.HyGraph.C22_history",
    "HyperHDG.HyGraph.C22_exact_partial",
    "HyperHDG.HyGraph.Example.C22_stale_witness"
   ],
   "note": "False after set_refinement (C22_stale_witness: indices of the old mesh are kept). Exact without refinement between calls (C22_exact_partial); C22_history gives the result for every history."
  },
  {
   "property": "C23",
   "status": "partial",
   "theorems": [
    "HyperHDG.HyGraph.C23_zero_at_declared",
    "HyperHDG.HyGraph.C23_fresh",
    "HyperHDG.HyGraph.C23_invalid_aborts",
    "HyperHDG.HyGraph.C23_after_refinement_partial",
    "HyperHDG.HyGraph.Example.C23_stale_abort_witness",
    "HyperHDG.HyGraph.Example.C23_stale_ub_witness",
    "HyperHDG.HyGraph.Example.C23_matrix_ignores_dirichlet_witness"
   ],
   "note": "Holds for the matrix-free operators on an unchanged mesh (C23_zero_at_declared). False for the assembled matrix and after set_refinement (witnesses)."
  },
  {
   "property": "C24",
   "status": "proved",
   "theorems": [
    "HyperHDG.C24_cubic_counts",
    "HyperHDG.C24_cubic_valid",
    "HyperHDG.C24_cubic_onto",
    "HyperHDG.C24_file_counts",
    "HyperHDG.C24_file_valid",
    "HyperHDG.C24_file_onto"
   ],
   "note": ""
  },
  {
   "property": "C25",
   "status": "proved",
   "theorems": [
    "HyperHDG.C25_cubic_conforming",
    "HyperHDG.C25_cubic_cells",
    "HyperHDG.C25_cubic_distinct",
    "HyperHDG.C25_cubic_interior",
    "HyperHDG.C25_file_conforming",
    "HyperHDG.C25_file_distinct",
    "HyperHDG.C25_file_interior"
   ],
   "note": ""
  },
  {
   "property": "C26",
   "status": "proved",
   "theorems": [
    "HyperHDG.HyperGraph.C26_cubic",
    "HyperHDG.HyperGraph.C26_history",
    "HyperHDG.HyperGraph.C26_history_geom",
    "HyperHDG.HyperGraph.C26_level_one",
    "HyperHDG.C26_reported"
   ],
   "note": "Proved for every program over the hypergraph API (heap of shared objects, any interleaving of constructions, refinements, data writes) for classes satisfying Refinable; C26_cubic proves Refinable for the cubic/unit cube classes."
  },
  {
   "property": "C27",
   "status": "partial",
   "theorems": [
    "HyperHDG.HyperGraph.C27_in_step_partial",
    "HyperHDG.HyperGraph.C27_cubic_partial",
    "HyperHDG.HyperGraph.C27_shared_out_of_step"
   ],
   "note": "Hypergraphs made by the first two constructors stay in step after any history and every operator[] access is valid (cubic classes). Not true for hypergraphs constructed from shared pointers kept by the program: C27_shared_out_of_step is a machine-checked counterexample."
  },
  {
   "property": "C28",
   "status": "proved",
   "theorems": [
    "HyperHDG.C28_cubic_of_topology",
    "HyperHDG.C28_cubic",
    "HyperHDG.C28_cubic_volume",
    "HyperHDG.C28_cubic_shared",
    "HyperHDG.C28_file_of_topology",
    "HyperHDG.C28_file"
   ],
   "note": "Cubic and file node descriptors. For hyperedges of lower dimension than the space, faces inside coarse hyperedges get type 0 even on boundary planes (shown by an example)."
  },
  {
   "property": "C29",
   "status": "proved",
   "theorems": [
    "HyperHDG.C29_is_unique",
    "HyperHDG.C29_orders",
    "HyperHDG.C29_sort",
    "HyperHDG.C29_example"
   ],
   "note": "For any std::sort satisfying SortSpec and any strict total order; instances for the three types used."
  },
  {
   "property": "C30",
   "status": "partial",
   "theorems": [
    "HyperHDG.C30_debug",
    "HyperHDG.C30_release_partial",
    "HyperHDG.C30_release_witness",
    "HyperHDG.C30_example"
   ],
   "note": "Full statement proved with assertions (C30_debug). Without assertions the flag of the index checks is overwritten: C30_release_partial says what remains, C30_release_witness accepts an invalid domain."
  },
  {
   "property": "C31",
   "status": "proved",
   "theorems": [
    "HyperHDG.C31_round_trip",
    "HyperHDG.C31_accepted",
    "HyperHDG.C31_wrong_space_dim",
    "HyperHDG.C31_wrong_hyEdge_dim",
    "HyperHDG.C31_written",
    "HyperHDG.C31_print",
    "HyperHDG.C31_example",
    "HyperHDG.C31_release_witness"
   ],
   "note": "Any amount of white space, comments between sections, semicolons after numbers, short point lines. Rejection needs assertions; C31_release_witness shows what happens without."
  },
  {
   "property": "C32",
   "status": "proved",
   "theorems": [
    "HyperHDG.C32_search",
    "HyperHDG.C32_graph",
    "HyperHDG.C32_read_domain",
    "HyperHDG.C32_sqrt",
    "HyperHDG.C32_example",
    "HyperHDG.C32_witness",
    "HyperHDG.C32_print",
    "HyperHDG.C32_hypotheses"
   ],
   "note": "Search, file contents and the whole chain through read_domain; std::sort, sqrt, input and output of numbers are parameters with stated laws. C32_witness: empty .pts, blank last line, single point, short names."
  },
  {
   "property": "C33",
   "status": "proved",
   "theorems": [
    "HyperHDG.C33_constructed",
    "HyperHDG.C33_in_unit_cube",
    "HyperHDG.C33_area",
    "HyperHDG.C33_total_area",
    "HyperHDG.C33_covers",
    "HyperHDG.C33_disjoint",
    "HyperHDG.C33_cell",
    "HyperHDG.C33_face",
    "HyperHDG.C33_hypernodes"
   ],
   "note": "Beyond the statement: hyperedges cover the unit cube (C33_covers), do not overlap (C33_disjoint) and are the cells and faces of the topology (C33_cell, C33_face, C33_hypernodes). Laws of the external numbering are hypotheses (Tpcc.Lawful)."
  },
  {
   "property": "C34",
   "status": "proved",
   "theorems": [
    "HyperHDG.C34_file_local_normal",
    "HyperHDG.C34_file_opposite",
    "HyperHDG.C34_file_inner_outer",
    "HyperHDG.C34_file_piola",
    "HyperHDG.C34_inner_normal_witness",
    "HyperHDG.C34_local",
    "HyperHDG.C34_inner",
    "HyperHDG.C34_outer",
    "HyperHDG.C34_frame"
   ],
   "note": "UnitCube and File geometry.  C34_inner_normal_witness: inner_normal of the file geometry is a column of Q, hence on sheared hyperedges not orthogonal to the face; the property claims orthonormality only."
  },
  {
   "property": "C35",
   "status": "partial",
   "theorems": [
    "HyperHDG.C35_mesh_partial",
    "HyperHDG.C35_cells",
    "HyperHDG.C35_consistent_partial",
    "HyperHDG.C35_boundary_values",
    "HyperHDG.C35_subdivided_values",
    "HyperHDG.C35_four_dimensions",
    "HyperHDG.C35_edges",
    "HyperHDG.C35_boundary_undefined",
    "HyperHDG.C35_unit_cube",
    "HyperHDG.C35_unit_cube_scaled",
    "HyperHDG.C35_subdivided_boundary",
    "HyperHDG.C35_example",
    "HyperHDG.C35_example_boundaries",
    "HyperHDG.C35_hypotheses"
   ],
   "note": "Proved for every hypergraph, solver and geometry (parameters) and every option: whenever plot_vtu returns, the mesh, the indices and the values are consistent (C35_consistent_partial); with subdivisions the mesh is (C35_mesh_partial). C35_edges: total correctness and alignment of points and values; C35_cells, C35_unit_cube: cells are the sub-cubes of the hyperedges. Negative results for the excluded cases: C35_boundary_values (too few values on faces if system_dimension > node_system_dimension and dimension >= 2), C35_subdivided_values, C35_subdivided_boundary, C35_four_dimensions, C35_boundary_undefined (plotting boundaries of the unit cube geometry calls boundary_lexicographic outside its range)."
  },
  {
   "property": "C36",
   "status": "proved",
   "theorems": [
    "HyperHDG.C36_never_overwrites",
    "HyperHDG.C36_wrap",
    "HyperHDG.C36_example"
   ],
   "note": "For every interleaving of option changes and plots of arbitrary jobs, up to 2^32 plots (C36_wrap: after that the number starts again)."
  },
  {
   "property": "C37",
   "status": "partial",
   "theorems": [
    "HyperHDG.C37_changes_only",
    "HyperHDG.C37_empty",
    "HyperHDG.C37_get_returns_set",
    "HyperHDG.C37_set_partial",
    "HyperHDG.C37_file_ending",
    "HyperHDG.C37_unknown",
    "HyperHDG.C37_True",
    "HyperHDG.C37_file_number"
   ],
   "note": "All options, values and prior states; missing: fileEnding, whose returned text is the character 0 instead of vtu (C37_file_ending)."
  },
  {
   "property": "C38",
   "status": "proved",
   "theorems": [
    "HyperHDG.HyIterator.C38_for_each",
    "HyperHDG.HyIterator.C38_visits",
    "HyperHDG.HyIterator.C38_incr_decr",
    "HyperHDG.HyIterator.C38_equality"
   ],
   "note": ""
  },
  {
   "property": "C39",
   "status": "partial",
   "theorems": [
    "HyperHDG.HyGraph.C39_last_writer",
    "HyperHDG.HyGraph.C39_consistent",
    "HyperHDG.HyGraph.C39_time_partial",
    "HyperHDG.HyGraph.C39_time_witness",
    "HyperHDG.HyGraph.C39_gathering_variant"
   ],
   "note": "Values and order independence proved. False for non-integer times: the parameter time of Parabolic::make_initial has the index type (C39_time_witness)."
  },
  {
   "property": "C40",
   "status": "proved",
   "theorems": [
    "HyperHDG.HyGraph.C40_fold",
    "HyperHDG.HyGraph.C40_sqrt_sum",
    "HyperHDG.EllipticPython.C40_uniform"
   ],
   "note": "Square root over the reals; floating point not modelled."
  },
  {
   "property": "C41",
   "status": "proved",
   "theorems": [
    "HyperHDG.HyGraph.C41_set_data",
    "HyperHDG.HyGraph.C41_make_initial",
    "HyperHDG.HyGraph.C41_debug_no_ub"
   ],
   "note": ""
  },
  {
   "property": "C42",
   "status": "proved",
   "theorems": [
    "HyperHDG.HyGraph.C42_jacobian"
   ],
   "note": ""
  },
  {
   "property": "C43",
   "status": "proved",
   "theorems": [
    "HyperHDG.C43_matrix_norms",
    "HyperHDG.C43_vector_norms",
    "HyperHDG.C43_entries_product",
    "HyperHDG.C43_example"
   ],
   "note": "Exact ordered field, std::sqrt a parameter."
  },
  {
   "property": "C44",
   "status": "proved",
   "theorems": [
    "HyperHDG.C44_solve",
    "HyperHDG.C44_in_place",
    "HyperHDG.C44_example"
   ],
   "note": "Under dgesv's documentation (GesvSpec), which C44_example shows to be satisfiable."
  },
  {
   "property": "C45",
   "status": "partial",
   "theorems": [
    "HyperHDG.C45_lexicographic",
    "HyperHDG.C45_boundary_partial",
    "HyperHDG.C45_boundary_on_face_partial",
    "HyperHDG.C45_boundary_negative",
    "HyperHDG.C45_barycenter",
    "HyperHDG.C45_in_place_partial",
    "HyperHDG.C45_in_place_differs"
   ],
   "note": "lexicographic and face_barycenter are proved. boundary_lexicographic is proved for indices that belong to the given face; for others the code converts a negative double to unsigned (C45_boundary_negative). The in-place map_ref_to_phys ignores the directions of the hyperedge: agreement proved if they are ascending, and C45_in_place_differs is a counterexample otherwise."
  },
  {
   "property": "C46",
   "status": "proved",
   "theorems": [
    "HyperHDG.DiffusionUniform.C46_bulk_values"
   ],
   "note": "lin_comb_fct_val of tensor_product_polynomials is a parameter; the code evaluates it as float."
  },
  {
   "property": "C47",
   "status": "proved",
   "theorems": [
    "HyperHDG.Diffusion.C47_flux",
    "HyperHDG.Diffusion.C47_total",
    "HyperHDG.Diffusion.C47_mass_product",
    "HyperHDG.Diffusion.C47_symmetric",
    "HyperHDG.Diffusion.C47_semidefinite"
   ],
   "note": "As C21."
  },
  {
   "property": "C48",
   "status": "proved",
   "theorems": [
    "HyperHDG.Diffusion.C48_bulk_values",
    "HyperHDG.Diffusion.C48_errors"
   ],
   "note": "The evaluation of shape functions and the error integral are external calls."
  },
  {
   "property": "C49",
   "status": "partial",
   "theorems": [
    "HyperHDG.C49_cubic_topology",
    "HyperHDG.C49_file_topology",
    "HyperHDG.C49_file_descriptor_partial",
    "HyperHDG.C49_file_descriptor_fails"
   ],
   "note": "Proved for topologies. The copy constructor of NodeDescriptor::File resets the refinement (and names a member that does not exist): proved to agree at level 1, and a counterexample is given for level 2."
  },
  {
   "property": "C50",
   "status": "proved",
   "theorems": [
    "HyperHDG.DiffusionParab.C50_flux",
    "HyperHDG.DiffusionParab.C50_failure",
    "HyperHDG.DiffusionParab.C50_dirichlet_zero",
    "HyperHDG.DiffusionParab.C50_bulk_values",
    "HyperHDG.DiffusionParab.C50_solvable",
    "HyperHDG.DiffusionParab.C50_history"
   ],
   "note": "Exact arithmetic; laws of the integrals (FormLaws), orthonormal shape functions (Orthonormal) and the documentation of LAPACK (GesvSpec) are assumed. assemble_rhs_from_coeffs, which nobody calls, is not modelled."
  },
  {
   "property": "C51",
   "status": "proved",
   "theorems": [
    "HyperHDG.DiffusionParab.C51_linear",
    "HyperHDG.DiffusionParab.C51_affine",
    "HyperHDG.DiffusionParab.C51_symmetric",
    "HyperHDG.DiffusionParab.C51_definite",
    "HyperHDG.DiffusionParab.C51_unique_step",
    "HyperHDG.DiffusionParab.C51_unique_run"
   ],
   "note": "As C50; being of Dirichlet type must be a property of the node."
  },
  {
   "property": "C52",
   "status": "proved",
   "theorems": [
    "HyperHDG.DiffusionParab.C52_contractive"
   ],
   "note": "As C50. Proved for theta = 1 without further assumptions and for 1/2 <= theta under the compatibility stated in the theorem, which is needed for the first step."
  },
  {
   "property": "C53",
   "status": "proved",
   "theorems": [
    "HyperHDG.DiffusionParab.C53_local",
    "HyperHDG.DiffusionParab.C53_global"
   ],
   "note": "As C50."
  },
  {
   "property": "C54",
   "status": "proved",
   "theorems": [
    "HyperHDG.EllipticProgram.C54_unique",
    "HyperHDG.EllipticProgram.C54_solve",
    "HyperHDG.EllipticProgram.C54_declared_unique",
    "HyperHDG.EllipticProgram.C54_declared_solve",
    "HyperHDG.EllipticProgram.C54_rigid"
   ],
   "note": "Both local solvers, Diffusion with Dirichlet faces and DiffusionUniform with declared indices. Exact arithmetic; the LAPACK solve, the quadrature and the descriptors are parameters with their laws. C54_rigid discharges the assumption on functions without derivatives for tensor-product elements with affine geometry."
  },
  {
   "property": "C55",
   "status": "proved",
   "theorems": [
    "HyperHDG.C55_cubic_connected",
    "HyperHDG.C55_file_connected",
    "HyperHDG.C55_anchored",
    "HyperHDG.C55_cubic_solve",
    "HyperHDG.C55_file_solve"
   ],
   "note": "Numbering of tpcc as in C24/C25. C55_cubic_solve and C55_file_solve combine it with C54."
  },
  {
   "property": "C56",
   "status": "proved",
   "theorems": [
    "HyperHDG.DiffusionEigs.C56_flux",
    "HyperHDG.DiffusionEigs.C56_dirichlet_zero",
    "HyperHDG.DiffusionEigs.C56_linear",
    "HyperHDG.DiffusionEigs.C56_zero",
    "HyperHDG.DiffusionEigs.C56_bulk_values",
    "HyperHDG.DiffusionEigs.C56_symmetric",
    "HyperHDG.DiffusionEigs.C56_solvable",
    "HyperHDG.DiffusionEigs.C56_rayleigh",
    "HyperHDG.DiffusionEigs.C56_node_types",
    "HyperHDG.DiffusionEigs.C56_make_initial"
   ],
   "note": "Laws of the integrals as for C21. `errors` is not modelled (it cannot be instantiated: undeclared variable)."
  },
  {
   "property": "C57",
   "status": "proved",
   "theorems": [
    "HyperHDG.DiffusionEigs.C57_computes",
    "HyperHDG.DiffusionEigs.C57_mass",
    "HyperHDG.DiffusionEigs.C57_derivative",
    "HyperHDG.DiffusionEigs.C57_global",
    "HyperHDG.DiffusionEigs.C57_variable_coefficient"
   ],
   "note": "Over the reals. Machine-checked that it fails if the coefficient depends on the eigenvalue (which the code passes to it as time): C57_variable_coefficient."
  },
  {
   "property": "C58",
   "status": "proved",
   "theorems": [
    "HyperHDG.DiffusionEigs.C58_rayleigh",
    "HyperHDG.DiffusionEigs.C58_nonneg",
    "HyperHDG.DiffusionEigs.C58_pos",
    "HyperHDG.DiffusionEigs.C58_zero",
    "HyperHDG.DiffusionEigs.C58_orthogonal"
   ],
   "note": "Exact arithmetic; the local problems of an eigenpair are solvable because the loop returned. Concrete eigenpairs (3/2 on a path of two intervals, 0 for constants) beside the theorems."
  },
  {
   "property": "C59",
   "status": "proved",
   "theorems": [
    "HyperHDG.Bilaplacian.C59_flux",
    "HyperHDG.Bilaplacian.C59_dirichlet_zero",
    "HyperHDG.Bilaplacian.C59_linear",
    "HyperHDG.Bilaplacian.C59_symmetric",
    "HyperHDG.Bilaplacian.C59_solvable",
    "HyperHDG.Bilaplacian.C59_constant",
    "HyperHDG.Bilaplacian.C59_node_types",
    "HyperHDG.Bilaplacian.C59_mass_flux",
    "HyperHDG.Bilaplacian.C59_mass_total",
    "HyperHDG.Bilaplacian.C59_bulk_values",
    "HyperHDG.Bilaplacian.C59_errors",
    "HyperHDG.Bilaplacian.C59_mass_product",
    "HyperHDG.Bilaplacian.C59_mass_semidefinite"
   ],
   "note": "Exact arithmetic; errors_temp is not modelled."
  },
  {
   "property": "C60",
   "status": "partial",
   "theorems": [
    "HyperHDG.Bilaplacian.C60_residual",
    "HyperHDG.Bilaplacian.C60_defect",
    "HyperHDG.Bilaplacian.C60_make_initial",
    "HyperHDG.Bilaplacian.C60_affine_partial",
    "HyperHDG.Bilaplacian.Example.C60_not_affine",
    "HyperHDG.Bilaplacian.Example.C60_initial_not_projection"
   ],
   "note": "False as stated: residual_flux subtracts the trace of the wrong unknown (C60_not_affine, exact defect in C60_defect), make_initial swaps two arguments of the integrator (C60_initial_not_projection). C60_affine_partial: affine for traces with equal halves, in particular the zero trace which the programs use."
  },
  {
   "property": "C61",
   "status": "proved",
   "theorems": [
    "HyperHDG.Bilaplacian.C61_global",
    "HyperHDG.Bilaplacian.C61_unique"
   ],
   "note": "Exact arithmetic; the two sets of prescribed nodes are equal (simply supported plate), as in the programs of the repository."
  },
  {
   "property": "C62",
   "status": "proved",
   "theorems": [
    "HyperHDG.BilaplacianUniform.C62_constructor",
    "HyperHDG.BilaplacianUniform.C62_flux",
    "HyperHDG.BilaplacianUniform.C62_linear",
    "HyperHDG.BilaplacianUniform.C62_bulk_values",
    "HyperHDG.BilaplacianUniform.C62_diffusion",
    "HyperHDG.BilaplacianUniform.C62_symmetric",
    "HyperHDG.BilaplacianUniform.C62_solvable",
    "HyperHDG.BilaplacianUniform.C62_constant",
    "HyperHDG.BilaplacianUniform.C62_unique",
    "HyperHDG.BilaplacianUniform.Example.C62_not_symmetric",
    "HyperHDG.BilaplacianUniform.C62_polynomials"
   ],
   "note": "Exact arithmetic. The operator itself is not symmetric (C62_not_symmetric)."
  },
  {
   "property": "C63",
   "status": "proved",
   "theorems": [
    "HyperHDG.BilaplacianParab.C63_constructor",
    "HyperHDG.BilaplacianParab.C63_flux",
    "HyperHDG.BilaplacianParab.C63_residual",
    "HyperHDG.BilaplacianParab.C63_set_data",
    "HyperHDG.BilaplacianParab.C63_bulk_values",
    "HyperHDG.BilaplacianParab.C63_errors",
    "HyperHDG.BilaplacianParab.C63_dirichlet_zero",
    "HyperHDG.BilaplacianParab.C63_linear",
    "HyperHDG.BilaplacianParab.C63_affine",
    "HyperHDG.BilaplacianParab.C63_make_initial",
    "HyperHDG.BilaplacianParab.C63_euler",
    "HyperHDG.BilaplacianParab.C63_theta_iff",
    "HyperHDG.BilaplacianParab.C63_solvable",
    "HyperHDG.BilaplacianParab.C63_symmetric",
    "HyperHDG.BilaplacianParab.Example.C63_not_theta"
   ],
   "note": "Exact arithmetic. The documented restriction theta = 1 is not checked; C63_theta_iff and C63_not_theta say what happens otherwise. residual_flux for a trace other than zero subtracts the trace of the wrong unknown (C63_residual), as in C60."
  },
  {
   "property": "C64",
   "status": "proved",
   "theorems": [
    "HyperHDG.BilaplacianParab.C64_history",
    "HyperHDG.BilaplacianParab.C64_unique_step",
    "HyperHDG.BilaplacianParab.C64_contractive"
   ],
   "note": "Exact arithmetic; coefficient equal at the time passed to trace_to_flux (the program passes none) and at the end of the step."
  },
  {
   "property": "C65",
   "status": "proved",
   "theorems": [
    "HyperHDG.BilaplacianEigs.C65_flux",
    "HyperHDG.BilaplacianEigs.C65_dirichlet_zero",
    "HyperHDG.BilaplacianEigs.C65_linear",
    "HyperHDG.BilaplacianEigs.C65_zero",
    "HyperHDG.BilaplacianEigs.C65_bulk_values",
    "HyperHDG.BilaplacianEigs.C65_symmetric",
    "HyperHDG.BilaplacianEigs.C65_solvable",
    "HyperHDG.BilaplacianEigs.C65_node_types",
    "HyperHDG.BilaplacianEigs.C65_make_initial",
    "HyperHDG.BilaplacianEigs.C65_initial_not_projection"
   ],
   "note": "make_initial passes shape function numbers not reduced by n_shape_bdr for the Laplacian (C65_initial_not_projection)."
  },
  {
   "property": "C66",
   "status": "proved",
   "theorems": [
    "HyperHDG.BilaplacianEigs.C66_computes",
    "HyperHDG.BilaplacianEigs.C66_mass",
    "HyperHDG.BilaplacianEigs.C66_derivative",
    "HyperHDG.BilaplacianEigs.C66_global",
    "HyperHDG.BilaplacianEigs.C66_variable_coefficient"
   ],
   "note": "Exact arithmetic over the reals; the failure for coefficients depending on the eigenvalue is C66_variable_coefficient."
  },
  {
   "property": "C67",
   "status": "proved",
   "theorems": [
    "HyperHDG.BilaplacianEigs.C67_rayleigh",
    "HyperHDG.BilaplacianEigs.C67_orthogonal",
    "HyperHDG.BilaplacianEigs.C67_nonneg",
    "HyperHDG.BilaplacianEigs.C67_pos"
   ],
   "note": "Eigenpairs are zeros of the operator, as the programs define them; existence of eigenpairs is not claimed."
  },
  {
   "property": "C68",
   "status": "proved",
   "theorems": [
    "HyperHDG.Timoshenko.C68_flux",
    "HyperHDG.Timoshenko.C68_residual",
    "HyperHDG.Timoshenko.C68_linear",
    "HyperHDG.Timoshenko.C68_affine",
    "HyperHDG.Timoshenko.C68_dirichlet_zero",
    "HyperHDG.Timoshenko.C68_bulk_values",
    "HyperHDG.Timoshenko.C68_errors",
    "HyperHDG.Timoshenko.C68_solvable",
    "HyperHDG.Timoshenko.C68_symmetric",
    "HyperHDG.Timoshenko.C68_semidefinite"
   ],
   "note": "A coefficient which is zero is excluded by a hypothesis; what happens then is C70_zero_coefficient."
  },
  {
   "property": "C69",
   "status": "proved",
   "theorems": [
    "HyperHDG.Timoshenko.C69_global",
    "HyperHDG.Timoshenko.C69_unique"
   ],
   "note": "Orthonormality of the frames is proved for the mapping in C71_frame."
  },
  {
   "property": "C70",
   "status": "partial",
   "theorems": [
    "HyperHDG.Timoshenko.C70_aligned_partial",
    "HyperHDG.Timoshenko.C70_zero_coefficient",
    "HyperHDG.Timoshenko.C70_degenerate",
    "HyperHDG.Timoshenko.C70_isotropic",
    "HyperHDG.Timoshenko.C70_incomplete"
   ],
   "note": "Holds if the frame has the normals of the cross section (C70_aligned_partial). For other frames the code combines the stiffnesses linearly by the scalar products, which is wrong: C70_isotropic, and C70_degenerate with a coefficient zero, for which no result is returned (C70_zero_coefficient)."
  },
  {
   "property": "C71",
   "status": "partial",
   "theorems": [
    "HyperHDG.Timoshenko.C71_frame",
    "HyperHDG.Timoshenko.C71_mixed",
    "HyperHDG.Timoshenko.Example.C71_mixed_example",
    "HyperHDG.Timoshenko.C71_rigid_partial",
    "HyperHDG.Timoshenko.C71_wrong_sign"
   ],
   "note": "Holds for the sign of the rotation which fits to the orientation of the frame (C71_rigid_partial) and for no other (C71_wrong_sign). The mapping returns right-handed frames for beams which are not in direction of the first axis, left-handed ones if LAPACK uses no reflection (C71_frame), so no sign fits to networks with both (C71_mixed, C71_mixed_example)."
  },
  {
   "property": "C72",
   "status": "proved",
   "theorems": [
    "HyperHDG.AdvectionParab.C72_constructor",
    "HyperHDG.AdvectionParab.C72_flux",
    "HyperHDG.AdvectionParab.C72_failure",
    "HyperHDG.AdvectionParab.C72_dirichlet_zero",
    "HyperHDG.AdvectionParab.C72_linear",
    "HyperHDG.AdvectionParab.C72_affine",
    "HyperHDG.AdvectionParab.C72_bulk_values",
    "HyperHDG.AdvectionParab.C72_history"
   ],
   "note": "Traces have to vanish on Dirichlet faces: otherwise the local solve uses them, the flux kept for the next step does not."
  },
  {
   "property": "C73",
   "status": "proved",
   "theorems": [
    "HyperHDG.AdvectionParab.C73_local",
    "HyperHDG.AdvectionParab.C73_global"
   ],
   "note": "For theta < 1 no face may change its Dirichlet type within the step (hypothesis htypes)."
  },
  {
   "property": "C74",
   "status": "proved",
   "theorems": [
    "HyperHDG.AdvectionParab.C74_solvable",
    "HyperHDG.AdvectionParab.C74_unique_step",
    "HyperHDG.AdvectionParab.C74_unique_run",
    "HyperHDG.AdvectionParab.C74_contractive"
   ],
   "note": "The integrals of the library are described by quadrature formulas with positive weights (UpwindLaws)."
  },
  {
   "property": "C75",
   "status": "proved",
   "theorems": [
    "HyperHDG.AdvectionParab.C75_free_stream"
   ],
   "note": "For theta < 1 no face may change its Dirichlet type (hypothesis htypes)."
  },
  {
   "property": "C76",
   "status": "partial",
   "theorems": [
    "HyperHDG.AdvectionParab.C76_types",
    "HyperHDG.AdvectionParab.C76_file_partial",
    "HyperHDG.AdvectionParab.C76_orientation_witness",
    "HyperHDG.AdvectionParab.C76_unit_cube"
   ],
   "note": "Exactly one type (C76_types); right for UnitCube (C76_unit_cube). For geometries read from files one end of a hyperedge of dimension one is of Dirichlet and the other one of outflow type (C76_file_partial), but which one does not depend on the direction of the hyperedge, so it is wrong for half of the directions (C76_orientation_witness)."
  },
  {
   "property": "C77",
   "status": "partial",
   "theorems": [
    "HyperHDG.C77_lexicographic",
    "HyperHDG.C77_boundary_partial",
    "HyperHDG.C77_in_place",
    "HyperHDG.C77_boundary_negative"
   ],
   "note": "lexicographic and the in-place map_ref_to_phys are proved. boundary_lexicographic is proved for indices that belong to the given face; for others the code converts a negative double to unsigned (C77_boundary_negative). Hypotheses are those of C15, met in C15_example."
  },
  {
   "property": "C78",
   "status": "proved",
   "theorems": [
    "HyperHDG.DiffusionPostprocess.C78_errors",
    "HyperHDG.DiffusionPostprocess.C78_failure",
    "HyperHDG.DiffusionPostprocess.C78_exact",
    "HyperHDG.DiffusionPostprocess.C78_postprocessable",
    "HyperHDG.DiffusionPostprocess.C78_returns"
   ],
   "note": "What is used of the integrals (ConstantFirst): shape function 0 is the same constant in both spaces, the others are orthogonal to it. The example is the unit interval with degree 0, where the postprocessed solution is exact."
  },
  {
   "property": "C79",
   "status": "partial",
   "theorems": [
    "HyperHDG.DiffusionIP.C79_flux",
    "HyperHDG.DiffusionIP.C79_residual",
    "HyperHDG.DiffusionIP.C79_dirichlet_zero",
    "HyperHDG.DiffusionIP.C79_linear",
    "HyperHDG.DiffusionIP.C79_affine",
    "HyperHDG.DiffusionIP.C79_bulk_values",
    "HyperHDG.DiffusionIP.C79_errors",
    "HyperHDG.DiffusionIP.C79_conservation",
    "HyperHDG.DiffusionIP.C79_constants",
    "HyperHDG.DiffusionIP.C79_node_types",
    "HyperHDG.DiffusionIP.C79_steady_partial",
    "HyperHDG.DiffusionIP.C79_time"
   ],
   "note": "Everything is proved for the integrals the code evaluates. That these are the integrals at the given time is proved for steady coefficients only (C79_steady_partial) and refuted in general by C79_time: the boundary integrals of the normal derivative are always evaluated at time 0."
  },
  {
   "property": "C80",
   "status": "proved",
   "theorems": [
    "HyperHDG.DiffusionIP.C80_solvable",
    "HyperHDG.DiffusionIP.C80_semidefinite",
    "HyperHDG.DiffusionIP.C80_kernel",
    "HyperHDG.DiffusionIP.C80_symmetric_1d",
    "HyperHDG.DiffusionIP.C80_global",
    "HyperHDG.DiffusionIP.C80_unique",
    "HyperHDG.DiffusionIP.C80_unit_cube",
    "HyperHDG.DiffusionIP.C80_not_symmetric",
    "HyperHDG.DiffusionIP.C80_small_penalty"
   ],
   "note": "Symmetry is proved in one dimension and refuted in two (C80_not_symmetric); the condition on the penalty is shown to be needed (C80_small_penalty). The constant of the trace inequality is explicit for unit cubes."
  },
  {
   "property": "C81",
   "status": "partial",
   "theorems": [
    "HyperHDG.DAR.C81_flux",
    "HyperHDG.DAR.C81_residual",
    "HyperHDG.DAR.C81_dirichlet_zero",
    "HyperHDG.DAR.C81_linear",
    "HyperHDG.DAR.C81_affine",
    "HyperHDG.DAR.C81_mass_flux",
    "HyperHDG.DAR.C81_bulk_values",
    "HyperHDG.DAR.C81_errors",
    "HyperHDG.DAR.C81_steady_partial",
    "HyperHDG.DAR.C81_diffusion",
    "HyperHDG.DAR.C81_conservation",
    "HyperHDG.DAR.C81_exact",
    "HyperHDG.DAR.C81_free_stream",
    "HyperHDG.DAR.C81_time"
   ],
   "note": "Everything is proved for the integrals the code evaluates. That the velocity is taken at the given time is proved for steady velocities only (C81_steady_partial) and refuted in general by C81_time: it is always taken at time 0. errors_temp is not modelled."
  },
  {
   "property": "C82",
   "status": "proved",
   "theorems": [
    "HyperHDG.DAR.C82_dominated",
    "HyperHDG.DAR.C82_dominated_const",
    "HyperHDG.DAR.C82_solvable",
    "HyperHDG.DAR.C82_energy",
    "HyperHDG.DAR.C82_unique_dominated",
    "HyperHDG.DAR.C82_unique",
    "HyperHDG.DAR.C82_not_symmetric",
    "HyperHDG.DAR.C82_unbalanced"
   ],
   "note": "Both cases of the statement, locally and on hypergraphs; C82_not_symmetric and C82_unbalanced are the witnesses of its last sentence."
  },
  {
   "property": "C83",
   "status": "proved",
   "theorems": [
    "HyperHDG.Import.C83_ends",
    "HyperHDG.Import.C83_no_iff",
    "HyperHDG.Import.C83_yes_iff"
   ],
   "note": "For headers of the library in the form #include <HyperHDG/...>; the set of headers is the least one closed under inclusion (Needed)."
  },
  {
   "property": "C84",
   "status": "proved",
   "theorems": [
    "HyperHDG.Import.C84_requested_class",
    "HyperHDG.Import.C84_mode",
    "HyperHDG.Import.C84_names"
   ],
   "note": "By an invariant over histories; the hash function is assumed to have no collisions (GoodHash, met by hexHash)."
  },
  {
   "property": "C85",
   "status": "partial",
   "theorems": [
    "HyperHDG.Import.C85_up_to_date_partial",
    "HyperHDG.Import.C85_own_code_partial",
    "HyperHDG.Import.C85_new_process",
    "HyperHDG.Import.C85_same_process_not_updated",
    "HyperHDG.Import.C85_replacements_not_noticed",
    "HyperHDG.Import.C85_own_code_after_failure",
    "HyperHDG.Import.C85_own_code_stays",
    "HyperHDG.Import.C85_own_code_headers_not_checked",
    "HyperHDG.Import.C85_change_during_compilation",
    "HyperHDG.Import.C85_restored_file"
   ],
   "note": "C85_up_to_date_partial: for processes which have not loaded the module, edits which do not overlap compilations, and files with the time of their last change, options, templates and all headers which belong to the classes are up to date. C85_own_code_partial: so is the own code if each compilation succeeds and own code is never taken away. Refuted otherwise: same process (C85_same_process_not_updated), replacements (C85_replacements_not_noticed), own code after a failed compilation (C85_own_code_after_failure), own code taken away (C85_own_code_stays), headers of own code (C85_own_code_headers_not_checked), edits during compilation (C85_change_during_compilation), old times (C85_restored_file)."
  },
  {
   "property": "C86",
   "status": "partial",
   "theorems": [
    "HyperHDG.Import.C86_template_name",
    "HyperHDG.Import.C86_definition_found",
    "HyperHDG.Import.C86_definition_exists",
    "HyperHDG.Import.C86_struct_not_found",
    "HyperHDG.Import.C86_classname",
    "HyperHDG.Import.C86_replacements"
   ],
   "note": "All but structs: C86_struct_not_found."
  },
  {
   "property": "C87",
   "status": "partial",
   "theorems": [
    "HyperHDG.Import.C87_independent_partial",
    "HyperHDG.Import.C87_no_trace_partial",
    "HyperHDG.Import.C87_headers_stay",
    "HyperHDG.Import.C87_order_matters"
   ],
   "note": "Proved for objects which have been given a list include_files of their own; refuted otherwise (C87_order_matters, C87_headers_stay): the list is an attribute of the class and is appended to."
  },
  {
   "property": "C88",
   "status": "partial",
   "theorems": [
    "HyperHDG.Wrapper.C88_construct_partial",
    "HyperHDG.Wrapper.C88_null_object",
    "HyperHDG.Wrapper.C88_call",
    "HyperHDG.Wrapper.C88_exceptions_kill",
    "HyperHDG.Wrapper.C88_size_partial",
    "HyperHDG.Wrapper.C88_size_negative",
    "HyperHDG.Wrapper.C88_refine"
   ],
   "note": "Proved but for three limits: a geometry without arguments for the local solver leaves a null pointer (C88_null_object), C++ exceptions of methods end the process (C88_exceptions_kill), sizes from 2^31 on become negative (C88_size_negative)."
  },
  {
   "property": "C89",
   "status": "partial",
   "theorems": [
    "HyperHDG.DiffusionParab.C89_diffusion_partial",
    "HyperHDG.DiffusionParab.C89_diffusion_ends",
    "HyperHDG.AdvectionParab.C89_advection_partial",
    "HyperHDG.AdvectionParab.C89_advection_ends",
    "HyperHDG.BilaplacianParab.C89_bilaplacian_partial",
    "HyperHDG.BilaplacianParab.C89_bilaplacian_ends",
    "HyperHDG.DiffusionParab.Example.C89_time_dependent"
   ],
   "note": "Proved for coefficients (velocities) which do not depend on the time; refuted otherwise (C89_time_dependent): the operator is built with time 0 in every step. SciPy's solvers are assumed to be exact if they report success (Exact)."
  },
  {
   "property": "C90",
   "status": "partial",
   "theorems": [
    "HyperHDG.EigenvalueProgram.C90_diffusion_partial",
    "HyperHDG.EigenvalueProgram.C90_diffusion_shifted_partial",
    "HyperHDG.EigenvalueProgram.C90_diffusion_returns",
    "HyperHDG.EigenvalueProgram.C90_plotted",
    "HyperHDG.EigenvalueProgram.C90_cross",
    "HyperHDG.EigenvalueProgram.C90_unsorted",
    "HyperHDG.EigenvalueProgram.C90_stale",
    "HyperHDG.EigenvalueProgram.C90_indices",
    "HyperHDG.EigenvalueProgram.C90_long",
    "HyperHDG.EigenvalueProgram.C90_short",
    "HyperHDG.EigenvalueProgram.C90_mass_approx_partial",
    "HyperHDG.EigenvalueProgram.C90_shifted_inverse_partial",
    "HyperHDG.EigenvalueProgram.C90_mass_approx_nearest",
    "HyperHDG.EigenvalueProgram.C90_shifted_inverse_nearest",
    "HyperHDG.EigenvalueProgram.C90_mass_approx_returns",
    "HyperHDG.EigenvalueProgram.C90_shifted_inverse_returns"
   ],
   "note": "Proved for increasing lists which belong to the system, which is what the C++ classes report (C22). Refuted: the bilaplacian programs plot another vector (C90_plotted), the program for the cross returns the first eigenvalue with the second eigenvector (C90_cross). SciPy's eigsh and cg are assumed to be exact."
  },
  {
   "property": "C91",
   "status": "partial",
   "theorems": [
    "HyperHDG.NewtonProgram.Beam.C91_start_prescribed",
    "HyperHDG.NewtonProgram.C91_bilaplacian",
    "HyperHDG.NewtonProgram.C91_bilaplacian_start_partial",
    "HyperHDG.NewtonProgram.C91_bilaplacian_smooth",
    "HyperHDG.NewtonProgram.C91_bilaplacian_converges",
    "HyperHDG.NewtonProgram.C91_diffusion",
    "HyperHDG.NewtonProgram.C91_diffusion_start",
    "HyperHDG.NewtonProgram.C91_diffusion_smooth",
    "HyperHDG.NewtonProgram.C91_diffusion_converges",
    "HyperHDG.NewtonProgram.C91_twice",
    "HyperHDG.NewtonProgram.Example.C91_typo",
    "HyperHDG.NewtonProgram.C91_local",
    "HyperHDG.NewtonProgram.C91_local_returns",
    "HyperHDG.NewtonProgram.C91_fixed",
    "HyperHDG.NewtonProgram.C91_residual",
    "HyperHDG.NewtonProgram.C91_jacobian",
    "HyperHDG.NewtonProgram.C91_returned",
    "HyperHDG.NewtonProgram.C91_small",
    "HyperHDG.NewtonProgram.C91_step",
    "HyperHDG.NewtonProgram.C91_caught",
    "HyperHDG.NewtonProgram.C91_caught_partial",
    "HyperHDG.NewtonProgram.C91_uncaught",
    "HyperHDG.NewtonProgram.C91_dirichlet",
    "HyperHDG.NewtonProgram.C91_start",
    "HyperHDG.NewtonProgram.C91_initial",
    "HyperHDG.NewtonProgram.C91_combined"
   ],
   "note": "Proved: what is returned, the line search, the Jacobian, the fixed point, local convergence for both problems. Refuted: for diffusion a failing gmres raises an AttributeError which is not caught (C91_typo; the bilaplacian programs: C91_caught), the caller's list is changed (C91_twice), and where only the Laplacian is prescribed the start is not zero and stays so (C91_start_prescribed). Of SciPy's gmres and bicgstab it is assumed that they return vectors in the Krylov spaces, as accurate as requested, zero for zero; that they succeed is a hypothesis."
  },
  {
   "property": "C92",
   "status": "proved",
   "theorems": [
    "HyperHDG.Exact.C92_bulk_values",
    "HyperHDG.Exact.C92_errors",
    "HyperHDG.Exact.C92_residual",
    "HyperHDG.Exact.C92_exact",
    "HyperHDG.Exact.C92_program",
    "HyperHDG.Exact.C92_polynomials",
    "HyperHDG.Exact.Example.C92_quadratic"
   ],
   "note": "C92_exact, C92_bulk_values, C92_errors for any problem data satisfying the laws of the integrals; C92_polynomials with functions, derivatives and integrals on the cube; C92_program for the program. C92_quadratic: TestParametersQuadEllipt on paths of any length."
  },
  {
   "property": "C93",
   "status": "partial",
   "theorems": [
    "HyperHDG.Parameters.C93_diffusion_sin",
    "HyperHDG.Parameters.C93_diffusion_sin_full",
    "HyperHDG.Parameters.C93_diffusion_quad",
    "HyperHDG.Parameters.C93_diffusion_high_order",
    "HyperHDG.Parameters.C93_diffusion_high_order_faces",
    "HyperHDG.Parameters.C93_diffusion_parabolic",
    "HyperHDG.Parameters.C93_bilaplacian_sin",
    "HyperHDG.Parameters.C93_bilaplacian_quad",
    "HyperHDG.Parameters.C93_bilaplacian_parabolic",
    "HyperHDG.Parameters.C93_initial_laplace",
    "HyperHDG.Parameters.C93_not_initial_laplace",
    "HyperHDG.Parameters.C93_advection_reaction_sin",
    "HyperHDG.Parameters.C93_advection_reaction_quad",
    "HyperHDG.Parameters.C93_advection_parabolic",
    "HyperHDG.Parameters.C93_rotation_unique",
    "HyperHDG.Parameters.C93_rotation",
    "HyperHDG.Parameters.C93_not_diffusion_sin",
    "HyperHDG.Parameters.C93_not_diffusion_high_order"
   ],
   "note": "For each structure the theorem says exactly on which hyperedges the analytic result solves the equation: for the quadratic ones on all of the dimension given as template argument, for the sine waves on those containing the direction of coordinate 0 (C93_diffusion_sin_full: all of full dimension), for the structures with advection and reaction at all points where the coefficients are finite. Refuted: TestParametersSinEllipt on edges in other directions, as in fiber networks (C93_not_diffusion_sin), TestParametersQuadElliptHO on other planes than those of the examples (C93_not_diffusion_high_order), initial_laplace (C93_not_initial_laplace). Balance of fluxes at hypernodes where several hyperedges meet is not part of C93. LeVequeHG, HyperGraphMovie and injection, whose analytic results are initial profiles for pictures, and the structures for eigenvalues are not modelled."
  },
  {
   "property": "C94",
   "status": "proved",
   "theorems": [
    "HyperHDG.Estimate.C94_flux",
    "HyperHDG.Estimate.C94_rate",
    "HyperHDG.Estimate.C94_network",
    "HyperHDG.Estimate.C94_rate_errors"
   ],
   "note": "C94_flux (any hypergraph and dimension, via the approximation errors), C94_network (networks of edges: nodes and errors), C94_rate and C94_rate_errors (rates in 1D from Taylor polynomials). Exact arithmetic and exact integrals; unit normals. sine_smooth: the sine satisfies the hypotheses. No bound of the error of the primal unknown for dimension greater than one."
  },
  {
   "property": "C95",
   "status": "proved",
   "theorems": [
    "HyperHDG.EllipticPython.C95_system",
    "HyperHDG.EllipticPython.C95_matrix",
    "HyperHDG.EllipticPython.C95_result",
    "HyperHDG.EllipticPython.C95_failure",
    "HyperHDG.EllipticPython.C95_returns",
    "HyperHDG.EllipticPython.C95_exact",
    "HyperHDG.Diffusion.C95_diffusion",
    "HyperHDG.DiffusionPostprocess.C95_postprocess",
    "HyperHDG.DiffusionIP.C95_interior_penalty",
    "HyperHDG.DAR.C95_dar_errors",
    "HyperHDG.DAR.C95_dar_dominated",
    "HyperHDG.DAR.C95_dar_constant",
    "HyperHDG.Timoshenko.C95_beams",
    "HyperHDG.Bilaplacian.C95_plates"
   ],
   "note": "C95_system, C95_matrix, C95_result, C95_failure, C95_returns, C95_exact for every affine local solver; C95_diffusion, C95_postprocess, C95_interior_penalty, C95_dar_*, C95_beams, C95_plates for the local solvers of the library. Exact arithmetic; the linear solvers of SciPy are parameters with the contract Accurate, Local, Total, Complete (perfect_accurate: there is one)."
  },
  {
   "property": "C96",
   "status": "proved",
   "theorems": [
    "HyperHDG.InteriorPenaltyPrograms.C96_cells",
    "HyperHDG.InteriorPenaltyPrograms.C96_boundary",
    "HyperHDG.InteriorPenaltyPrograms.C96_cube",
    "HyperHDG.InteriorPenaltyPrograms.C96_penalty",
    "HyperHDG.InteriorPenaltyPrograms.C96_coefficients",
    "HyperHDG.DiffusionIP.C96_program",
    "HyperHDG.DiffusionIP.C96_degree_zero"
   ],
   "note": "C96_cells, C96_boundary (every cubic grid has a face of non-zero type), C96_cube (sharp trace constant 2 kappa (p+1)^2 / h), C96_penalty, C96_coefficients, C96_program, C96_degree_zero. Exact arithmetic; the integrals are those of orthonormal polynomials over cubes (external library)."
  },
  {
   "property": "C97",
   "status": "proved",
   "theorems": [
    "HyperHDG.EllipticProgram.C97_edge",
    "HyperHDG.EllipticProgram.C97_direction",
    "HyperHDG.EllipticProgram.C97_laplacian",
    "HyperHDG.EllipticProgram.C97_maximum",
    "HyperHDG.EllipticProgram.C97_comparison",
    "HyperHDG.EllipticProgram.C97_uniform_edge",
    "HyperHDG.EllipticProgram.C97_uniform_laplacian",
    "HyperHDG.EllipticProgram.C97_declared_maximum",
    "HyperHDG.EllipticProgram.C97_polynomials",
    "HyperHDG.DiffusionIP.C97_penalty_edge"
   ],
   "note": "C97_edge, C97_direction, C97_laplacian, C97_maximum, C97_comparison (Diffusion), C97_uniform_edge, C97_uniform_laplacian, C97_declared_maximum (DiffusionUniform), C97_penalty_edge (DiffusionIP), C97_polynomials (the hypothesis that the constant one is among the shape functions holds for polynomials of every degree). Exact arithmetic; maximum principle for nodes connected with a Dirichlet node."
  },
  {
   "property": "C98",
   "status": "proved",
   "theorems": [
    "HyperHDG.C98_flux",
    "HyperHDG.C98_declared",
    "HyperHDG.C98_solution",
    "HyperHDG.C98_errors",
    "HyperHDG.C98_set_data",
    "HyperHDG.C98_make_initial",
    "HyperHDG.C98_file",
    "HyperHDG.C98_file_types",
    "HyperHDG.C98_file_graph",
    "HyperHDG.HyGraph.Example.C98_make_initial_order"
   ],
   "note": "C98_flux, C98_declared, C98_solution, C98_errors, C98_set_data, C98_make_initial for arbitrary local functions; C98_file, C98_file_types, C98_file_graph for topologies read from files; C98_make_initial_order: a hypergraph where make_initial depends on the order because the local values disagree. Exact arithmetic (sums of floating point numbers depend on the order)."
  },
  {
   "property": "C99",
   "status": "partial",
   "theorems": [
    "HyperHDG.MakeGeo.C99_network",
    "HyperHDG.MakeGeo.C99_succeeds",
    "HyperHDG.MakeGeo.C99_edges",
    "HyperHDG.MakeGeo.C99_properties_partial",
    "HyperHDG.MakeGeo.C99_joints_partial",
    "HyperHDG.MakeGeo.C99_read",
    "HyperHDG.MakeGeo.C99_repeated_vertex",
    "HyperHDG.MakeGeo.C99_example",
    "HyperHDG.MakeGeo.C99_properties_witness",
    "HyperHDG.MakeGeo.C99_joints_witness",
    "HyperHDG.MakeGeo.C99_repeated_vertex_example"
   ],
   "note": "C99_network, C99_succeeds, C99_edges, C99_read hold in full. C99_properties_partial needs that the two points of each connection are more than 2e-10 apart, C99_joints_partial needs that points are equal or more than 1e-10 apart: the program violates the statement otherwise. C99_properties_witness: fibres which cross shift all properties. C99_joints_witness: a connected fibre is separated from the network. C99_repeated_vertex: if the first connection joins fibres which meet, the vertex is stored twice and check_consistency rejects the file. Exact arithmetic; the output of numbers by Python is an assumed external."
  },
  {
   "property": "C100",
   "status": "proved",
   "theorems": [
    "HyperHDG.Estimate.C100_nodes",
    "HyperHDG.Estimate.C100_fluxes",
    "HyperHDG.Estimate.C100_line",
    "HyperHDG.Estimate.C100_example",
    "HyperHDG.Estimate.C100_degree_zero"
   ],
   "note": "C100_nodes (both directions), C100_fluxes; C100_line for the unit interval with n edges, C100_example: right-hand side exp. C100_degree_zero shows that the condition on the degree is needed. Integrals exact (ExactIntegrals), exact arithmetic, GesvSpec."
  },
  {
   "property": "C101",
   "status": "proved",
   "theorems": [
    "HyperHDG.EllipticProgram.C101_edge",
    "HyperHDG.EllipticProgram.C101_balance",
    "HyperHDG.EllipticProgram.C101_total",
    "HyperHDG.EllipticProgram.C101_neumann",
    "HyperHDG.EllipticProgram.C101_solve",
    "HyperHDG.EllipticProgram.C101_incompatible",
    "HyperHDG.Estimate.C101_constants",
    "HyperHDG.Estimate.C101_exact",
    "HyperHDG.Estimate.Example.C101_example",
    "HyperHDG.Estimate.Example.C101_example_throws"
   ],
   "note": "C101_edge, C101_balance, C101_total (balances); C101_neumann, C101_solve, C101_incompatible (no Dirichlet nodes); C101_constants, C101_exact: the same for exact integrals in terms of functions, C101_example and C101_example_throws on a path. Exact arithmetic, GesvSpec."
  },
  {
   "property": "C102",
   "status": "proved",
   "theorems": [
    "HyperHDG.DiffusionParab.C102_decay",
    "HyperHDG.DiffusionParab.C102_fixed",
    "HyperHDG.DiffusionParab.C102_limit",
    "HyperHDG.DiffusionParab.Example.C102_example"
   ],
   "note": "C102_decay (geometric decay, rate independent of the initial values), C102_fixed (steady states stay), C102_limit (convergence over archimedean fields); C102_example on two parallelograms. For theta < 1 the initial values must be compatible (Marches.scheme) as in C52. Exact arithmetic, GesvSpec."
  },
  {
   "property": "C103",
   "status": "proved",
   "theorems": [
    "HyperHDG.EllipticProgram.C103_superposition",
    "HyperHDG.EllipticProgram.C103_exists",
    "HyperHDG.EllipticProgram.C103_reciprocity",
    "HyperHDG.EllipticProgram.C103_work",
    "HyperHDG.EllipticProgram.Example.C103_example",
    "HyperHDG.Timoshenko.C103_beam_superposition",
    "HyperHDG.Timoshenko.C103_beam_exists",
    "HyperHDG.Timoshenko.C103_betti",
    "HyperHDG.Timoshenko.C103_beam_work",
    "HyperHDG.Timoshenko.Example.C103_beam_example"
   ],
   "note": "Diffusion: C103_exists, C103_superposition, C103_reciprocity, C103_work; beams: C103_beam_exists, C103_beam_superposition, C103_betti, C103_beam_work. Examples for all loads on two parallelograms and on a frame of two beams. Exact arithmetic, GesvSpec."
  },
  {
   "property": "C104",
   "status": "proved",
   "theorems": [
    "HyperHDG.Estimate.C104_exists",
    "HyperHDG.Estimate.C104_unique",
    "HyperHDG.Estimate.C104_refined",
    "HyperHDG.Estimate.C104_independent",
    "HyperHDG.Estimate.C104_network",
    "HyperHDG.Estimate.C104_example"
   ],
   "note": "C104_exists, C104_unique (any network), C104_refined, C104_independent (networks of domain files with the refined topology and node descriptor), C104_network (the hypotheses can be met for every consistent file), C104_example (a star: the computed value in the centre is e - 2 for every refinement). Exact arithmetic, exact integrals of the parts of the edges, GesvSpec, Tpcc.Lawful."
  },
  {
   "property": "C105",
   "status": "proved",
   "theorems": [
    "HyperHDG.Timoshenko.C105_exact",
    "HyperHDG.Timoshenko.C105_exists",
    "HyperHDG.Timoshenko.C105_unique",
    "HyperHDG.Timoshenko.C105_independent",
    "HyperHDG.Timoshenko.Example.C105_example"
   ],
   "note": "C105_exact, C105_exists, C105_unique, C105_independent; C105_example (a cantilever: deflection g L^4 / (8 E I) + g L^2 / (2 k G A) for every degree at least three). Exact arithmetic, GesvSpec, exact integrals (BeamIntegrals, met by beamOf); existence and uniqueness for networks whose number of dofs fits the index type. The signs of the cross products are those of the code (C71)."
  },
  {
   "property": "C106",
   "status": "proved",
   "theorems": [
    "HyperHDG.Timoshenko.C106_refined",
    "HyperHDG.Timoshenko.C106_independent",
    "HyperHDG.Timoshenko.C106_network",
    "HyperHDG.Timoshenko.Example.C106_example"
   ],
   "note": "C106_refined, C106_independent, C106_network (the hypotheses can be met for every consistent file), C106_example (a cantilever divided into any number of parts). Exact arithmetic, exact integrals of the parts of beams (BeamIntegrals), GesvSpec, Tpcc.Lawful."
  },
  {
   "property": "C107",
   "status": "proved",
   "theorems": [
    "HyperHDG.C107_checked",
    "HyperHDG.C107_topology",
    "HyperHDG.C107_types",
    "HyperHDG.C107_geometry",
    "HyperHDG.C107_length",
    "HyperHDG.C107_example",
    "HyperHDG.C107_release_witness"
   ],
   "note": "C107_checked, C107_topology, C107_types, C107_geometry, C107_length (builds with assertions); C107_release_witness shows that builds without assertions do not have the property (the statement says so); C107_example. Assumed: SortSpec, Tpcc.Lawful, Geqr2Spec, QrInBounds."
  },
  {
   "property": "C108",
   "status": "proved",
   "theorems": [
    "HyperHDG.Bilaplacian.C108_nodes",
    "HyperHDG.Bilaplacian.C108_exists",
    "HyperHDG.Bilaplacian.C108_example"
   ],
   "note": "C108_nodes, C108_exists, C108_example (-u'' = w, -w'' = exp on a chain of n edges). Assumed: GesvSpec, exact integrals of the data, orthonormal basis."
  },
  {
   "property": "C109",
   "status": "proved",
   "theorems": [
    "HyperHDG.Bilaplacian.C109_refined",
    "HyperHDG.Bilaplacian.C109_independent",
    "HyperHDG.Bilaplacian.C109_network",
    "HyperHDG.Bilaplacian.C109_unique",
    "HyperHDG.Bilaplacian.C109_example"
   ],
   "note": "C109_refined, C109_independent, C109_unique, C109_network (the assumed hypergraph and edges exist), C109_example (star: 5/24 and 1/2 in the centre). Assumed: GesvSpec, Tpcc.Lawful, exact integrals of the data, orthonormal basis."
  },
  {
   "property": "C110",
   "status": "proved",
   "theorems": [
    "HyperHDG.Timoshenko.C110_beam",
    "HyperHDG.Timoshenko.C110_work",
    "HyperHDG.Timoshenko.C110_forces",
    "HyperHDG.Timoshenko.C110_free",
    "HyperHDG.Timoshenko.Example.C110_example",
    "HyperHDG.Timoshenko.Example.C110_free_example"
   ],
   "note": "C110_beam, C110_work (rigid motions), C110_forces, C110_free, C110_example, C110_free_example. That rotations need frames of one orientation is the sign error recorded at C71. Assumed: GesvSpec, FormLaws of the integrals."
  },
  {
   "property": "C111",
   "status": "proved",
   "theorems": [
    "HyperHDG.BilaplacianParab.C111_decay",
    "HyperHDG.BilaplacianParab.C111_fixed",
    "HyperHDG.BilaplacianParab.C111_limit",
    "HyperHDG.BilaplacianParab.C111_correct",
    "HyperHDG.BilaplacianParab.C111_runs",
    "HyperHDG.BilaplacianParab.Example.C111_example",
    "HyperHDG.BilaplacianParab.Example.C111_fixed_example",
    "HyperHDG.BilaplacianParab.Example.C111_wrong_example"
   ],
   "note": "C111_decay, C111_fixed, C111_limit; C111_correct says that the stationary solution for the source itself is kept by the step if and only if theta = 1 or the source is zero (witness C111_wrong_example, theta = 1/2); C111_runs gives runs of any length; C111_example, C111_fixed_example. Assumed: GesvSpec, FormLaws and Rigid of the integrals."
  },
  {
   "property": "C112",
   "status": "proved",
   "theorems": [
    "HyperHDG.BilaplacianParab.C112_edge",
    "HyperHDG.BilaplacianParab.C112_step",
    "HyperHDG.BilaplacianParab.C112_run",
    "HyperHDG.Bilaplacian.C112_stationary",
    "HyperHDG.Bilaplacian.C112_compatible",
    "HyperHDG.BilaplacianParab.Example.C112_example",
    "HyperHDG.BilaplacianParab.Example.C112_stationary_example"
   ],
   "note": "C112_edge (set_data on a hyperedge), C112_step, C112_run (program), C112_stationary, C112_compatible; C112_example, C112_stationary_example. Where hypernodes are prescribed, u and the Laplacian are prescribed at the same ones. The old flux of w does not enter (see C63), so the balance is that of the scheme which the code computes. Assumed: GesvSpec, FormLaws of the integrals, and that the constant function belongs to the shape functions (IsConst, IsTrace; for polynomials see C101_constants)."
  },
  {
   "property": "C113",
   "status": "proved",
   "theorems": [
    "HyperHDG.Bilaplacian.C113_superposition",
    "HyperHDG.Bilaplacian.C113_exists",
    "HyperHDG.Bilaplacian.C113_reciprocity",
    "HyperHDG.Bilaplacian.C113_work",
    "HyperHDG.Bilaplacian.Example.C113_example",
    "HyperHDG.Bilaplacian.Example.C113_superposition_example"
   ],
   "note": "C113_superposition, C113_exists, C113_reciprocity, C113_work; C113_example, C113_superposition_example. In (2)-(4) u and the Laplacian are prescribed at the same hypernodes. Assumed: GesvSpec, FormLaws (and Rigid for (2)) of the integrals, symmetry of the coefficient's matrix in (3), and its sign in (4)."
  },
  {
   "property": "C114",
   "status": "proved",
   "theorems": [
    "HyperHDG.BilaplacianParab.C114_superposition",
    "HyperHDG.BilaplacianParab.Example.C114_example"
   ],
   "note": "C114_superposition; C114_example. Assumed: GesvSpec, FormLaws of the integrals, coefficient's matrix not negative; the two problems have the same operator (SameOperator) and the same prescribed hypernodes. As in C64 the system is assembled with a coefficient which agrees with that at the time of the step."
  },
  {
   "property": "C115",
   "status": "proved",
   "theorems": [
    "HyperHDG.DiffusionParab.C115_superposition",
    "HyperHDG.DiffusionParab.C115_solutions",
    "HyperHDG.DiffusionParab.Example.C115_example"
   ],
   "note": "C115_superposition, C115_solutions; C115_example. Assumed: GesvSpec, FormLaws and orthonormal shape functions as in C50; the problems have the same operator (SameOperator), normals and Dirichlet hypernodes."
  },
  {
   "property": "C116",
   "status": "proved",
   "theorems": [
    "HyperHDG.AdvectionParab.C116_superposition",
    "HyperHDG.AdvectionParab.C116_solutions",
    "HyperHDG.AdvectionParab.Example.C116_example"
   ],
   "note": "C116_superposition, C116_solutions; C116_example. Assumed: GesvSpec, orthonormal shape functions and solvable local problems as in C72; the problems differ in their data only (withData)."
  },
  {
   "property": "C117",
   "status": "proved",
   "theorems": [
    "HyperHDG.DAR.C117_residual",
    "HyperHDG.DAR.C117_bulk_values",
    "HyperHDG.DAR.C117_superposition",
    "HyperHDG.DAR.C117_solutions",
    "HyperHDG.DAR.Example.C117_example",
    "HyperHDG.DAR.Example.C117_solutions_example"
   ],
   "note": "C117_residual, C117_bulk_values, C117_superposition, C117_solutions; C117_example, C117_solutions_example. Assumed: GesvSpec and solvable local problems (as in C81; sufficient conditions in C82)."
  }
 ]
}