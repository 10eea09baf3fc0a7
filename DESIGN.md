# Formal model of HyperHDG in Lean 4

This directory contains a Lean 4 model of the C++ library in `/repo` and machine-checked proofs of
the properties listed in `properties.jsonl`.  The status of each property and the names of its
theorems are in `MANIFEST.json`.

## Layout

* `lean/Verif/Model/*.lean`  - the model, one file per header of the library.  Every definition cites
  the file and the lines it models and says where it simplifies.
* `lean/Verif/Spec/*.lean`   - small specifications, written without using the model.
* `lean/Verif/Proofs/*.lean` - helper lemmas.
* `lean/Verif/Props/*.lean`  - the property theorems, each next to a non-vacuity example.
* `seeded/LOG.jsonl`         - record of the wrong programs the theorems were tested against.

## Modelling conventions

* **Outcomes.** A C++ call ends in one of four ways: it returns (`ok`), a `hy_assert` fails (`abort`,
  only in builds without `NDEBUG`), it throws (`throw`), or its behaviour is undefined (`ub`, e.g.
  access of a vector out of bounds, division of an unsigned number by 0).  `Mode.debug` keeps the assertions,
  `Mode.release` drops them.
* **Unsigned integers.** Index types are 32 bit unsigned integers.  Where the code multiplies or adds
  indices and the result can exceed the type, the model reduces modulo `2^32`; the theorems then have
  an explicit no-overflow hypothesis, and there is a witness showing what happens without it.
  Loop counters bounded by template parameters are plain naturals.
* **Floating point numbers** are elements of an arbitrary commutative ring / linearly ordered field
  (the weakest structure in which the property makes sense).  All numerical statements are thus
  statements in exact arithmetic; rounding, overflow, NaN are not modelled.
* **Loops** are folds over index lists with explicit in-place updates, in the order of the code.
* **External code** (LAPACK, TPCC, the tensor-product-polynomial integrator, the C++ standard library) is
  represented by parameters with explicit laws.  Each structure of laws has a concrete instance in
  the development, so the laws are satisfiable.

## Trusted base

1. Lean's kernel, and the axioms `propext`, `Classical.choice`, `Quot.sound`.  No theorem uses anything else (no
   axioms of our own, no `sorry`, no compiler-trusting tactics).
2. The reading of the C++ code as transcribed in `Model/` (see "What is modelled").
3. The laws assumed of components which are not part of the repository, see the table.  They always appear as explicit
   hypotheses of the theorems.  For each there is an instance in the development, so the hypotheses can be met.

| component | law (file) | what it says | instance |
|-----------|-----------|--------------|----------|
| TPCC (tensor product chain complex) | `Tpcc.Lawful` (`Spec/Refinement`) | elements of the complex are numbered one to one, the facets of an element are the expected ones | lexicographic numbering, `Proofs/TpccLex` |
| LAPACK `dgesv` | `GesvSpec` (`Spec/Lapack`) | if the matrix is invertible the solution is returned with `info = 0`, otherwise `info > 0` | Cramer's rule, `C44_example` |
| LAPACK `dgeqr2` | `Geqr2Spec`, `IsHouseholderQR` (`Spec/FileGeometry`, `Spec/Lapack`) | result is a Householder QR factorisation in LAPACK's storage | `Householder.exists_geqr2_real`, `C13_example` |
| integrals over the reference cube | `Spec.Lawful` (`Spec/LocalSolver`) | mass matrix symmetric positive definite, integration by parts, traces spanned by orthonormal face functions, unisolvence | exact integrals of tensor products of orthonormal polynomials of every degree and dimension, `C20_polynomials`, `Proofs/Legendre`, `Proofs/TensorIntegrator` |
| integrals over hyperedges | `FormLaws` (`Spec/LDG`) | the same for transformed shape functions and a positive diffusion coefficient | derived from `Spec.Lawful` for every affine hyperedge (`affine_laws`), for file geometries `C21_file_laws` |
| transformation of integrals | `UsesGeometry`, `AffineLaws` (`Spec/Diffusion`, `Spec/AffineForm`) | volumes scale by `area`, gradients by the inverse Jacobian, faces by `face_area` | `Diffusion.Example.A0_laws` |
| shape functions of the parabolic solver | `Orthonormal`, `InitialLaws` (`Spec/Parabolic`) | mass matrix is the volume times the identity; integrals of the initial value are those of its projections | `DiffusionParab.Example` |
| `std::sort` | `SortSpec` (`Spec/GeoFile`) | result is a sorted permutation (for strict weak orders) | insertion sort, `C29_sort` |
| reading numbers (`operator>>`) | `IsReal`, `scan` (`Spec/GeoFile`) | the longest numeric prefix is read | `C31_example` |
| writing numbers (`operator<<`) | `PrintSpec` (`Spec/GeoFile`) | reading what was written returns the rounded value | `C31_print`, `C32_print` |
| `std::sqrt` | `SqrtSpec` (`Spec/EpsilonGraph`) | square root of non-negative numbers | `C32_sqrt`, `C43_example` |
| `std::stof`, `std::to_string` | parameters `stof`, `ftos` of the plot options | nothing is assumed | |
| `cg`, `gmres`, `bicgstab` (SciPy) in time steps | `LinearSolver`, `Exact`, `Complete`, `Total` | if `info = 0` the vector solves the system, exactly, and vanishes where right-hand side and all products vanish | `perfect` |
| `eigsh` (SciPy) | `Eigsh`, `ExactEigsh`, `NearestEigsh`, `CompleteEigsh` | given an exact inverse it returns exact eigenpairs, for symmetric operators the one next to the shift, and it finds one if there is one | `perfect` |
| `gmres`, `bicgstab` (SciPy) | `KrylovSolver`, `AccurateSolver`, `ZeroSolver` | a vector returned with success is in the Krylov spaces, its residual at most the tolerance times the right-hand side; zero for the right-hand side zero | `best`, `never` |
| `cg`, `gmres` (SciPy) with a tolerance, in elliptic programs | `Accurate`, `Local`, `Total`, `Complete` | what they return with flag 0 has a residual of at most `tol` times the right-hand side; recent versions of SciPy do not know the keyword `tol` |
| integrals of components of vector-valued functions on a beam (`integrate_vol_phivecfunccomp`, `integrate_bdr_phivecfunccomp`) | `BeamIntegrals` | exact; component 1 is along the inner normal (the direction of the beam), -1 and -2 along the two outer normals | `beamOf_exact` |
| SHA-256, `glob`, `configparser` (Python) | `Import.Platform`, `GoodHash` | any functions; where stated the hash has no collisions and only letters and digits; each write of a file gets a later time than all before | `hexHash_good`, `Example.P0` |
| file system | `PlotEnv` | directory can be created or not, file can be opened or not | `C36_example` |
| geometry and local solver called by the plot functions | `PlotInput` | nothing but the sizes of the arrays returned | `C35_unit_cube` |
| user functions (source, Dirichlet data, coefficients) | only through the integrals above | nothing | |

Floating point numbers are elements of a commutative ring or an ordered field.  So rounding errors, overflow to infinity and NaN
are outside of the model.  Where the code converts between `float` and `double`, or a floating point number to an integer, the
conversion is modelled when it changes the meaning (`C45_boundary_negative`, `C39_time_witness`).

## What is modelled

| header (in `/repo/include/HyperHDG`) | model | not modelled |
|---|---|---|
| `hypernodefactory.hxx` | `HyperNodeFactory` | |
| `hypercube.hxx` | `Hypercube` | |
| `dense_la.hxx` | `DenseLA` | stream output; state of the left operand after a division exception |
| `sparse_la.hxx` | `SparseLA` | `SparseMatrix` wrappers of Python |
| `wrapper/lapack.hxx` | `Lapack` | the Fortran routines (parameters) |
| `wrapper/tpcc.hxx` | `Tpcc` | the library itself (parameter) |
| `topology/cubic.hxx`, `topology/file.hxx` | `Topology` | |
| `node_descriptor/cubic.hxx`, `node_descriptor/file.hxx` | `Topology` | |
| `geometry/unit_cube.hxx` | `UnitCube` | |
| `geometry/file.hxx`, `mapping/linear.hxx` | `FileGeometry`, `Mapping` | |
| `hdg_hypergraph.hxx`, `hy_data_container.hxx` | `HyperGraph` | |
| `read_domain.hxx` | `ReadDomain` | |
| `epsilon_neighborhood_graph.hxx` | `EpsilonGraph` | |
| `global_loop/prototype.hxx` | `GlobalLoop` | |
| `global_loop/elliptic.hxx`, `parabolic.hxx`, `*_eigenvalue.hxx` | `GlobalClasses` | wall-clock output |
| `plot.hxx` | `Plot` | constant XML text, format of the numbers |
| `local_solver/diffusion_uniform_ldgh.hxx` | `DiffusionUniform` | |
| `local_solver/diffusion_ldgh.hxx` | `Diffusion` | |
| `local_solver/diffusion_parab_ldgh.hxx` | `DiffusionParab` | `assemble_rhs_from_coeffs` (never called) |
| `tests_c++/diffusion_dimensions.cxx` | `EllipticProgram` (the sequence of calls) | the compiled types; the printed error |
| `local_solver/diffusion_eigs_ldgh.hxx` | `Model/DiffusionEigs.lean` | `errors` (uses an undeclared variable `time`) |
| `local_solver/bilaplacian_uniform_ldgh.hxx` | `BilaplacianUniform` | |
| `local_solver/bilaplacian_ldgh.hxx` | `Bilaplacian` | `errors_temp`, `solve_loc_prob_cor` |
| `local_solver/bilaplacian_parab_ldgh.hxx` | `BilaplacianParab` | |
| `local_solver/bilaplacian_eigs_ldgh.hxx` | `BilaplacianEigs` | `errors` (uses an undeclared variable `time`) |
| `local_solver/timoshenko_network.hxx` | `Timoshenko` (hyperedges of dimension one in space of dimension three, as the code asserts) | parameter structures; text printed before a failed assertion |
| `local_solver/advection_parab_ldgh.hxx` | `AdvectionParab` | parameter structures; the integrals are queries about the hyperedge, described by quadrature formulas (`UpwindLaws`) |
| `local_solver/diffusion_ldgh_pp.hxx` | `Model/DiffusionPostprocess.lean` (with `Model/Diffusion.lean`) | all functions used; `assemble_rhs_from_coeffs` is never called |
| `local_solver/diffusion_ip.hxx` | `Model/DiffusionIP.lean` | all functions used; `assemble_rhs_from_coeffs` is never called |
| `local_solver/diffusion_advection_reaction_ldg.hxx` | `Model/DiffusionAdvectionReaction.lean` | all functions but `errors_temp` and `solve_loc_prob_cor`, which only it calls |
| `local_solver/template.hxx` | - | not modelled (a skeleton without code) |
| `hy_assert.hxx` | `Outcome` | text of the message |
| `import/HyperHDG/import_cxx/*.py` | `Model/Import.lean`, `Model/ImportDefaults.lean` | output on the screen, creation of directories, `cython_log.txt`, text of the shell commands, parsing of configuration files, `cmake.py` but for its use, the compilers (a shared object is what it was built from) |
| `reproducibles_python/*_parabolic.py`, `advection_*.py` | `Model/ParabolicProgram.lean` | output, plots, the error itself (C50, C63, C72) |
| `reproducibles_python/*_eigenvalue_approx.py`, `*_eigenvalue_shifted_inverse*.py` | `Model/EigenvalueProgram.lean` | output, plots; the biharmonic programs only over an arbitrary object |
| `reproducibles_python/*_eigenvalue_newt*.py`, `*_eigenvalue_comb.py` | `Model/NewtonProgram.lean`, `Model/NewtonWrapper.lean` | output on the screen and to files, plots, NaN |
| `reproducibles_python/parameters/{diffusion,bilaplacian,diffusion_advection_reaction,advection}.hxx`, `examples/parameters/diffusion.hxx` | `Model/ExampleParameters.lean` | node types (C13), Neumann values (zero), random initial values, structures used for pictures |
| `reproducibles_python/*_elliptic*.py`, `timoshenko_convergence_cross.py`, `fiber_network_*.py` | `Model/EllipticPython.lean` | output, plots, preconditioner, files of the fibre network |
| `reproducibles_python/diffusion_*elliptic_ip.py` (arguments, `parameters/diffusion.hxx`) | `Model/InteriorPenaltyPrograms.lean` | configuration strings |
| `domains/morgan/make_geo.py` | `Model/FiberNetwork.lean` | reading of the `.csv` files, plot, second file with the coordinates; distances are compared by their squares |
| `cython/*.pyx`, `cython/*.pxd` | `Model/CythonWrapper.lean` | conversions of vectors and strings |

## Plan per property (what is modelled, how it is proved)

| id | model | proof |
|----|-------|-------|
| C01 | `HyperNodeFactory` index functions with 32-bit arithmetic | division algorithm; `Nodup`/membership of the concatenation over all nodes |
| C02 | dof get/set/add as loops with assertions on lists | loop invariant, pointwise characterisation of the result |
| C03 | same, with `ub`/`abort` outcomes | case split on guards; witnesses for wrap-around |
| C04 | `index_decompose`, `pow` loops | induction over dimensions |
| C05 | `tensorial_pt` | corollary of C04 |
| C06 | `SmallMat` as column-major array | injectivity of the index map |
| C07 | product loops | fold = `Finset` sum; comparison with `Matrix` operations |
| C08 | lexicographic `operator<` loop | induction over entries |
| C09 | division operators with exceptions | induction over entries |
| C10 | in-place loops over an explicit store with aliasing | induction over the loop |
| C11 | `conjugate_gradient` with explicit fuel = iteration limit | loop invariant `r = b - A x` |
| C12 | same | conjugacy invariants, orthogonal residuals, dimension count |
| C13 | `qr_decomp` sign bookkeeping over a `dgeqr2` contract | matrix algebra over an ordered field |
| C14 | `lapack_det`, `determinant` over the Householder contract | determinant of reflections; witness for the sign |
| C15 | `Mapping::Linear`, `Geometry::File::hyEdge` | affine algebra |
| C16 | `prototype_mat_vec_multiply`, `Elliptic` | fold = sum over incidences |
| C17 | `prototype_mat_generate` | sum of triplets = C16 sum; witness for the Dirichlet discrepancy |
| C18 | C16 | sum exchange |
| C19 | `DiffusionUniform` block matrix, right-hand side, fluxes over integrator laws | bilinear algebra |
| C20 | same | kernel of the local matrix is trivial |
| C21 | `Diffusion` local solver | linear algebra |
| C22 | `dirichlet_indices` as a stateful operation | invariant over call histories; witness for staleness |
| C23 | `read_dirichlet_indices`, `trace_to_flux` | membership in sorted deduplicated list |
| C24 | `Topology::Cubic/File` over TPCC laws | arithmetic of index ranges |
| C25 | same | injectivity of the numbering |
| C26 | `HDGHyperGraph` state machine | state after history depends on last level only |
| C27 | same | invariant |
| C28 | `NodeDescriptor` | case distinction, base-3 digits |
| C29 | `is_unique` | sorting lemma |
| C30 | `check_consistency` in both build modes | loop analysis; witness for release builds |
| C31 | `read_domain_geo` on token lines | round trip over a printer |
| C32 | `make_epsilon_neighborhood_graph` search loop with fuel-free termination | breadth-first invariant |
| C33 | `Geometry::UnitCube` | products and sums |
| C34 | normals | case distinction |
| C35 | plot writers as lists of numbers | counting lemmas |
| C36 | `plot` as state machine | injectivity of the file name |
| C37 | `set_plot_option` | case distinction |
| C38 | iterator loop | induction |
| C39 | `Parabolic::make_initial` | last-writer analysis; witness for the truncated time |
| C40 | `prototype_errors` | fold = sum |
| C41 | `Parabolic::set_data`, `make_initial` with the data container | loop invariant: entry `e` is updated once, from its own dofs |
| C42 | `NonlinearEigenvalue::jacobian_of_trace_to_flux` | C16 for the two-argument loop |
| C43 | `norm_1`, `norm_2`, `norm_infty`, `norm_p` | fold = sum / maximum |
| C44 | `lapack_solve` | over `GesvSpec` |
| C45 | evaluation points of `UnitCube` | digits of the index; witnesses for negative indices and the in-place map |
| C46 | `DiffusionUniform::bulk_values` | loop over points, solution of the local problem |
| C47 | `Diffusion::trace_to_mass_flux` | as C21 |
| C48 | `Diffusion::bulk_values`, `errors` | as C46 |
| C49 | copy constructors | equality of all answers; witness for `NodeDescriptor::File` |
| C50 | `DiffusionParab` and `Parabolic` | induction over the time steps: the kept data determine the state of the theta scheme |
| C51 | same | linear algebra in finite dimension: an affine map with definite linear part has exactly one zero |
| C52 | same | energy argument: test with the theta-weighted difference |
| C53 | same | test with constants |
| C54 | the programs which solve elliptic problems: `EllipticProgram` with `Elliptic`, both diffusion solvers and `SparseLA` | definite operator on the vectors vanishing at the Dirichlet nodes (chains of hyperedges carry zeros); conjugate gradients on an invariant subspace (`C12_subspace`) |
| C55 | topologies with `Elliptic` | neighbouring sub-cubes share a face; coarse faces keep a common refined hypernode; lattices: move to the origin, exchange directions |
| C56 | `DiffusionEigs` | the matrix is that of the abstract LDG-H form with `rho = -eig`; as C21 |
| C57 | `DiffusionEigs::jacobian_of_trace_to_flux`, `NonlinearEigenvalue` | the inverse matrix is differentiable where it exists; the derivative of the local solution solves the local problem with source `eig M u` |
| C58 | `DiffusionEigs`, `NonlinearEigenvalue` | test the global equation with the eigenvector; symmetry of the bilinear form; C21 and C54 for eigenvalue 0 |
| C59 | `Bilaplacian` | the matrix has the block form of two coupled LDG-H problems (`Spec/Mixed`); the second problem is independent of the first, so C21 twice |
| C60 | `Bilaplacian::residual_flux`, `make_initial` | as C59; the exact defect, and hyperedges where it is not zero |
| C61 | `Bilaplacian` with `Elliptic` | pairing of the two halves; test the homogeneous problem first with the trace of the Laplacian, then with that of the value |
| C62 | `BilaplacianUniform` with `Elliptic` | as C59 for the integrals over the cube; the second half decouples, so test with the second half, then with the first |
| C63 | `BilaplacianParab` | the computed local problem is the mixed problem with mass matrix; `Step`/`EulerStep`/`ThetaStep` stated from the equations; energy argument for solvability |
| C64 | `BilaplacianParab` with `Parabolic` | induction over time steps; `A y = -R` is the balance of the fluxes of the next state; test with exchanged traces for uniqueness and contractivity |
| C65 | `BilaplacianEigs` | the matrix is that of the mixed problem with `-eig M` in the second diagonal block; as C59; energy argument for `eig <= 0` |
| C66 | `BilaplacianEigs::jacobian_of_trace_to_flux`, `NonlinearEigenvalue` | as C57 for the mixed matrix |
| C67 | `BilaplacianEigs`, `NonlinearEigenvalue` | test each half of the global equation with the halves of eigenvectors; C61 for eigenvalue 0 |
| C68 | `TimoshenkoNetwork` | the local matrix as blocks (`Proofs/Blocks`), the local problem in the frame of the beam (`Spec/Timoshenko`), energy identity (`Proofs/Beam`) |
| C69 | `TimoshenkoNetwork`, global loop | sum of the energies; a beam without energy which is fixed at one end is fixed at the other; induction along chains of beams |
| C70 | `assemble_loc_matrix` of `TimoshenkoNetwork` | evaluation of the coefficients; counterexamples |
| C71 | `TimoshenkoNetwork`, `Mapping::Linear` | the exact solution for rigid motions; determinant of the matrix Q of LAPACK (C13) |
| C72 | `AdvectionParab`, `Parabolic` loop | local matrix and right hand sides in matrix form; invariant of the data of the hyperedges by induction over the calls |
| C73 | `AdvectionParab`, `Parabolic` loop | test of the step with the constant 1; sum over the hyperedges, `pairing_assemble` |
| C74 | `AdvectionParab`, `Parabolic` loop | energy identity of the upwind flux with quadrature formulas; injectivity gives existence; induction over time steps |
| C75 | `AdvectionParab`, `Parabolic` loop | the constant solves each step; uniqueness of the local problem; induction over time steps |
| C76 | `is_dirichlet`, `is_outflow` of `AdvectionParab`, `inner_normal` of both geometries | C34 for `UnitCube`; evaluation of the QR decomposition for hyperedges of dimension one, counterexample |
| C77 | `lexicographic`, `boundary_lexicographic`, `map_ref_to_phys` of `File` | invariants of the loops (digits), mapping of C15 |
| C78 | `DiffusionPostprocess` (`errors` and its matrix and vector; the other functions are those of `Diffusion`) | the system solved is equivalent to the postprocessing problem of `Spec/Postprocess.lean` |
| C79 | `DiffusionIP` (all functions used) | the assembled system is the local problem of `Spec/DiffusionIP.lean`; loops by invariants, LAPACK by its specification; witness for time-dependent coefficients |
| C80 | the same, with the global loop of C18 | energy identity and the discrete trace inequality; the constant is computed for unit cubes; witnesses on the unit square |
| C81 | `DiffusionAdvectionReaction` (all functions but `errors_temp`) | the assembled system is the local problem of `Spec/AdvectionReaction.lean`; loops by invariants, LAPACK by its specification; functions with the text of `Diffusion` use its model; witness for time-dependent velocities |
| C82 | the same, with the global loop of C18 | two energy identities (dominating reaction; velocity constant on each hyperedge), summed over the hypergraph with Kirchhoff's law; witnesses on the unit interval |
| C83 | `need_compile_check_hy_files` over any files | loop invariant: the list holds only headers which are needed, those already visited are old and all they include is in the list; it cannot grow beyond the names in all files |
| C84 | the whole of `include` as a step of a state machine (files, shared objects, loaded modules) with crashes and edits | invariant: each shared object and each loaded module was made for the class its name stands for; names are injective if the hash is |
| C85 | the same | invariant: files not newer than a shared object are those it was compiled from, and the stored own code is that of the last compilation as long as these succeed (`Orderly`); witnesses by running the model on a small installation |
| C86 | `cython_from_cpp`, `extract_classname`, `find_definition`, `generate_cy_replace` | the two regular expressions as functions on lists of characters, induction over the words |
| C87 | configuration objects with the shared list of the class | definitions; witness |
| C88 | `__cinit__`, methods, `size_of_system`, `refine` of the wrappers over any C++ class | case distinction over the ends of C++ calls; limits for all classes |
| C89 | `ParabolicProgram.program`, `program_late` over any object of class `Parabolic` and any solvers | induction over the steps: the solution of each linear system is the vector of the step (C51, C63, C74); witness on two hyperedges |
| C90 | `EigenvalueProgram.Helper`, `MassApprox.program`, `ShiftedInverse.program` over any object and any solvers; then with `Diffusion`, `DiffusionEigs` | invariant of the loop which builds the index lists; the operators are the restrictions of the global ones; symmetry and sign from C47 and C54; over the reals the spectral theorem for existence |
| C91 | `NewtonProgram.newton` over any object and any solvers; then `diffusionWrapper`, `bilaplacianWrapper`: the loops of C38-C42 with `DiffusionEigs` and `BilaplacianEigs` | induction over the steps; the line search ends because gamma is halved; Krylov vectors vanish where the Jacobian does; the local problem is smooth (inverse of a linear map), a simple eigenpair makes the derivative injective, hence bounded below, and one inexact Newton step contracts |
| C92 | the loops and the local solver of C21, C23, C48, C54 over `Diffusion.IsExact` (coefficients) and `Diffusion.IsPolynomialSolution` (functions with derivatives on the cube, `Spec/PolynomialProblem.lean`) | the exact functions solve the local problem since jumps vanish, so they are its solution (C21); integration by parts; uniqueness is C54; polynomials are combinations of the shape functions and two of them with the same moments are equal |
| C93 | `Model/ExampleParameters.lean`: the functions of `parameters/*.hxx`; `Spec.Plane`: a flat hyperedge with orthonormal directions in the space | chain rule along the hyperedge; partial derivatives are unique, so the equation holds iff the sums of squared direction components are one; rotation: first integrals of the paths |
| C94 | the loops and the local solver of C21, C23, C48, C54 over `IsClassicalSolution` and `ApproxBy` (`Spec/ErrorEstimate.lean`): functions with continuous derivatives on the cubes | the projections of the solution satisfy the discrete equations up to defects at faces; energy identity for the difference (`Proofs/Apriori.lean`); stability of projections in the maximum norm; networks: sums of mean fluxes along chains of edges without repetition, a function on an edge is bounded by its products with derivatives and one end value; rates from Taylor polynomials |
| C95 | `program` over an object with the functions of the class `Elliptic`, a list of linear solvers as parameters, operator or sparse matrix | the sparse matrix is that of the operator (C17); a solver which claims success leaves a small residual, and the residual of an affine local solver is operator plus residual of zero; uniqueness from C54, C61, C69, C80, C82 |
| C96 | arguments of the constructor and parameters of the two interior penalty programs | the values at an end of orthonormal polynomials: the trace of `u -> x u'` is `0 + 1 + ... + p`, by parts the squares sum up to `(p + 1)²`; tensor products by Cauchy-Schwarz; scaling; corner cell of the grid; C95 |
| C97 | the local solvers `Diffusion`, `DiffusionUniform`, `DiffusionIP` and the loop `Elliptic` in dimension one (existing models) | a symmetric 2x2 matrix annihilating constants and negative semidefinite is `c [[-1,1],[1,-1]]`; `c > 0` by rigidity; assembly; the set where the maximum is attained is closed under adjacency |
| C98 | the loops of C16, C23, C40, C41 with arbitrary local functions, `Topology::File`, `NodeDescriptor::File` (existing models) | sums over hyperedges are invariant under permutations; explicit permutation of refined hyperedges and hypernodes |
| C99 | `domains/morgan/make_geo.py`: both loops, types, text of the file | invariants of the loops (vertices only grow, each point has a vertex within the tolerance), `Describes` and C31 for the file |
| C100 | the loops and the local solver of C21, C23, C54 on networks, `IsClassicalSolution` | the second local equation is tested by the polynomials whose derivative is proportional to the inverse coefficient, the first one by constants: the difference of exact and numerical fluxes is a conductance times the difference of the errors at the ends; balance at the nodes makes the sum of squared differences zero |
| C101 | the loops and programs of C21, C23, C54; `Constants` (coefficients of the constant function), `outflow` | the local equations tested by the constant; the operator is symmetric, semidefinite, and by connectedness its kernel consists of the constants, hence its range is their orthogonal complement; C12 on that subspace gives convergence, C11 and Cauchy-Schwarz the exception |
| C102 | the runs of C50 - C53 and the residual of C54 for the same hyperedges; `Steady`, `distance` | the difference to the stationary solution solves the steps without data; the energy dominates the L2 norm (a positive definite form on a space of finite dimension, diagonalised over any ordered field), which turns the estimate of C52 into decay |
| C103 | the residuals of C54 and C69 for problems with the same hyperedges and other loads; `SameOperator`, `Superposed`, `Solves`, `work` | residual zero is equivalent to the balance of the fluxes, which are linear in the data; tested by another solution the balance says that the work is the energy of both, which is symmetric and definite |
| C104 | the topology and node descriptor of a refined file (C24, C28) with the residual of C54; `Data.part`, `RefinedNetwork`, `SolvesOnFile` | the values at the ends of an edge determine the fluxes there; the equations of the nodes are definite, hence solvable; a solution restricted to the parts of edges is a solution on the refined network (sums along an edge telescope); then C100 |
| C105 | the residual of C69 with exact integrals; `Beam`, `Beam.Solves`, `IsEquilibrium`, `BeamIntegrals` (Spec/BeamExact) | beams without loads with given ends are polynomials of degree at most three; tested with these the discrete and the exact forces and moments at the ends agree (integration by parts); the solution of C69 yields an equilibrium; uniqueness from the ends of a beam |
| C106 | the topology and node descriptor of a refined file (C24, C28) with the residual of C69; `Beam.part`, `RefinedBeams`, `EquilibriumOnFile` | an equilibrium restricted to the parts of beams is one of the refined network (forces and moments along a beam telescope); then C105 |
| C107 | `read_domain` (C30-C32) with the topology, geometry and node descriptor `File` (C15, C24, C28) | the debug checks of `read_domain` give `DomainInfo.Sized` and `DomainInfo.Valid`, which are the hypotheses of C15, C24, C25, C28; release witness by evaluation |
| C108 | the Bilaplacian solver (C59-C61) in the global loop of networks | the discrete problem splits into a diffusion problem for w and one for u with the source b w_h (C100 for each); since deg b <= p - 3 the cubic test functions that give the nodal values of u only see moments of w that are exact, so the source may be exchanged (`change_source`) |
| C109 | the Bilaplacian solver (C59-C61) with the topology and node descriptor `File` and their refinement (C24-C28) | existence and uniqueness by C104 for w and then for u; the parts of the solution solve the problem on the refined network (`Subdivides.solution`, from C104); then C108 |
| C110 | the Timoshenko solver (C68, C69) in the global loop | the balance equations of each beam are tested with a rigid motion (coefficients of 1 and of arc length); the work of the internal forces cancels with the lever term; then summation over the hypernodes |
| C111 | runs of `BilaplacianParab` (C64) and the stationary system of `Bilaplacian` (C61) | the difference to the stationary solution is a step of the homogeneous problem; testing its fluxes in four ways gives U + 2 theta dt W <= V (squares of the norms of u, w and the old u), and the coercivity of C102 with Young's inequality gives U <= c W |
| C112 | `set_data` and runs of `BilaplacianParab` (C63, C64), the linear system of `Bilaplacian` (C61, C108) | the equations of the step tested by the constant function leave the fluxes through the faces (`outflow`); the balance of the fluxes tested by the vector which is the constant off the prescribed hypernodes; induction over the steps |
| C113 | the linear system of `Bilaplacian` (C61), two or three problems which differ in right-hand sides and prescribed values | the system says that both fluxes balance (`system_iff`), which is linear in the data; each balance tested by the values of the other problem gives the work as the integral of `b w₁ w₂` (`work_moments`) |
| C114 | runs of `BilaplacianParab` (C64) for two or three problems which differ in initial values, right-hand sides and prescribed values | one step is linear in the data and the old values (`step_comb`) and has one solution (`step_unique`), so the states superpose by induction over the history; the fluxes are linear (`fluxes_comb`), so the balance at the hypernodes superposes |
| C115 | runs of `DiffusionParab` (C50, C51) for two or three problems which differ in initial values, right-hand sides and Dirichlet values | a theta step and the initial state are linear in the data (`step_comb`, `initial_comb`) and unique (`step_unique`, `initial_unique`), so the states superpose by induction over the history; the assembled fluxes are linear |
| C116 | runs of `AdvectionParab` (C72, C74) for two or three problems which differ in their data (`Edge.withData`) | as C115: a step and the initial state are linear in the data and unique, so the states superpose by induction over the history; the fluxes at the nodes are linear (`nodeFlux_comb`) |
| C117 | `residual_flux` and `bulk_values` of the diffusion-advection-reaction solver (C81) for problems which differ in right-hand sides and Dirichlet values (`DAR.SameOperator`) | the local solution is linear in data and trace and unique (`local_comb`), so the fluxes and values superpose; the assembly is linear |

Nothing on the list is inexpressible; where only a part is proved the theorem carries the suffix
`_partial` and the entry in `MANIFEST.json` says what is missing.

## Disagreements between the code and its documentation or expected behaviour

Found while modelling and proving; a theorem name in brackets means that the disagreement is machine-checked.

Dense and sparse linear algebra, LAPACK wrapper
* `mat_times_transposed_mat` computes `A^T B^T` instead of `A B^T` [`C07_mul_transposed_witness`].
* Without assertions a row index out of range reads another entry [`C06_release_alias`].
* `determinant` of square matrices has the wrong sign generically [`C14_generic_sign`, `C14_sign_witness`].
* `qr_decomp`: determinant of Q is not always `+1` [`C13_det_witness`], the first argument is not R as documented [`C13_full_r_witness`], the
  reduced R is read with a wrong stride: out of bounds or stale entries (e.g. hyperedges of dimension 3 in 7 space dimensions)
  [`C13_out_of_bounds`, `C13_stale_entry`].
* `conjugate_gradient` takes `n_iterations` by value, so the documented output does not exist.
* The matrix assembly overflows its 32-bit length and writes out of bounds on large meshes [`C17_length_overflow`, `C17_overflow_reachable`].
* `index_decompose` for dimension 0 accepts indices below `range` [`C04_outcome`].

Degrees of freedom
* `node * n_dofs` overflows for more than `2^32` degrees of freedom [`C01_overflow_witness`, `C03_overflow_witness`].

Domains
* `check_consistency` overwrites its flag, so without assertions invalid indices are accepted [`C30_release_witness`]; moreover `read_domain` does not
  call it at all without assertions.
* `read_domain_geo`: short lines of points repeat the coordinates of the previous point (`domains/cross.geo` relies on it); `Space_Dim =` without number reads an
  uninitialised variable; without assertions everything is accepted, an empty file gives an empty domain [`C31_release_witness`].
* `.pts` files: a blank last line adds a point, an empty file has undefined behaviour, a single point is accepted by the graph construction but rejected by the
  reader, file names shorter than four characters throw [`C32_witness`]; points are written with six digits; the face types written are node indices; the file is written before the connectivity is checked.
* Hyperedges of dimension >= 2 from files: there is no handling of different orientations of shared faces; points other than the first one and its
  neighbours are ignored by the linear mapping.

Hypergraphs
* Hypergraphs constructed from shared pointers get out of step [`C27_shared_out_of_step`].
* `set_refinement(0)` empties the mesh, and the next access divides by zero.
* Dirichlet indices are not updated by `set_refinement` [`C22_stale_witness`, `C23_stale_abort_witness`, `C23_stale_ub_witness`].
* `trace_to_flux_mat` ignores the declared Dirichlet degrees of freedom [`C23_matrix_ignores_dirichlet_witness`].
* The copy constructor of `NodeDescriptor::File` names a member which does not exist and resets the refinement [`C49_file_descriptor_fails`].
* Faces of refined hyperedges in boundary planes have type 0 if the hyperedge dimension is smaller than the space dimension; the conversion of face types
  overflows for more than 20 space dimensions.

Geometry
* `boundary_lexicographic` converts a negative number to unsigned for indices which do not belong to the face [`C45_boundary_negative`, `C77_boundary_negative`]; plotting with boundaries triggers it
  [`C35_boundary_undefined`].
* The in-place `map_ref_to_phys` of `UnitCube` ignores the directions of the hyperedge [`C45_in_place_differs`].
* `File::inner_normal` is a column of Q, so not orthogonal to faces of sheared hyperedges [`C34_inner_normal_witness`], and its sign is opposite to the one of `UnitCube`.
* `File::lexicographic` does not check that the point is in the reference cube.

Global loop and local solvers
* `Parabolic::make_initial` takes the time as an index type, so it is truncated [`C39_time_witness`].
* `DiffusionUniform` and `DiffusionParab` assume orthonormal (face) shape functions without saying so.
* `DiffusionParab::bulk_values` called after `set_data` solves a further time step (`C50_bulk_values` describes it).
* `DiffusionParab` with `theta = 0` has a zero global operator; `assemble_rhs_from_coeffs` is never called and cannot be instantiated.
* `bulk_values` evaluates shape functions in `float`; `Diffusion::errors_temp` passes other template arguments than `errors`.
* `DiffusionEigs`: the coefficient gets the eigenvalue as its time, and if it depends on it the Jacobian is wrong [`C57_variable_coefficient`]; the Jacobian assumes orthonormal shape
  functions; its second system is solved outside of the `try` block; `errors` mentions an undeclared variable.
* `Bilaplacian::residual_flux` does not swap the halves of the trace which it subtracts, as `trace_to_flux` does, so it is not affine with linear part `trace_to_flux`
  [`C60_not_affine`; the defect is in `C60_defect`].  The programs call it with the zero trace only.
* `Bilaplacian::make_initial` swaps two arguments of `integrate_bdrUni_psifunc` (the number of the face shape function and the number of the face), passes numbers from `n_shape_bdr` on for the second
  half, and ignores where the Laplacian is prescribed [`C60_make_initial`, `C60_initial_not_projection`].
* `BilaplacianUniform` does not exchange the halves of its result as `Bilaplacian` does, so its operator is not symmetric [`C62_not_symmetric`] and conjugate gradients do not apply.
* `BilaplacianParab` documents that theta must be one but does not check it; for other values the terms of the old time step are missing [`C63_theta_iff`, `C63_not_theta`].  Its `residual_flux` and `make_initial` have the
  same deviations as those of `Bilaplacian` [`C63_residual`, `C63_make_initial`], and `make_initial` leaves all entries of the data other than `u` as they are.  `errors` and `bulk_values` solve a further step from the stored data: they
  describe the current state only if `set_data` has not been called with it yet (as in the programs).  The constructor reads three entries without checking the length [`C63_constructor`].
* `BilaplacianEigs`: as `DiffusionEigs` for the coefficient [`C66_variable_coefficient`] and orthonormality; `make_initial` passes shape function numbers from `n_shape_bdr` on for the second half
  [`C65_make_initial`, `C65_initial_not_projection`]; `errors` mentions an undeclared variable.
* `TimoshenkoNetwork` combines the stiffnesses of the two normals of the cross section linearly by the scalar products with the normals of the frame (not by their squares) and takes the absolute value of the result.  For frames which are
  rotated against the cross section the coefficients are wrong [`C70_isotropic`], and may be zero although all stiffnesses are positive [`C70_degenerate`].  Fewer than twelve numbers are read out of bounds [`C70_incomplete`].
* `TimoshenkoNetwork` writes cross products for left-handed frames, with rotations in the usual convention, or right-handed frames with the opposite one.  The mapping returns right-handed frames for all beams but those in direction of
  the first axis, for which LAPACK uses no reflection and the frames are left-handed [`C71_frame`].  In networks with both, rigid motions cause forces whatever the convention [`C71_mixed`, `C71_mixed_example`].
* `AdvectionParab::trace_to_flux` and `residual_flux` overwrite the output array although the documentation says that they add to it [`C72_flux`: the result does not depend on `out`].
* `AdvectionParab::set_data` uses the trace on Dirichlet faces in the local solve, but not in the flux which it keeps for the next time step.  `C72_history` therefore assumes that the traces vanish on Dirichlet faces.
* `AdvectionParab` uses `inner_normal` to tell inflow from outflow.  For geometries read from files this is a column of Q, which is the same for both directions of a hyperedge, so the two are exchanged for one of the directions
  [`C76_orientation_witness`].
* `DiffusionPostprocess::errors` uses `parameters::diffusion_coeff`, which the default parameters of the class do not define (they have
  `inverse_diffusion_coeff`), so it cannot be instantiated with them; nothing ties the two coefficients together.  It does not catch LAPACK's exception of its own
  solve, other than that of the local problem [`C78_failure`].
* `DiffusionIP` passes `time` to the volume integrals and to the source and Dirichlet data, but not to the boundary integrals of the normal derivative (`assemble_loc_matrix`,
  `dual_at_boundary`), whose default is time 0.  For a time-dependent diffusion coefficient the method is then neither consistent nor conservative [`C79_time`].
* The operator of `DiffusionIP` lacks the symmetrising term of the interior penalty method, so that it is symmetric in one dimension but not in two [`C80_symmetric_1d`,
  `C80_not_symmetric`]; `reproducibles_python/diffusion_convergence_elliptic_ip.py` solves with the conjugate gradient method (and with GMRES if this fails).
* `DiffusionIP` does not check its penalty; for small ones the operator is indefinite [`C80_small_penalty`].
* The private function `DiffusionIP::assemble_rhs_from_coeffs` is never called; its loop writes out of range (it uses the sizes of the mixed method).
* `DiffusionAdvectionReaction` passes `time` to all integrals but that of the advective velocity, whose default is time 0: velocities which depend on time are frozen at time 0
  [`C81_time`].
* The operator of `DiffusionAdvectionReaction` is not symmetric, and without reaction not semidefinite [`C82_not_symmetric`]; the programs in `reproducibles_python` first try the
  method of conjugate gradients (and GMRES if this fails).  The documentation of the class describes pure diffusion.
* `DiffusionAdvectionReaction` does not check that the flow is balanced at the hypernodes; if it is not, the global system may be singular although each local problem is
  uniquely solvable [`C82_unbalanced`].
* `LocalSolver::Template`, documented as minimal input to other classes, cannot be used as such: the body of its `trace_to_flux` returns a temporary as a non-constant reference, which
  does not compile once instantiated.
* `include` renews the shared object after the change of a header, but a process which has loaded the module gets the old class [`C85_same_process_not_updated`].
* `include` does not notice other `cython_replacements`, nor that own code has been taken away [`C85_replacements_not_noticed`, `C85_own_code_stays`]; neither is part of the name of
  the module or of the check.
* If the compilation of new own code fails, the next `include` with the same own code returns a class with the previous own code: the file is written before the compilation
  and only its contents are compared [`C85_own_code_after_failure`].  Headers included by own code are not checked [`C85_own_code_headers_not_checked`].
* Headers changed while the compiler runs, or replaced by files with old times, are not noticed [`C85_change_during_compilation`, `C85_restored_file`].  `glob.glob(this_dir())` in
  `need_compile` lists the directory itself, not the files in it.
* `find_definition` looks for `("\nclass …" or "\nstruct …")`, which is the first string: structs are never found [`C86_struct_not_found`].
* `include_files = []` is an attribute of the class `config` and is appended to by `extract_includes`: all objects without a list of their own share it [`C87_order_matters`].
* `__cinit__` with a geometry but without arguments for the local solver prints a message and constructs nothing; each method then dereferences a null pointer
  [`C88_null_object`].
* The methods in `cython/*.pxd` are declared without `except +`: C++ exceptions end the Python process [`C88_exceptions_kill`].  `int size_of_system ()` makes sizes from `2^31` on
  negative [`C88_size_negative`].
* The programs for time-dependent problems call `trace_to_flux` without the time, so that the matrix is the one at time 0 in all steps; for coefficients which depend on the time
  the vectors they compute are not those of the scheme [`C89_time_dependent`].
* `bilaplacian_convergence_eigenvalue_approx.py` 110 and `bilaplacian_hypergraph_convergence_eigenvalue_approx.py` 110 extend the eigenvector a second time before it is plotted; the plot shows another
  function, which can be zero [`C90_plotted`].
* `diffusion_convergence_eigenvalue_shifted_inverse_cross.py` returns `vals[0]` with the vector of `vals[1]` [`C90_cross`].
* The class `helper_ev_approx` assumes that the list of Dirichlet indices is increasing and that of the present system; it checks neither and computes with other unknowns [`C90_unsorted`, `C90_stale`].
* `diffusion_*_eigenvalue_newt*.py` 102 call `sp_lin_alg.bicgsatb`, which does not exist: if `gmres` fails, an `AttributeError` is raised, which `except RuntimeError` does not catch [`C91_typo`].
* `eigenvalue_newt(.., initial, ..)` overwrites the last entry of the list of the caller with 0, so that a second call with this list starts with the eigenvalue 0 [`C91_twice`].
* `BilaplacianEigs::make_initial` sets nothing to zero where only the Laplacian is prescribed; the Newton programs then return a trace which is not zero there [`C91_start_prescribed`].
* Residuals which are NaN pass both tests of the Newton programs (`norm_res > ..` and `norm_res >= norm_exact` are false).  Floating point numbers are real numbers in the model, so this is not part of it.
* `fiber_network_diffusion.py` compares with `TestParametersSinEllipt::analytic_result`, which does not solve the equation on edges which are not parallel to the axis of coordinate 0 [`C93_not_diffusion_sin`];
  the printed error is the distance to a function which is not the solution.
* `HG<>::TestParametersQuadElliptHO` fits hyperedges in planes where the other coordinates are half integers (as in the examples), not in general [`C93_diffusion_high_order`, `C93_not_diffusion_high_order`].
* `initial_laplace` of the stationary fourth order problems is the value, not the Laplacian [`C93_not_initial_laplace`]; no program uses it.
* `domains/morgan/make_geo.py` writes the properties of all connections, but no edge for a connection whose two points coincide: all later hyperedges get wrong properties (`C99_properties_witness`). If the first connection is such a connection, its point is stored twice (`C99_repeated_vertex`). Ends of fibres are compared exactly, points of connections up to 1e-10: a fibre can lose its connection (`C99_joints_witness`).
* `DiffusionUniform::errors` and `BilaplacianUniform::errors` return 0 for every vector, so the error reported by a global loop with these solvers is always 0 (`C40_uniform`).
* `BilaplacianParab` with `theta` other than one converges, for data independent of time, to the stationary solution for the source divided by `theta`, not to the stationary solution (C111_limit, C111_correct, C111_wrong_example); the cause is the missing old `laplace w` of C63.
* `Bilaplacian::node_types` reports only the faces where `u` is prescribed [`C59_node_types`].

Plotting
* `fileEnding` is returned as the character 0 [`C37_file_ending`]; `True` is read as false [`C37_True`]; file numbers from `2^31` are refused, `-1` gives `2^32 - 1`
  [`C37_file_number`]; numbers wrap at `2^32` [`C36_wrap`].
* Points are written with four significant digits; the file is truncated before its contents are computed.
* In four or more space dimensions the lines of points have more than three coordinates [`C35_four_dimensions`].
* With subdivisions only `2^d` values per hyperedge are written [`C35_subdivided_values`]; boundary cells of dimension 0 are written several times
  [`C35_subdivided_boundary`]; boundary values are always 0 [`C35_boundary_values`].
