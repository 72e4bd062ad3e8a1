{"id": "C01", "title": "Assembled CSR Jacobian equals the dense sum of element contributions", "statement": "For a Problem on any mesh, the matrix returned by get_jacobian / the create_J_bc_csr_* functions (before boundary conditions), read as a dense matrix, has at entry (i, j) exactly the sum of all element-level values whose global row and column DOFs are i and j, and zero where no element couples i and j; duplicates are summed, none is lost or counted twice.", "quantifier": "every list of (row, column, value) triplets produced by any connectivity (any number of cells, duplicate couplings in any order, orphan DOFs)", "why_tests_cant": "depends on the interaction of sort, run-length compression and segment-sum for every possible multiset of index pairs; tests see a handful of meshes", "anchors": ["feax/problem.py: Problem._build_csr_assembly_structure", "feax/assembler.py: _csr_data_from_values, _get_J_csr, get_jacobian"]}
{"id": "C02", "title": "CSR pattern is canonical", "statement": "The sparsity pattern a Problem exposes (indptr, indices) is well formed: indptr starts at 0, is non-decreasing and ends at nse; the column indices in each row are strictly increasing and in range; nse is the number of distinct coupled pairs; and every element contribution has exactly one slot, whose (row, column) is that contribution's pair.", "quantifier": "every list of coupled (row, col) index pairs with entries below the number of DOFs", "why_tests_cant": "it is a statement about all index multisets; direct backends silently give garbage when it fails", "anchors": ["feax/problem.py: Problem._build_csr_assembly_structure", "feax/csr.py: CSRMatrix"]}
{"id": "C03", "title": "Batched (padded) assembly equals unbatched assembly", "statement": "Assembling element contributions in any number of memory batches, with the last batch padded, gives the same matrix data and the same residual as assembling all elements at once: padding never contributes to a real entry.", "quantifier": "all numbers of cells, all batch counts / batch sizes, all element values", "why_tests_cant": "padding errors only show at particular size/batch remainders", "anchors": ["feax/assembler.py: _batching, _pad_axis0, _scan_vmap_batched, _vol_slot_sort, _assemble_volume_csr_data, _res_vol_slot_sort, _assemble_volume_res_and_J"]}
{"id": "C04", "title": "Residual assembly is an order-independent scatter-add", "statement": "The global residual at DOF i is the sum of all element residual entries whose global DOF is i; the one-shot pre-sorted reduction and the batched scan used by the fused residual+Jacobian route return the same vector.", "quantifier": "all connectivities, all element residual values, all permutations that sort the DOF ids", "why_tests_cant": "agreement must hold for every connectivity; a test only compares on one mesh", "anchors": ["feax/assembler.py: compute_residual_vars_helper, get_res, _assemble_volume_res_and_J", "feax/traced_structure.py: TracedStructure.from_problem"]}
{"id": "C05", "title": "Triangular matrix views store exactly one triangle", "statement": "With matrix_view=UPPER (LOWER) the stored matrix equals the full assembled matrix on and above (below) the diagonal and is zero elsewhere; the product the iterative solvers use for such a view (A x + A^T x - diag(A) x) equals the product with the full matrix whenever the full matrix is symmetric.", "quantifier": "all triplet lists, all vectors, all three views", "why_tests_cant": "an off-by-one at the diagonal (counted twice or dropped) depends on the mesh and on values", "anchors": ["feax/problem.py: MatrixView, Problem.__post_init__ (triangle filter)", "feax/solvers/common.py: _matvec_with_matrix_view, _extract_sparse_diagonal"]}
{"id": "C06", "title": "CSRMatrix operations agree with dense algebra", "statement": "For every well-formed CSRMatrix A: A.todense() holds each stored value at its (row, column) and zero elsewhere, and A @ x, A.rmatvec(x), A.T @ x, A.T.todense() and A.diagonal() agree with that dense matrix, with results of the right length.", "quantifier": "all well-formed CSR matrices (any shape, any sparsity, empty rows) over any commutative ring, all vectors", "why_tests_cant": "index arithmetic errors show only for some patterns (empty rows, missing diagonals)", "anchors": ["feax/csr.py: CSRMatrix.__matmul__, rmatvec, transpose, diagonal, todense"]}
{"id": "C07", "title": "Precomputed transpose maps give the transposed matrix", "statement": "The value permutation and pattern that feax precomputes for the transposed Jacobian (used by adjoint direct solves) yield, for every value array, a well-formed CSR matrix whose dense form is the transpose of the original.", "quantifier": "all sparsity patterns and all value arrays on them", "why_tests_cant": "a wrong permutation is invisible for symmetric patterns and values, the only ones usual tests exercise", "anchors": ["feax/problem.py: Problem._build_csr_assembly_structure (T_perm, T_indptr, T_indices)", "feax/csr.py: transpose_with_maps, CSRTranspose"]}
{"id": "C08", "title": "Global DOF numbering is a bijection", "statement": "For a multi-variable problem every (variable, node, component) triple gets its own global DOF number, the numbers fill 0..total-1 without gaps, and the per-cell index array used for scatter and gather lists exactly those numbers for the nodes of the cell.", "quantifier": "any number of variables, any node counts, any components per node", "why_tests_cant": "collisions between variables appear only for particular size combinations", "anchors": ["feax/problem.py: Problem.__post_init__ (offset, _build_inds, unflatten_fn_sol_list)"]}
{"id": "C09", "title": "Solution views partition the flat solution vector", "statement": "Solution.field(i) and node_var(component, i) return precisely the entries of variable i (component c): concatenating the fields of all variables gives the flat vector back, field(i) equals unflatten_fn_sol_list(sol)[i], a non-integer index raises TypeError, an index outside 0..num_fields-1 (negative included) raises IndexError and a missing component of a vector field raises ValueError.", "quantifier": "any list of (num_nodes, vec), any vector, any index (including negative and non-integer)", "why_tests_cant": "must hold for every layout of variables", "anchors": ["feax/solution.py: Solution._offset, field, __getitem__, node_var"]}
{"id": "C10", "title": "Compiled Dirichlet BC is canonical", "statement": "DirichletBCConfig.create_bc returns bc_rows strictly increasing (sorted, no duplicates), all below the total number of DOFs; bc_mask is true exactly on bc_rows; bc_vals is aligned with bc_rows; and the set of rows is exactly the set of DOFs selected by some spec.", "quantifier": "every list of specs (any overlap, any order, any location predicate), any mesh, any multi-variable layout", "why_tests_cant": "depends on overlaps between specs; solvers assume uniqueness", "anchors": ["feax/DCboundary.py: DirichletBCConfig.create_bc, DirichletBC"]}
{"id": "C11", "title": "When specs overlap the earliest one wins", "statement": "If several specs constrain the same DOF, the compiled value is the one given by the first spec (in the order added) that selects it, on every DOF.", "quantifier": "every list of specs and every DOF", "why_tests_cant": "depends on stability of sort and on which duplicate unique() keeps, for every overlap pattern", "anchors": ["feax/DCboundary.py: DirichletBCConfig.create_bc"]}
{"id": "C12", "title": "Boundary rows of the eliminated Jacobian are identity rows", "statement": "After applying boundary conditions to an assembled Jacobian, every constrained row is the identity row; unconstrained rows are unchanged (row elimination) or unchanged except that constrained columns are zero (symmetric elimination); symmetric elimination of a symmetric matrix stays symmetric.", "quantifier": "all patterns, all values, all BC row sets; the claim needs each constrained DOF to have a stored diagonal entry", "why_tests_cant": "a statement over all patterns, including DOFs that no element touches", "anchors": ["feax/DCboundary.py: apply_boundary_to_J_csr", "feax/problem.py: csr diag slots"]}
{"id": "C13", "title": "Boundary rows of the residual", "statement": "After applying boundary conditions the residual at a constrained DOF is u - scale*prescribed value, and every other residual entry is unchanged.", "quantifier": "all residuals, solutions, BCs and scales", "why_tests_cant": "must hold for all inputs", "anchors": ["feax/DCboundary.py: apply_boundary_to_res"]}
{"id": "C14", "title": "Matrix-free operator equals the assembled operator", "statement": "The matrix-free Jacobian product with boundary conditions equals the product with the assembled eliminated Jacobian, for both row and symmetric elimination, and its transpose counterpart equals the transposed product.", "quantifier": "all matrices, all BC masks, all vectors", "why_tests_cant": "equality must hold on every vector and every mask", "anchors": ["feax/assembler.py: create_matfree_res_J_function, create_matfree_res_J_parametric", "feax/DCboundary.py: apply_boundary_to_J_csr"]}
{"id": "C15", "title": "replace_vals changes only the prescribed values", "statement": "bc.replace_vals(v) keeps rows, mask and size and replaces the values; a residual built with the new BC drives the constrained DOFs to the new values and nothing else.", "quantifier": "all BCs and all new value arrays", "why_tests_cant": "history property over sequences of replacements", "anchors": ["feax/DCboundary.py: DirichletBC.replace_vals"]}
{"id": "C16", "title": "A linear solve satisfies the boundary values and the interior equations", "statement": "For an affine residual, create_solver(linear=True) started from a guess that satisfies the boundary values returns u with u = prescribed values on constrained DOFs and zero residual on all other DOFs.", "quantifier": "all matrices with invertible eliminated operator, all loads, all BCs, all admissible guesses", "why_tests_cant": "correctness over all problem data", "anchors": ["feax/solvers/linear.py: create_linear_solver", "feax/solver.py: create_solver"]}
{"id": "C17", "title": "Overriding boundary values at call time solves the new problem", "statement": "Calling a linear solver with bc=bc.replace_vals(v) and the default initial guess solves the problem with the new boundary values on the constrained DOFs and in the interior.", "quantifier": "all problems, all new boundary values", "why_tests_cant": "needs a claim about all new boundary values; a test with unchanged or zero values passes", "anchors": ["feax/solvers/linear.py: create_linear_solver (solver_wrapper, default_initial_guess)", "feax/utils.py: zero_like_initial_guess"]}
{"id": "C18", "title": "Newton iteration is bounded, reports convergence truthfully and never increases the residual", "statement": "The Newton loop performs at most max_iter steps; it stops early only if the residual norm met the absolute or the relative tolerance or the line search failed; while the line search succeeds every accepted step strictly satisfies the sufficient-decrease test, so the residual norm never grows; a failed line search is reported as an error in eager mode.", "quantifier": "all residual functions, all linear solvers (even inexact), all starting points, all options", "why_tests_cant": "quantifies over all residual functions and all iteration histories", "anchors": ["feax/solvers/newton.py: create_callback_newton_solver, create_armijo_line_search_scan"]}
{"id": "C19", "title": "Armijo search returns the first acceptable step", "statement": "The vectorised line search returns the largest step among 1, rho, rho^2, ... that passes the sufficient-decrease test (with finite residual); if none passes it reports failure.", "quantifier": "all residual functions, all directions, all backtracking counts", "why_tests_cant": "scan formulation must agree with sequential backtracking for every pattern of acceptances", "anchors": ["feax/solvers/newton.py: create_armijo_line_search_scan"]}
{"id": "C20", "title": "Adjoint with boundary conditions is the true adjoint", "statement": "The vector the reverse-mode rule of the Newton solver returns for the boundary-modified system is the solution of the transposed unsymmetrically-eliminated system, so the gradient with respect to parameters and to boundary values is that of the implicit function, although the linear system actually solved is symmetrically eliminated.", "quantifier": "all Jacobians, BC masks, cotangents", "why_tests_cant": "gradient errors on boundary values only show when the loss depends on reactions / boundary values", "anchors": ["feax/solvers/newton.py: _adjoint (BC column correction)", "feax/solvers/linear.py: f_bwd"]}
{"id": "C21", "title": "Reduced (periodic) solve stays in the constrained space and enforces compatible BCs", "statement": "create_solver(P=...) returns initial_guess + P v; if the guess satisfies the constraint u_slave = u_master then so does the result; a BC that pins only part of a periodic class is rejected with ValueError, and BCs that pass the check are met by the returned solution.", "quantifier": "all prolongation matrices, all BCs, all residuals", "why_tests_cant": "for all pairings and BC sets; wrong results are silent", "anchors": ["feax/solvers/reduced.py: _validate_bc_pairing, create_reduced_solver"]}
{"id": "C22", "title": "Periodic prolongation matrix identifies slave with master", "statement": "For P built by prolongation_matrix, every u = P v has u[slave] = u[master] for all paired DOFs, every field with that property is P v for exactly one v, and P has shape (N, N - number of slaves) with one unit entry per row.", "quantifier": "all lists of pairings accepted by the constructor, all meshes", "why_tests_cant": "depends on chains and overlaps of pairings; unit cells in tests never chain", "anchors": ["feax/flat/pbc.py: prolongation_matrix"]}
{"id": "C23", "title": "Cyclic prolongation rotates the master block", "statement": "For P built by cyclic_prolongation_matrix, every u = P v has u_slave = R u_master for every paired node and all other nodes are free and independent; a master that is itself a slave is rejected.", "quantifier": "all pairings and rotations, all component counts", "why_tests_cant": "holds for all rotations and node sets", "anchors": ["feax/flat/pbc.py: cyclic_prolongation_matrix"]}
{"id": "C24", "title": "3-D periodic pairing covers the whole boundary of any box", "statement": "periodic_bc_3D pairs, for a box mesh anywhere in space, every node of an upper face/edge/corner with its translate on the lower one.", "quantifier": "all boxes (any lower corner), all structured node sets", "why_tests_cant": "tests use unit cells at the origin", "anchors": ["feax/flat/pbc.py: periodic_bc_3D, periodic_bc_2D", "feax/flat/unitcell.py: UnitCell.face_function, edge_function, corner_function"]}
{"id": "C25", "title": "Time stepping ends at the end time without overshoot", "statement": "timestepping run() advances t by at most dt per step, never beyond t_end, terminates for positive step sizes, and stops with t_end - t <= 1e-14*dt0; the sum of the step sizes equals the elapsed time and the number of recorded times is the number of steps plus one.", "quantifier": "all (dt, t_end), all pipelines, all adaptive proposals bounded below", "why_tests_cant": "loop termination and telescoping over all step sequences", "anchors": ["feax/solvers/time_solver.py: run"]}
{"id": "C26", "title": "Time stepping output schedule", "statement": "Snapshots are written exactly at step 0, at every multiple of save_every and at the last step, each at most once and in increasing order; callbacks fire exactly at the multiples of their period; the in-memory history has one record per step including step 0.", "quantifier": "all step counts, all save/callback periods", "why_tests_cant": "missed or doubled final save depends on divisibility", "anchors": ["feax/solvers/time_solver.py: run"]}
{"id": "C27", "title": "Adaptive step size stays within its bounds", "statement": "With AdaptiveDtConfig the step size used after any step lies in [dt_min, dt_max] and grows by at most the growth factor.", "quantifier": "all proposals, all configurations, all histories", "why_tests_cant": "bounds must hold in all histories", "anchors": ["feax/solvers/time_solver.py: AdaptiveDtConfig, run"]}
{"id": "C28", "title": "Explicit integrators have their stated order on polynomial and linear problems", "statement": "The euler, rk2 and rk4 steps reproduce the Taylor polynomial of the exact solution of degree 1, 2 and 4 for y' = a y, integrate time polynomials of degree 0, 1 and 3 exactly, and any other scheme name is rejected.", "quantifier": "all rate coefficients, all states, all step sizes", "why_tests_cant": "coefficients are exact identities, tests see finite error tolerances", "anchors": ["feax/solvers/time_solver.py: ExplicitPipeline.step"]}
{"id": "C29", "title": "Structured-grid numbering is a bijection", "statement": "cell_id and cell_ijk are inverse to each other on the grid, node_id is injective on in-range index triples and fills 0..num_nodes-1, for every grid size.", "quantifier": "all nx, ny, nz, all indices in range", "why_tests_cant": "all sizes", "anchors": ["feax/spgrid.py: StructuredGrid.cell_id, cell_ijk, node_id, num_cells, num_nodes"]}
{"id": "C30", "title": "Structured-grid connectivity is valid", "statement": "cell_to_nodes lists for every cell eight distinct node ids below num_nodes, which are the eight corners of the cell in the element's node order; distinct cells have distinct node sets; to_mesh uses the same connectivity.", "quantifier": "all grids, all cells", "why_tests_cant": "all sizes", "anchors": ["feax/spgrid.py: StructuredGrid.cell_to_nodes, to_mesh, _HEX8_OFFSETS"]}
{"id": "C31", "title": "dilate_cells is the in-grid box neighbourhood", "statement": "dilate_cells(S, m) returns, sorted and without duplicates, exactly the in-grid cells whose index differs from some cell of S by at most m in every direction; dilating by 1 equals the node-adjacency dilation used on unstructured meshes, and dilating m times by 1 equals dilating by m.", "quantifier": "all grids, all seed sets, all margins", "why_tests_cant": "clipping at the grid border for every seed position", "anchors": ["feax/spgrid.py: StructuredGrid.dilate_cells", "feax/narrowband.py: _node_adjacent_cells"]}
{"id": "C32", "title": "Narrow-band gather and scatter are inverse where they should be", "statement": "gather after scatter returns the band array unchanged; scatter after gather agrees with the full array on the band and is the fill value elsewhere, for cell fields, node solutions and TracedParams.", "quantifier": "all meshes, all duplicate-free active sets, all fields", "why_tests_cant": "depends on which entries coincide and on shape-based dispatch", "anchors": ["feax/narrowband.py: NarrowBand.gather_cells, scatter_cells, gather_sol, scatter_sol, gather_params, scatter_params"]}
{"id": "C33", "title": "The band mesh is the restriction of the full mesh", "statement": "band.mesh has exactly the active cells, in order; band node n sits at the coordinates of global node node_map[n]; mapping the band connectivity through node_map gives the global connectivity of the active cells; node_map is strictly increasing and every band node belongs to an active cell.", "quantifier": "all meshes, all active lists (any order, duplicates)", "why_tests_cant": "renumbering correctness for every subset", "anchors": ["feax/narrowband.py: NarrowBand.__init__"]}
{"id": "C34", "title": "Superset band keeps the active band covered", "statement": "Following the documented protocol (re-extract when needs_reextract says so), at every solve the current superset contains the active cells dilated by guard; if margin >= guard, a re-extraction for the same active set is never requested twice.", "quantifier": "all histories of active sets, all meshes, all margins and guards", "why_tests_cant": "history property", "anchors": ["feax/narrowband.py: SupersetBand.reextract, needs_reextract"]}
{"id": "C35", "title": "SparseDesign behaves like a finite map with default", "statement": "After any sequence of updates, gather returns for each queried cell the value last assigned to it by an update that lists it, and the void value for every other cell; band_cells/active_ids contain exactly the cells above the threshold.", "quantifier": "all update histories, all query lists", "why_tests_cant": "history property over arbitrary update sequences", "anchors": ["feax/spgrid.py: SparseDesign"]}
{"id": "C36", "title": "Points used to fit a grid lie in the grid", "statement": "StructuredGrid.fit returns a grid in which every fitted point gets a valid cell id from point_cells. point_cells of the centroid of a cell is the cell, the centroid is the mean of its nodes, and voxelize lists, in increasing order, exactly the cells that contain one of the points.", "quantifier": "all finite point sets, all fit options", "why_tests_cant": "boundary points are the hard case, over all point sets", "anchors": ["feax/spgrid.py: StructuredGrid.fit, point_cells, cell_centroids, voxelize"]}
{"id": "C37", "title": "Optimality-criteria update respects bounds and move limits", "statement": "oc_update returns densities in [xmin, xmax] and within the move limit of the input (when the input is within bounds); the bisection terminates, and it keeps the volume bracket: the final multiplier interval has volume above target at its lower end and at most target at its upper end whenever that held initially.", "quantifier": "all densities, sensitivities, targets, damping functions", "why_tests_cant": "over all inputs and all bisection histories", "anchors": ["feax/gene/narrowband.py: oc_update"]}
{"id": "C38", "title": "Multiresolution ladder is coarse-to-fine and ends at the requested grid", "statement": "The ladder used by run_narrowband_multires ends with the requested dims, has at most n_levels entries, and every level is at most as fine as the next one in each direction.", "quantifier": "all dims, factors, floors, level counts", "why_tests_cant": "small dims relative to the floor are the corner case", "anchors": ["feax/gene/narrowband.py: _res_ladder, run_narrowband_multires"]}
{"id": "C39", "title": "Batched sparse solves equal independent solves", "statement": "Batched sparse solves are exact: stacking systems into one block-diagonal CSR system gives a system that x solves iff each block of x solves its own system, and the batched, vmapped and twice-vmapped UMFPACK, CHOLMOD and SciPy solves return for every instance the solution of that instance's own system (plain or transposed), also when called with several batch axes.", "quantifier": "all batch sizes, all patterns, all values and right-hand sides", "why_tests_cant": "for all shapes", "anchors": ["feax/solvers/direct/_callback_utils.py: assemble_batched_csr_arrays_np, prepare_batched_csr_payload, prepare_solver_vmap_inputs", "feax/solvers/direct/umfpack.py: umfpack_solve_batched", "feax/solvers/direct/cholmod.py: cholmod_solve_batched"]}
{"id": "C40", "title": "Cached factorisations never change results", "statement": "For the UMFPACK and CHOLMOD callbacks the answer to a call depends only on that call's matrix and right-hand side, whatever calls (including failing ones) came before.", "quantifier": "all histories of calls with arbitrary patterns, values and failures", "why_tests_cant": "history property", "anchors": ["feax/solvers/direct/umfpack.py: _factorize_and_solve_with_cache", "feax/solvers/direct/cholmod.py: _factorize_and_solve_with_cache"]}
{"id": "C41", "title": "XDMF time series stays consistent under failures", "statement": "After any sequence of write_iteration calls, accepted or rejected, the XML index written at exit references only datasets that exist in the HDF5 file, one entry per accepted frame in order, with a common field signature; a rejected frame does not prevent later valid frames.", "quantifier": "all sequences of write calls, valid or not", "why_tests_cant": "crash-point / history property", "anchors": ["feax/utils.py: XDMFWriter"]}
{"id": "C42", "title": "Merged sparsity patterns carry the sum of two operators", "statement": "merge_csr_patterns returns the sorted union pattern, and placing the values of two matrices into the slots it returns gives a CSR matrix whose dense form is the sum of the two; its transpose maps give the transposed sum.", "quantifier": "all pairs of patterns of equal shape, all values", "why_tests_cant": "for all overlaps", "anchors": ["feax/asd.py: merge_csr_patterns, _csr_slots, _slot_keys"]}
{"id": "C43", "title": "Generated rectangle meshes are valid", "statement": "rectangle_mesh produces Nx*Ny cells whose node ids are distinct, in range and are the four corners of the cell in counter-clockwise order; every node is used by some cell.", "quantifier": "all Nx, Ny >= 1", "why_tests_cant": "for all sizes", "anchors": ["feax/mesh.py: rectangle_mesh"]}
{"id": "C44", "title": "Contiguous reindexing keeps the geometry", "statement": "Meshes read from gmsh models are reindexed so that every node is used, node numbers are contiguous, and each cell keeps the coordinates of its vertices.", "quantifier": "all connectivities", "why_tests_cant": "for all unused-node patterns", "anchors": ["feax/mesh.py: box_mesh (reindexing)", "feax/gene/adaptive.py: _extract_tet4"]}
{"id": "C45", "title": "from_gmsh imports every cell of the requested type", "statement": "Mesh.from_gmsh(msh, element_type) returns a mesh containing every cell of the requested type present in the input, in any number of blocks.", "quantifier": "all block structures", "why_tests_cant": "tests use single-block files", "anchors": ["feax/mesh.py: Mesh.from_gmsh"]}
{"id": "C46", "title": "Boundary face selection", "statement": "A surface integral region contains a cell face exactly if the location function holds at all of the face's vertices; each selected (cell, face) appears once.", "quantifier": "all meshes, all predicates", "why_tests_cant": "for all predicates", "anchors": ["feax/fe.py: FiniteElement.get_boundary_conditions_inds", "feax/mesh.py: Mesh.count_selected_faces"]}
{"id": "C47", "title": "Assembly scratch lifecycle", "statement": "After TracedStructure.from_problem(problem) has freed the scratch arrays, assembly through the TracedStructure still gives the same matrix and residual as before, while the plain (no TracedStructure) matrix assembly fails with an explicit error rather than returning a wrong matrix; freeing twice is harmless.", "quantifier": "all sequences of build / free / assemble operations", "why_tests_cant": "lifecycle history", "anchors": ["feax/problem.py: Problem.free_assembly_scratch", "feax/traced_structure.py: TracedStructure.from_problem", "feax/assembler.py: _vol_slot_sort"]}
{"id": "C48", "title": "Solver option resolution picks an available and admissible backend", "statement": "Automatic solver selection returns a backend that is available, is admissible for the detected matrix property (Cholesky only for SPD), raises if none is available, and keeps every user-set option that applies to the chosen backend.", "quantifier": "all availability combinations, matrix properties, views, option values", "why_tests_cant": "combinatorial decision logic", "anchors": ["feax/solvers/options.py: resolve_direct_solver, resolve_iterative_solver, MatrixProperty"]}
{"id": "C49", "title": "create_solver honours or rejects its option combination", "statement": "create_solver dispatches by (P, linear, options type): contradictory combinations raise; accepted ones run the requested algorithm with the requested elimination.", "quantifier": "all combinations of options", "why_tests_cant": "combinatorial decision logic", "anchors": ["feax/solver.py: create_solver"]}
{"id": "C50", "title": "Topology-optimisation schedule", "statement": "gene.optimizer.run evaluates the objective at most max_iter times in total, numbers the evaluations 1, 2, 3, ... without gaps, evaluates the k-th one with every continuation parameter at value_at(k-1), remeshes exactly at the first n_adapts_max multiples of adapt_every below max_iter, and never reuses an optimiser instance across a parameter change or a remesh.", "quantifier": "all behaviours of the inner optimiser (any number of evaluations between 1 and the budget per call), all continuation and adaptivity settings", "why_tests_cant": "quantifies over all executions of the external optimiser", "anchors": ["feax/gene/optimizer.py: run, Continuation.value_at, AdaptiveConfig"]}
{"id": "C51", "title": "Continuation values stay between initial and final", "statement": "Continuation.value_at(i) always lies between initial and final, starts at initial, is monotone in i and, for a step towards final, eventually equals final.", "quantifier": "all settings and iterations", "why_tests_cant": "for all settings", "anchors": ["feax/gene/optimizer.py: Continuation.value_at"]}
{"id": "C52", "title": "Equality constraints expand to the intended band", "statement": "@constraint(type='eq', tol) makes a design feasible exactly when |f - target| <= tol; 'le' exactly when f <= target; the gradient signs match.", "quantifier": "all values, targets and tolerances", "why_tests_cant": "for all values", "anchors": ["feax/gene/optimizer.py: constraint, _collect_constraints, _create_mma"]}
{"id": "C53", "title": "Density filter is a bounded averaging", "statement": "The density filter maps fields in [0, M] to fields in [0, M], is linear and monotone, and reproduces constants up to the regularisation; and (documented) it preserves the sum of the density field.", "quantifier": "all point sets, radii, weights and fields", "why_tests_cant": "for all fields", "anchors": ["feax/gene/filters.py: create_density_filter, _compute_density_filter_weights_sparse"]}
{"id": "C54", "title": "Sensitivity filter computes the stated weighted average", "statement": "create_sensitivity_filter(grid, rmin) returns for each active cell the cone-weighted average over all in-radius active neighbours, for every sorted active set; no neighbour with positive weight is missed.", "quantifier": "all grids, radii, sorted active sets, fields", "why_tests_cant": "for all bands", "anchors": ["feax/gene/filters.py: create_sensitivity_filter"]}
{"id": "C55", "title": "Gradient refinement uses the true element gradient", "statement": "gradient_refinement computes in every TET4 element the gradient of the linear interpolant of the nodal field.", "quantifier": "all non-degenerate tetrahedra, all nodal values", "why_tests_cant": "a transposed Jacobian inverse is invisible on symmetric element maps", "anchors": ["feax/gene/adaptive.py: gradient_refinement"]}
{"id": "C56", "title": "Volume-variable classification is consistent", "statement": "A per-cell, per-node or per-quadrature array passed in TracedParams is interpreted the same way by all assembly and energy routes, and gives the value the user intended at each quadrature point.", "quantifier": "all array shapes and all meshes, including equal cell and node counts", "why_tests_cant": "coincident counts are rare in tests", "anchors": ["feax/assembler.py: classify_volume_var, Operator.gather_internal_vars", "feax/flat/solver.py: average_stress"]}
{"id": "C57", "title": "Edge-list and adjacency-matrix lattice descriptions agree", "statement": "edges2adjcentMat and adjcentMat2edges are inverse to each other on simple undirected graphs, and the lattice indicator built from either description is the same function.", "quantifier": "all graphs", "why_tests_cant": "for all graphs", "anchors": ["feax/flat/graph.py: edges2adjcentMat, adjcentMat2edges, universal_graph, universal_graph_from_adjmat"]}
{"id": "C58", "title": "Pytree flatten/unflatten round-trips", "statement": "Flattening and unflattening TracedParams, TracedStructure, DirichletBC and Problem preserves every field the transformations rely on, so jit/vmap/grad see the same object.", "quantifier": "all values of all fields", "why_tests_cant": "for all values", "anchors": ["feax/traced_params.py: TracedParams.tree_flatten, tree_unflatten", "feax/traced_structure.py", "feax/DCboundary.py", "feax/problem.py: tree_flatten"]}
{"id": "C59", "title": "Krylov results that miss the tolerance are flagged", "statement": "With convergence checking enabled a solve whose relative residual is not below the threshold (or is not a number) returns NaN everywhere, and otherwise returns the solution unchanged.", "quantifier": "all matrices, vectors and thresholds", "why_tests_cant": "for all inputs", "anchors": ["feax/solvers/common.py: check_convergence"]}
{"id": "C60", "title": "Initial increments satisfy the boundary rows", "statement": "create_x0 gives an increment that satisfies every constrained row of the linearised system exactly and is zero elsewhere; with a prolongation matrix the prolonged increment does so.", "quantifier": "all solutions, boundary conditions and prolongations with one unit entry per row", "why_tests_cant": "the increment depends on the current iterate and on the tying pattern; agreement on sample patterns says nothing about classes of other sizes", "anchors": ["feax/solvers/common.py: create_x0, create_x0_parametric"]}
{"id": "C61", "title": "Fused residual+Jacobian assembly equals separate assembly", "statement": "Where feax assembles residual and Jacobian in one pass the pair equals the separately assembled residual and Jacobian.", "quantifier": "all problems, batch counts and values", "why_tests_cant": "for all inputs", "anchors": ["feax/assembler.py: _assemble_volume_res_and_J, _get_res_J_csr"]}
{"id": "C62", "title": "Constraint terms of the multiplier method", "statement": "For mdmm.eq/ineq/combine: the multiplier update ascends while everything else descends; an inequality h(x) >= 0 that is satisfied at initialisation has zero infeasibility, and during the iteration an inequality constraint does not penalise designs that satisfy it strictly; combine adds losses and concatenates infeasibilities.", "quantifier": "all constraint functions and parameters", "why_tests_cant": "for all inputs", "anchors": ["feax/gene/mdmm.py"]}
{"id": "C63", "title": "Directional Young's modulus", "statement": "compute_directional_youngs_modulus(C, n) is 1/(n n : S : n n) for the compliance S = C^-1 in engineering Voigt notation.", "quantifier": "all invertible C, all directions n", "why_tests_cant": "exact identity in all entries", "anchors": ["feax/flat/utils.py: compute_directional_youngs_modulus"]}
{"id": "C64", "title": "Host-driven Newton loops are bounded, strictly decreasing and report truthfully", "statement": "The Newton loops used with an extra residual term or an AMG preconditioner make at most max_iter accepted steps, return either the initial guess or a point with strictly smaller residual norm, return the residual norm of the returned point, set converged exactly when the absolute or relative tolerance is met, and stop early only for a met tolerance, a vanishing direction or an exhausted backtracking.", "quantifier": "all residual functions, linear solvers, starting points and options", "why_tests_cant": "quantifies over all residual functions and iteration histories", "anchors": ["feax/solvers/newton.py: create_newton_solver (hybrid_solve_fn), _create_amg_rebuild_newton_solver"]}
{"id": "C65", "title": "Multiresolution runs the requested iterations on the requested grid", "statement": "run_narrowband_multires runs every level of the ladder once, coarse to fine; only the coarsest explores the full grid, every later level is seeded by its predecessor; the finest level runs n_iter iterations and the others coarse_iter; iteration numbers are continuous.", "quantifier": "all dims, level counts, factors, floors, iteration counts", "why_tests_cant": "single-level ladders and every combination of counts", "anchors": ["feax/gene/narrowband.py: run_narrowband_multires, _res_ladder"]}
{"id": "C66", "title": "Moving-band loop never solves with a stale band", "statement": "In every iteration of run_narrowband_oc the solver and load used were built for the active cells of that iteration (full grid while exploring, the band of the current design afterwards), and the jitted solver is used exactly from iteration jit_after on.", "quantifier": "all design histories, all jit_after and exploration lengths, all iteration counts", "why_tests_cant": "history property: the band may change and change back at any iteration", "anchors": ["feax/gene/narrowband.py: run_narrowband_oc"]}
{"id": "C67", "title": "Concurrent solves sharing a factorisation cache do not mix", "statement": "Sparse direct solves issued concurrently (from several threads or asynchronously dispatched computations) that share one process-wide factorisation cache each return the solution for their own matrix.", "quantifier": "all interleavings of any number of calls on one cache", "why_tests_cant": "The failing interleavings depend on thread timing; a test sees a handful of schedules.", "anchors": ["feax/solvers/direct/umfpack.py: _get_umfpack_host_callback, _factorize_and_solve_with_cache", "feax/solvers/direct/cholmod.py: _get_cholmod_host_callback"]}
{"id": "C68", "title": "Output files name the element type of the mesh", "statement": "save_sol and XDMFWriter write a mesh with its own element type, for every element type feax supports, or raise.", "quantifier": "all element types and space dimensions", "why_tests_cant": "tests write TET4/HEX8 meshes only; the claim ranges over every supported type", "anchors": ["feax/utils.py: save_sol, XDMFWriter.__init__"]}
{"id": "C69", "title": "The dead-load fast path never changes the tangent", "statement": "create_solver probes once whether the surface loads contribute to the tangent and remembers the answer on the problem. Whatever the sample parameters were, the matrix assembled afterwards, for any parameters and any displacement, is the matrix assembled without the fast path: surface terms with a non-zero tangent (Robin, springs, follower loads, contact) are never dropped.", "quantifier": "all surface kernels, sample parameters, later parameters and displacements", "why_tests_cant": "The answer is taken at one set of parameters and two displacement patterns and reused for all later ones.", "anchors": ["feax/assembler.py:detect_zero_surface_jacobian", "feax/assembler.py:_get_J_csr", "feax/solvers/linear.py:create_linear_solver"]}
{"id": "C70", "title": "The detected matrix property is right", "statement": "detect_matrix_property reports a symmetric positive definite matrix as SPD and never a symmetric matrix as GENERAL; and a matrix that it reports as SPD (SYMMETRIC) is symmetric positive definite (symmetric), so that the solver chosen from the report is applicable.", "quantifier": "all assembled matrices, storage views and probing vectors", "why_tests_cant": "The check uses one fixed random vector and the diagonal only; the matrices that fool it are a measure-zero or indefinite family that samples miss.", "anchors": ["feax/solvers/options.py:detect_matrix_property"]}
{"id": "C71", "title": "The optimisation history has one row per evaluation", "statement": "After gene.optimizer.run, every column of result.history has exactly one entry per evaluation of the objective, and the k-th entry of a constraint's column is that constraint's value at the k-th evaluated design.", "quantifier": "all sets of declared constraints and all sequences of evaluated designs", "why_tests_cant": "quantifies over all constraint names and histories", "anchors": ["feax/gene/optimizer.py: run, _collect_constraints"]}
{"id": "C72", "title": "Passive nodes are pinned and the initial design is admissible", "statement": "gene.optimizer.run hands the optimiser bounds that pin passive_solid nodes at 1 and passive_void nodes at the lower bound and give every other node rho_bounds; the initial design lies within these bounds; after a remesh the indices, which refer to the initial mesh, are not applied to other nodes.", "quantifier": "all meshes, index sets, bounds, constraints and initial designs", "why_tests_cant": "for all index sets, targets and remeshings", "anchors": ["feax/gene/optimizer.py: run, _create_mma"]}
{"id": "C73", "title": "Field transfer interpolates", "statement": "interpolate_field evaluates, at every query point inside the old TET4 mesh, the piecewise linear interpolant of the nodal field (so linear fields are transferred exactly), never leaves the range of the old values beyond the containment tolerance, and respects clip.", "quantifier": "all TET4 meshes, nodal fields, query point sets, clip intervals and correct nearest-neighbour answers", "why_tests_cant": "for all meshes: whether the containing element is among the candidates tried depends on the shapes of the elements", "anchors": ["feax/gene/adaptive.py: interpolate_field"]}
{"id": "C74", "title": "Adaptive element size follows the refinement field", "statement": "The element size requested from the mesher is h_min where the refinement field is 1, h_max where it is 0, linear in between, and always within [h_min, h_max].", "quantifier": "all fields, meshes, sizes and points", "why_tests_cant": "for all fields and points", "anchors": ["feax/gene/adaptive.py: _make_size_callback, adaptive_mesh"]}
{"id": "C75", "title": "Node-count tuning terminates and keeps the grading", "statement": "adaptive_box_mesh with target_nodes meshes at most max_retries + 1 times, stops as soon as the node count is in the accepted band, always scales h_min and h_max by the same factor, and returns the mesh of the last sizes tried.", "quantifier": "all sizes, targets, retry limits and mesh generators", "why_tests_cant": "for all sequences of node counts", "anchors": ["feax/gene/adaptive.py: adaptive_box_mesh"]}
{"id": "C76", "title": "Lattice indicator is the union of the struts", "statement": "create_lattice_function and create_lattice_function_from_adjmat return 1 exactly at the points whose Euclidean distance to some strut (segment between two connected nodes) is at most the radius, 0 elsewhere; a negative radius is refused.", "quantifier": "all dimensions, nodes, graphs, radii and query points", "why_tests_cant": "for all points: the projection must be clipped correctly at both ends, also for degenerate struts", "anchors": ["feax/flat/graph.py: _segment_distance, universal_graph, universal_graph_from_adjmat"]}
{"id": "C77", "title": "Uniform and solved coefficients reach the quadrature points unchanged", "statement": "A uniform parameter created per node, per cell or per quadrature point has that value at every quadrature point; a Solution passed as a volume variable is the interpolated nodal field of that solution, and a multi-field Solution is refused.", "quantifier": "all meshes, element types whose shape functions sum to one, values, solutions and numbers of components", "why_tests_cant": "must hold for every mesh including those with equally many nodes and cells, for which it fails", "anchors": ["feax/traced_params.py: create_node_var, create_cell_var, create_uniform_volume_var, _coerce_volume_var, TracedParams.__post_init__", "feax/assembler.py: classify_volume_var, Operator.gather_internal_vars"]}
{"id": "C78", "title": "Patch test", "statement": "On a FiniteElement of any supported element type, whatever the quadrature rule and the mesh, sol_to_grad returns exactly A at every quadrature point where the cell Jacobian is invertible when the nodal values are those of the affine field x -> A x + b; convert_from_dof_to_quad returns the value of that field at get_physical_quad_points; a rigid translation has zero gradient on every cell; gradients are linear in the nodal values.", "quantifier": "all supported element types, quadrature points, meshes, cells with an invertible Jacobian and affine fields", "why_tests_cant": "A patch test on a few meshes exercises finitely many cells and fields; exactness for every distorted cell and every rule is a universally quantified identity.", "anchors": ["feax/fe.py:FiniteElement.get_shape_grads", "feax/fe.py:FiniteElement.sol_to_grad", "feax/fe.py:FiniteElement.convert_from_dof_to_quad", "feax/fe.py:FiniteElement.get_physical_quad_points"]}
{"id": "C79", "title": "Reference elements and node order", "statement": "For each supported element type the shape functions, in the node order of the mesh (meshio), are nodal (1 at their own node, 0 at the others), sum to 1 and reproduce the coordinates at every point; their gradients sum to 0; face_inds lists for each facet the local nodes at its vertices; on a facet, functions of nodes off the facet vanish. Linear types interpolate within the range of the nodal values. Every other element name is refused.", "quantifier": "all element types, all points of the reference cell or of its facets, all nodal values", "why_tests_cant": "The identities must hold at every point, since the quadrature rule is a user choice; a wrong entry of a node-order table only shows on meshes that are not symmetric under it.", "anchors": ["feax/basis.py:get_elements", "feax/basis.py:reorder_inds", "feax/basis.py:get_shape_vals_and_grads", "feax/basis.py:get_face_shape_vals_and_grads", "feax/mesh.py:refine_mesh"]}
{"id": "C80", "title": "Second derivatives of shape functions", "statement": "With hess=True, the second derivatives computed from shape_hessians are those of the interpolated field on straight-edged elements: zero for affine fields, and exact for quadratic fields on the quadratic element types.", "quantifier": "all straight-edged cells, quadrature points, affine and quadratic fields", "why_tests_cant": "The neglected term vanishes on the rectangular cells tests use; whether it vanishes on all straight-edged cells is a universal claim.", "anchors": ["feax/fe.py:FiniteElement._compute_shape_hessians", "feax/basis.py:get_shape_hessians_ref"]}
{"id": "C81", "title": "Integration measures", "statement": "JxW is the reference weight times the determinant of the cell map: on affine cells the weights sum to the cell volume, a rigid motion of the mesh changes no weight, an affine change of coordinates multiplies the weights by its determinant and transforms gradients by its inverse. nanson_scale is the reference face weight times the length (area) of the image of the face directions; on the edges of TRI3 and QUAD4 cells the weights sum to the distance of the end nodes.", "quantifier": "all cells with positive Jacobian, all faces, quadrature rules and affine maps", "why_tests_cant": "Volumes and areas of sample cells agree with many wrong formulas; invariance is a statement about all cells and all motions.", "anchors": ["feax/fe.py:FiniteElement.get_shape_grads", "feax/fe.py:FiniteElement.get_face_shape_grads"]}
{"id": "C82", "title": "The assembled residual is the weak form", "statement": "For every discrete test field v, the inner product of v with the assembled residual (Problem.compute_residual / create_res_bc_function before elimination) equals the integral over the mesh of the weak form the user declared (get_mass_map, get_tensor_map, get_weak_form, get_universal_kernel, get_surface_maps, get_surface_weak_forms), evaluated on the discrete fields of u and v: sum over cells and quadrature points of mass.v + tensor:grad v times JxW, plus the surface terms times nanson_scale. So the residual vanishes exactly when the Galerkin equations hold. Declaring several physics adds them; a single-variable tensor/mass map is the corresponding weak form.", "quantifier": "all meshes, numbers of variables and components, quadrature data, weak forms, fields u and test fields v", "why_tests_cant": "A manufactured solution checks one field on one mesh; the slices of a multi-variable element vector, the scatter and the quadrature sums must be right for every layout.", "anchors": ["feax/problem.py:Problem.get_weak_form", "feax/problem.py:Problem.get_surface_weak_forms", "feax/assembler.py:get_laplace_kernel", "feax/assembler.py:get_mass_kernel", "feax/assembler.py:create_volume_kernel", "feax/assembler.py:create_surface_kernel", "feax/assembler.py:get_res"]}
{"id": "C83", "title": "Global balance of forces and moments", "statement": "For every material law, displacement and mesh, the nodal forces in the assembled residual of a tensor-map problem sum to zero in each direction, and for symmetric stresses their total moment vanishes. With mass and surface maps the sum of the residual over the nodes in one direction is the integral of the body terms plus the integral of the tractions; at a converged state the forces at constrained DOFs (reactions) sum to the total applied load. The first moments of the residual are the volume integral of the stress plus the moments of the tractions.", "quantifier": "all meshes of a supported element type with invertible Jacobians, quadrature rules, material laws, loads and displacements", "why_tests_cant": "A test checks the sum of reactions for one load and one mesh; the cancellation must hold for each law and each distorted mesh.", "anchors": ["feax/assembler.py:get_res", "feax/assembler.py:get_laplace_kernel", "feax/assembler.py:get_mass_kernel", "feax/assembler.py:get_surface_kernel", "feax/fe.py:FiniteElement.get_shape_grads"]}
{"id": "C84", "title": "Residual of an energy density is the gradient of the energy", "statement": "For a problem defined by get_energy_density, the derivative of create_energy_fn(problem) at u in any direction w equals w . R(u), R being the assembled residual; a minimiser of the energy among the fields with the same prescribed values has zero residual at all free DOFs; for convex densities and non-negative weights the converse holds. More generally, if get_weak_form of a problem with several fields is the derivative of a density of values and gradients, and the surface maps do not depend on the solution, the residual is the gradient of the total potential.", "quantifier": "all one-variable problems, meshes, differentiable densities, states u and directions w", "why_tests_cant": "Finite-difference checks verify the identity at a few points up to truncation error.", "anchors": ["feax/assembler.py:create_energy_fn", "feax/assembler.py:create_volume_kernel", "feax/assembler.py:get_laplace_kernel"]}
{"id": "C85", "title": "Compliance", "statement": "create_compliance_fn(problem, params)(sol) and create_dynamic_compliance_fn(problem)(sol, surface_vars) return the work of the loads applied by the residual on the displacement, i.e. minus the inner product of sol with the surface residual; at a converged state with homogeneous Dirichlet conditions this is the internal work, twice the strain energy for linear elasticity. params None means 1.0 for each surface, a scalar applies to all, a list or array must have one entry per surface.", "quantifier": "all meshes, surface maps, parameters and solutions", "why_tests_cant": "The identity relates two separately coded integrations for each number of surfaces and parameter form.", "anchors": ["feax/gene/responses.py:create_compliance_fn", "feax/gene/responses.py:create_dynamic_compliance_fn"]}
{"id": "C86", "title": "Volume fraction", "statement": "create_volume_fn(problem)(rho) is the integral of the density over the mesh divided by the volume of the mesh for densities given per node, per cell or per quadrature point; it is linear, equals x for the uniform density x, lies between 0 and 1 when the density does, and rejects arrays of other sizes.", "quantifier": "all meshes, quadrature rules and densities in the three storages", "why_tests_cant": "The storage is guessed from the size; only a statement over all meshes shows for which sizes the guess is right.", "anchors": ["feax/gene/responses.py:create_volume_fn"]}
{"id": "C87", "title": "Cohesive laws", "statement": "For all Gamma, sigma_c > 0 and every opening history, both cohesive potentials store an energy between 0 and Gamma that is zero at zero opening, never falls while the interface opens, and reaches Gamma at complete separation; the traction never exceeds sigma_c and attains it; a further-opened history never stores more energy at the same opening; and opening followed by closing dissipates energy.", "quantifier": "all fracture energies, critical tractions, openings and maximum openings (real numbers)", "why_tests_cant": "the claim ranges over a continuum of parameters and histories; the bilinear law is right only when sigma_c < 2 Gamma, and the traction overshoot appears only on reversal at particular openings", "anchors": ["feax/mechanics/cohesive.py: exponential_potential", "feax/mechanics/cohesive.py: bilinear_potential"]}
{"id": "C88", "title": "Cohesive interfaces", "statement": "get_opening, get_opening_components and the energy function of an interface depend on the displacement jump of each node pair only, by the mixed-mode formula (with 1e-30 under the root): opening along the normal, contact, sliding and beta = 0 behave as documented, contact stores at most Gamma (1e-15/delta_c)^2/2, and a translation of the whole body changes nothing. from_axis gives unit normals along the axis and refuses other axes; normals of the wrong shape are refused. Trapezoidal weights add up to the length of the line and integrate affine functions exactly; lumped weights give each node a quarter of the area of its quads and add up to the total area, which for a planar quad is the polygon area.", "quantifier": "all numbers of pairs, node numbers, normals, weights, nodal fields, histories and potentials; all coordinate lists; all quad lists", "why_tests_cant": "must hold for every mesh, displacement field and weight list", "anchors": ["feax/mechanics/cohesive.py: CohesiveInterface", "feax/mechanics/cohesive.py: compute_trapezoidal_weights", "feax/mechanics/cohesive.py: compute_lumped_area_weights"]}
{"id": "C89", "title": "Design variables give admissible orientation tensors", "statement": "For all design variables in [-1,1]: box_to_triangle and box_to_tetrahedron return positive diagonal entries whose sum is at most one, send corners to the documented vertices and treat the variables alike, for scalars and arrays; smooth_sgn is odd, increasing and maps [-1,1] to itself; orientation_tensor_2d and orientation_tensor_3d return symmetric tensors without negative directions and with that diagonal; for fibres along one axis principal_direction returns that axis.", "quantifier": "all real design variables in the box, all steepness parameters beta > 0, arrays of any length", "why_tests_cant": "ranges over a box of real numbers; the three-dimensional tensor loses admissibility only for particular sign combinations of the off-diagonal variables, and the sum exceeds one by 1e-6 only near corners", "anchors": ["feax/mechanics/orientation.py: box_to_triangle", "feax/mechanics/orientation.py: box_to_tetrahedron", "feax/mechanics/orientation.py: smooth_sgn", "feax/mechanics/orientation.py: orientation_tensor_2d", "feax/mechanics/orientation.py: orientation_tensor_3d", "feax/mechanics/orientation.py: principal_direction"]}
{"id": "C90", "title": "Closures of the fourth-order orientation tensor", "statement": "For every distribution of fibre directions: the quadratic closure is exact when all fibres lie along one axis; the linear closure is exact for random fibres, symmetric and contracts to a2; the hybrid closure is a weighted mean of the two, exact in both limits, and contracts to a2; other dimensions raise ValueError. build_a4_2d with (y1, y2) in the unit disk returns exactly the fourth moments of fibre distributions: each tensor returned is one, with second moment a2 up to eps/2, and every fourth moment is reached; outside the disk it returns none; with all fibres along one axis (y1, y2) have no effect.", "quantifier": "all finite distributions of unit vectors, all admissible a2, all y1, y2 and eps >= 0", "why_tests_cant": "ranges over all fibre distributions and all parameters of a disk; completeness is an existence claim", "anchors": ["feax/mechanics/orientation.py: quadratic_closure", "feax/mechanics/orientation.py: linear_closure", "feax/mechanics/orientation.py: hybrid_closure", "feax/mechanics/orientation.py: build_a4_2d"]}
{"id": "C91", "title": "Stiffness tensors", "statement": "Stiffness builders return the tensors of the constants they are given: contracting isotropic_in_plane_stiffness, orthotropic_in_plane_stiffness, isotropic_stiffness_3d and orthotropic_stiffness_3d with the strain that Hooke's law (or the engineering constants) assigns to a symmetric stress returns that stress; they have major and minor symmetry; isotropic ones are the same in every frame. Rotating a stiffness or expansion tensor is a change of frame: rotations compose, rotation by zero changes nothing, and stress follows. rotation_matrix_axis gives proper rotations about the given axis. voigt_to_tensor and tensor_to_voigt are inverse to each other on symmetric data.", "quantifier": "all elastic constants outside the singular sets, all stresses, strains, rotations, axes and angles", "why_tests_cant": "ranges over a continuum of constants, tensors and rotations", "anchors": ["feax/mechanics/shell.py: isotropic_in_plane_stiffness", "feax/mechanics/shell.py: orthotropic_in_plane_stiffness", "feax/mechanics/shell.py: rotate_in_plane_stiffness", "feax/mechanics/layered_solid_element.py: isotropic_stiffness_3d", "feax/mechanics/layered_solid_element.py: orthotropic_stiffness_3d", "feax/mechanics/layered_solid_element.py: rotation_matrix_axis", "feax/mechanics/layered_solid_element.py: rotate_stiffness_3d", "feax/mechanics/layered_solid_element.py: voigt_to_tensor", "feax/mechanics/layered_solid_element.py: tensor_to_voigt"]}
{"id": "C92", "title": "Orientation-averaged stiffness", "statement": "For every finite distribution of fibres, orientation_averaged_stiffness and orientation_averaged_stiffness_3d of its two orientation tensors are the average, over the fibres, of the orthotropic (transversely isotropic) stiffness turned to each fibre, and thermal_expansion_from_orientation is the average of the turned expansion. So with one direction the rotated lamina is recovered, random fibres give an isotropic stiffness, the result is symmetric, and a stable lamina gives a stable average.", "quantifier": "all finite distributions of fibres (weights and rotations), all elastic constants outside the singular sets, all strains", "why_tests_cant": "ranges over all fibre distributions; agreement at sampled angles does not give it for mixtures of other directions or other constants", "anchors": ["feax/mechanics/orientation.py: orientation_averaged_stiffness", "feax/mechanics/orientation.py: orientation_averaged_stiffness_3d", "feax/mechanics/shell.py: thermal_expansion_from_orientation"]}
{"id": "C93", "title": "Laminates and plates are thickness integrals, and the plate residual is the gradient of the plate energy", "statement": "laminate_stiffness and laminate_thermal_loads return the integrals through the thickness of the ply stiffness (and thermal stress) in laminate axes with weights 1, z, z^2, the plies being stacked from -h/2 to h/2; mindlin_resultants of them are the integrals of the ply stresses sigma and z sigma with strain eps + z kappa less the thermal expansion. A laminate turned upside down has the same A, D, G_s and the opposite B (so a midplane-symmetric one has no coupling and no thermal moment under uniform heating); a laminate turned in its plane has the turned tensors; one ply at angle 0 is plate_stiffness; stable plies give a stable laminate; one material stands for all plies, and unequal numbers of plies raise ValueError. mindlin_strains vanish (linear) exactly for infinitesimal rigid motions with rotation -grad w; an unknown 'nonlinear' raises ValueError. The residual assembled from mindlin_weak_form (linear or von Karman, with coupling and thermal resultants) with dead boundary loads is the gradient of the total potential.", "quantifier": "all lists of plies (stiffness, shear stiffness or expansion, angle, nonnegative thickness), correction factors, temperature changes and gradients; all strains; all meshes, solutions and directions", "why_tests_cant": "Tests check a few lay-ups against tabulated values or signs; the integral, symmetry and energy statements are about every lay-up, strain and mesh.", "anchors": ["feax/mechanics/shell.py: plate_stiffness, z_layer_coordinates, laminate_stiffness, laminate_thermal_loads, mindlin_strains, mindlin_resultants, mindlin_weak_form, MindlinPlate, make_mindlin_plate"]}
{"id": "C94", "title": "Layered solid elements integrate every ply exactly and pass the patch test", "statement": "For any stack of plies, the through-thickness quadrature of the layered solid has n_plies·n_thickness·n_inplane² points, each in the slab of its own ply, with weights that are not negative and that add to each ply's share of the thickness. It integrates ply-wise polynomials exactly, so for parallelepiped elements two Gauss points per direction and per ply give the exact internal work whatever the number of plies. Each point uses the stiffness of its own ply rotated by its own angle, and its own expansion. The element forces do on any field the work of the stress that layered_quad_stress reports, are the gradient of the strain energy, have a symmetric tangent, balance in force and moment, vanish for rigid motions and free thermal expansion, and reproduce constant strain exactly. The geometric stiffness is the gradient of the second-order work of the prestress and vanishes in translations. Wrong element types and mismatched numbers of plies are refused.", "quantifier": "all numbers of plies, thicknesses, angles, stiffnesses, expansions, element shapes with non-singular maps, nodal fields and Gauss rules", "why_tests_cant": "Tests compare a few laminates with reference values; exactness and balance concern every stack, shape and field.", "anchors": ["feax/mechanics/layered_solid_element.py: layered_reference_quadrature, LayeredSolid, OrientedLayeredSolid, GeometricStiffnessSolid, create_layered_solid, create_oriented_layered_solid, expand_cte_to_quad, interpolate_nodal_to_layered_quad, layered_quad_stress"]}
{"id": "C95", "title": "Third medium contact: energy, safe logarithm and regularisation", "statement": "The neo-Hookean energy of a third medium contact problem is defined for every deformation gradient, inverted ones included, through a twice continuously differentiable, strictly increasing, concave extension of the logarithm below J = 1e-4. It is unchanged by superposed rotations, has no stress at rest, never falls below its rest value and reaches that value exactly at rotations. The medium has gamma0 times the body's moduli, hence gamma0 times its energy. Cells are medium exactly where the predicate holds at their corner centroid. The regularisation acts on medium cells only, is the gradient of the documented energy, is positive semi-definite and symmetric, and does not resist affine motions.", "quantifier": "all meshes, predicates, deformation gradients in two and three dimensions, moduli, nodal fields and element types", "why_tests_cant": "Energy minimality, smoothness at the switch and the null space of the regularisation concern every deformation; tests sample a few.", "anchors": ["feax/mechanics/tmc.py: classify_medium_cells, ThirdMediumContact.get_energy_density, ThirdMediumContact.get_extra_kernel, ThirdMediumContact.create"]}
{"id": "C96", "title": "The Helmholtz filter solves the filter equation and has the filter properties", "statement": "For every mesh of linear elements, radius and nodal density, the function returned by create_helmholtz_filter returns the Galerkin solution of rho_f - r^2 lap(rho_f) = rho with natural boundary conditions (with P: among the fields that are equal at paired nodes). Consequently the result is independent of the solver, linear in the density, keeps uniform densities and the total volume, is self-adjoint, does not increase the L2 norm or the Dirichlet energy, and the filtered density stays in [0, 1] when the input does.", "quantifier": "all consistent meshes, radii, nodal densities, periodic pairings without chains, exact linear solvers and solver options", "why_tests_cant": "Tests filter one or two densities on one structured mesh and compare averages; conservation, symmetry and the range of the result are claims about every density and every mesh.", "anchors": ["feax/gene/filters.py:HelmholtzFilterProblem", "feax/gene/filters.py:create_helmholtz_filter", "feax/gene/filters.py:helmholtz_filter"]}
{"id": "C97", "title": "Heaviside projection and volume-fraction threshold", "statement": "For every density field, sharpness and threshold, heaviside_projection returns values strictly between 0 and 1, preserves the order of the densities, equals 1/2 exactly at the threshold and differs from a 0/1 field by at most exp(-2 beta m) at distance m from the threshold. compute_volume_fraction_threshold(rho, t) returns a threshold at which the projected field has the volume fraction t.", "quantifier": "all non-empty density fields, sharpness values, thresholds and target fractions in [0, 1]", "why_tests_cant": "A test checks one random field; ties, uniform fields and the off-by-one of percentile interpolation appear only for particular fields and targets.", "anchors": ["feax/gene/filters.py:heaviside_projection", "feax/gene/filters.py:compute_volume_fraction_threshold"]}
{"id": "C98", "title": "Signed distance fields: set operations, bounds and sampling", "statement": "For every tree of unions, intersections and differences of signed distance fields, the sign of the result says whether the point is in the corresponding set, evaluate gives the values of __call__ point by point, the default bounds of a union contain those of its parts, the result never overestimates the distance when the leaves do not, and surface extraction samples the field at evenly spaced points of the padded box and returns vertices inside it. volume_mesh without a mesh size uses the size its documentation states.", "quantifier": "all trees of operations, leaves, points, boxes, paddings and resolutions", "why_tests_cant": "A test evaluates two or three shapes at a few points; wrong signs in nested differences and shifted sample positions show only for particular trees and boxes.", "anchors": ["feax/gene/sdf.py:SDF", "feax/gene/sdf.py:Union", "feax/gene/sdf.py:Intersection", "feax/gene/sdf.py:Difference"]}
{"id": "C99", "title": "Density fields on linear simplices", "statement": "For a mesh of TRI3 or TET4 cells with nodal densities, DensityField returns at every point of the mesh the threshold minus the linearly interpolated density; affine densities are reproduced exactly; values stay within the range of the densities; evaluate agrees with __call__; with close_boundary the region outside the mesh is void.", "quantifier": "all meshes of non-degenerate linear simplices, nodal densities, thresholds and query points", "why_tests_cant": "Tests query a few points of one mesh; points on shared faces, points outside and cells much larger than their neighbours are missed by any sample.", "anchors": ["feax/gene/sdf.py:DensityField"]}
{"id": "C100", "title": "Density fields on elements located by Newton's method", "statement": "For a mesh of QUAD4 or HEX8 cells with nodal densities, DensityField returns at every point of a cell the threshold minus the density interpolated with the shape functions of the cell, whatever the numbering of its nodes, and evaluate agrees with __call__.", "quantifier": "all meshes of square, rectangular and box-shaped cells, all valid node orders, densities, thresholds and query points", "why_tests_cant": "Tests use meshes whose cells lie along the axes in the standard order, for which the transposed Jacobian of the iteration is symmetric and the error invisible.", "anchors": ["feax/gene/sdf.py:DensityField"]}
{"id": "C101", "title": "Double-wall vessel mesh", "statement": "For every vessel with positive dimensions, a polar opening smaller than the tank and at least three columns, create_double_wall_copv_mesh returns; no two nodes coincide; every cell joins neighbouring rows, columns and layers and has a positive Jacobian determinant at every point; layers are at constant distance from the mould line, with the shells and the fill of the thicknesses asked for; zone and dome labels follow position; the surface and rim location functions select exactly the nodes of their surface; the rim radius is the polar radius. Vessels with degenerate cells are refused.", "quantifier": "all vessel dimensions and discretisations", "why_tests_cant": "A test builds one or two vessels and looks at the centres of the cells; the claims are about every size, every division and every point of every cell.", "anchors": ["feax/mechanics/copv.py:create_double_wall_copv_mesh", "feax/mechanics/copv.py:build_meridian", "feax/mechanics/copv.py:DoubleWallCopvGeometry", "feax/mechanics/copv.py:DoubleWallCopvMesh"]}
{"id": "C102", "title": "Double-wall vessel supports", "statement": "The axial constraints are exactly those of the nodes in the symmetry plane; the free DOFs are all the others except three pins, in increasing order; and a rigid motion that vanishes at all constrained DOFs is zero, so that the buckling problem has no rigid mode, while without the pins three remain.", "quantifier": "all vessels with positive dimensions and at least three columns, all translations and rotations", "why_tests_cant": "A singular support shows in a test only if that number of columns is tried and the solver notices; the claim is about every discretisation.", "anchors": ["feax/mechanics/copv.py:DoubleWallCopvMesh"]}
{"id": "C103", "title": "Winding of double-wall vessels", "statement": "For every cell and ply the frame of the winding is a proper rotation whose third axis is the normal of the wall; hoop plies run along the circumference, helical plies at the angle of Clairaut's relation r sin(angle) = polar radius, with the sign given; stiffness, expansion and reported fibre directions use the same frames; fill cells get the fill material; an isotropic material is unchanged. On the dome dropped hoop plies alternate in sign and keep the laminate balanced.", "quantifier": "all vessels with positive dimensions and at least three columns, all layups, cells, plies and materials", "why_tests_cant": "Tests look at a few cells of one layup; a wrong sign or handedness changes the laminate without changing its energy for symmetric layups.", "anchors": ["feax/mechanics/copv.py:create_winding_ply_stiffness", "feax/mechanics/copv.py:create_winding_cte", "feax/mechanics/copv.py:cell_fiber_directions", "feax/mechanics/copv.py:cell_winding_angle_deg", "feax/mechanics/copv.py:cell_triads"]}
{"id": "C104", "title": "Linear buckling factors and modes", "statement": "create_linear_buckling_solver returns, for K symmetric positive definite and K_g symmetric on the free DOFs, the num_modes smallest positive factors lambda of (K + lambda K_g) phi = 0 in ascending order with multiplicity, and modes that satisfy the equation, vanish on the constrained DOFs, are K-orthogonal and have phi^T K phi = 1; missing factors are inf with zero modes; a K that is not positive definite or a solve that did not converge raises.", "quantifier": "all matrices, sets of free DOFs, numbers of modes and backends", "why_tests_cant": "Tests compare the lowest factor of a column with Euler's formula; which factors are found, in which order, with what multiplicity and for which spectra is a statement about all matrices.", "anchors": ["feax/solvers/eigen.py:create_linear_buckling_solver", "feax/solvers/eigen.py:generalized_eigh", "feax/solvers/eigen.py:_dense_buckling", "feax/solvers/eigen.py:_sparse_buckling"]}
{"id": "C105", "title": "Buckling sensitivities", "statement": "The gradient of any function of the buckling factors with respect to the stored entries of K and K_g is the exact derivative lambda phi phi^T and lambda^2 phi phi^T of each factor weighted by the cotangents, zero on constrained DOFs; it is finite when some of the factors asked for do not exist, and well defined at repeated factors for functions that weight them alike.", "quantifier": "all differentiable families of matrices, modes, cotangents and sparsity patterns", "why_tests_cant": "Finite differences check one matrix with simple, existing factors; the claims are about every pattern, missing modes and repeated factors.", "anchors": ["feax/solvers/eigen.py:_outer_cotangent", "feax/solvers/eigen.py:create_linear_buckling_solver", "feax/solvers/eigen.py:_create_cudss_bf"]}
{"id": "C106", "title": "Histories of calls of the buckling function", "statement": "After one eager call every later use of the buckling function, eager or compiled, in any order, answers for the matrices it was given; compiling it before any eager call raises ValueError.", "quantifier": "all histories of eager calls, traces and compiled runs, all matrices", "why_tests_cant": "Tests call the function once or twice on one operator; the claim is about every interleaving of uses.", "anchors": ["feax/solvers/eigen.py:create_linear_buckling_solver", "feax/solvers/eigen.py:_create_cudss_bf"]}
{"id": "C107", "title": "Arnoldi iteration of the GPU buckling backend", "statement": "The basis built by the iteration is orthonormal up to exact breakdown, after which its rows are zero; the operator acts on it through the Hessenberg matrix; the residual of a Ritz pair is bounded by its last coefficient times the last subdiagonal entry, and vanishes (up to the breakdown tolerance) when there are as many steps as free DOFs; Ritz vectors of nonzero values are nonzero.", "quantifier": "all operators, start vectors and numbers of steps", "why_tests_cant": "Breakdown and small operators are corner cases no test of a column reaches; the relation has to hold at every step.", "anchors": ["feax/solvers/eigen.py:_create_cudss_bf"]}
{"id": "C108", "title": "Element stiffness of the geometric multigrid solver", "statement": "The element matrix used by NarrowBandCMG is the exact work of two trilinear displacement fields in an isotropic material of the given modulus and Poisson ratio on the grid's cell; it is symmetric, nonnegative, and its kernel is exactly the rigid motions.", "quantifier": "all pairs of nodal displacements of a cell, all moduli and Poisson ratios", "why_tests_cant": "Tests compare a compliance value; exact integration and the exact kernel are statements about all nodal displacements.", "anchors": ["feax/solvers/cmg.py:make_KE_3d"]}
{"id": "C109", "title": "Multigrid levels over a narrow band", "statement": "auto_levels returns the largest number of levels keeping the smallest halved dimension at or above the floor; NarrowBandCMG.build(cells) gives on level l exactly the boxes of 2^l cells that touch the band, their nodes in increasing order and per cell the positions of its corners; level 0 is laid out as the band mesh of the same cells, so designs and displacements can be passed between the two; nodes sharing a cell have different smoothing colours.", "quantifier": "all grids, cell lists, floors and numbers of levels", "why_tests_cant": "Tests build a few hierarchies; the claims range over all grids with odd dimensions and all cell sets.", "anchors": ["feax/solvers/cmg.py:auto_levels", "feax/solvers/cmg.py:NarrowBandCMG.build", "feax/spgrid.py:NarrowBand"]}
{"id": "C110", "title": "Transfer between levels", "statement": "Prolongation reproduces every trilinear field at every fine node of the band, all stencil nodes it uses exist in the coarse level, and restriction is its transpose.", "quantifier": "all grids, cell lists, levels, fields and vectors", "why_tests_cant": "Whether a stencil node can be missing at a ragged band boundary depends on every possible band.", "anchors": ["feax/solvers/cmg.py:NarrowBandCMG._build_transfer", "feax/solvers/cmg.py:NarrowBandCMG._vcycle_j"]}
{"id": "C111", "title": "Coloured smoothing of the multigrid solver", "statement": "One colour step solves the equations of the free nodes of that colour exactly and never raises the potential energy; a sweep keeps fixed nodes at zero and leaves exactly the solutions unchanged; every level built from positive stiffnesses meets the conditions for this.", "quantifier": "all levels, loads, displacements, colours and numbers of sweeps", "why_tests_cant": "Monotone decrease of the energy is a statement about all loads and starting points.", "anchors": ["feax/solvers/cmg.py:NarrowBandCMG._smooth_j", "feax/solvers/cmg.py:NarrowBandCMG._dinv_j"]}
{"id": "C112", "title": "What the multigrid solve returns", "statement": "The displacement returned vanishes on fixed nodes and, unless the iteration limit was reached, satisfies the equilibrium equations with largest residual below cg_tol times that of the load (plus the code's floor); reaching the limit is reported.", "quantifier": "all designs, loads, hierarchies, coarse solvers and parameters", "why_tests_cant": "Tests run well-conditioned bands; the guarantee must hold whatever the preconditioner does.", "anchors": ["feax/solvers/cmg.py:NarrowBandCMG._solve_j", "feax/solvers/cmg.py:NarrowBandCMG.create_solver"]}
{"id": "C113", "title": "Padding of the band is invisible", "statement": "The bucket size to which the arrays of a level are padded does not change the displacement. The padded sizes are the least positive multiples of the bucket that hold the arrays.", "quantifier": "all bucket sizes, designs, hierarchies and loads", "why_tests_cant": "Tests use the default bucket; the claim compares all pairs of sizes.", "anchors": ["feax/solvers/cmg.py:_cap", "feax/solvers/cmg.py:NarrowBandCMG.build"]}
{"id": "C114", "title": "Sensitivities of the multigrid solver", "statement": "At designs with positive moduli (and a penalisation exponent of at least one where the density is zero), with exact solves, the gradient of any differentiable function of the displacement with respect to the design, returned by differentiating the solve, is the true derivative along every differentiable path of designs; exact solves exist and are unique when the supports exclude rigid motions; compliance_and_dc returns the work of the load and its derivative.", "quantifier": "all bands, designs, differentiable paths, loads, objectives and cotangents", "why_tests_cant": "Finite differences check single designs and directions; the identity is for all of them.", "anchors": ["feax/solvers/cmg.py:NarrowBandCMG.create_solver", "feax/solvers/cmg.py:NarrowBandCMG.compliance_and_dc"]}
{"id": "C115", "title": "Coarse solves of the geometric multigrid solver", "statement": "The matrix factorised on the coarsest level is the assembled stiffness between free nodes and the identity on fixed ones; solving with it, or with the operator of the Krylov coarse solve, is solving the equilibrium equations of that level. On arrays that vanish at fixed nodes, which the iteration never leaves, the Krylov operator is that matrix and is symmetric with non-negative energy, zero only if every cell moves rigidly, and its preconditioner is symmetric positive definite. The options select the method they name; a missing cuDSS and unknown options are refused.", "quantifier": "all levels, loads, vectors and solver options", "why_tests_cant": "The slot table must be right for every band, including cells sharing nodes in every way.", "anchors": ["feax/solvers/cmg.py:NarrowBandCMG.create_solver", "feax/solvers/cmg.py:NarrowBandCMG._coarse_solve_cg", "feax/solvers/cmg.py:NarrowBandCMG._parse_coarse"]}
{"id": "C116", "title": "Coarse designs and loads", "statement": "On each level but the finest the design of a cell is the mean of the cells of the next finer level that it covers, so bounds on the design hold on every level; load_vector loads exactly the named nodes along the named axis.", "quantifier": "all bands, levels, designs, node lists and values", "why_tests_cant": "Counts of covered cells vary with the band boundary; all bands are meant.", "anchors": ["feax/solvers/cmg.py:NarrowBandCMG.create_solver", "feax/solvers/cmg.py:NarrowBandCMG.load_vector", "feax/solvers/cmg.py:NarrowBandCMG.compact_nodes"]}
{"id": "C117", "title": "Macroscopic strain cases", "statement": "The homogenisation solver runs one case per Voigt component, in the documented order and with engineering shear; the affine displacement of each case has exactly that strain as its gradient at every quadrature point of the cell, in the plane and in space, and C_hom has one row and one column per case.", "quantifier": "all unit cells whose shape functions reproduce the coordinates, all macroscopic strains", "why_tests_cant": "Tests evaluate a few cells; the claim ranges over all meshes, quadrature points and strains.", "anchors": ["feax/flat/solver.py:create_homogenization_solver", "feax/flat/solver.py:macro_displacement", "feax/flat/solver.py:UNIT_STRAINS_3D", "feax/flat/solver.py:UNIT_STRAINS_2D"]}
{"id": "C118", "title": "C_hom is the effective law of the cell", "statement": "For a linear elastic periodic cell the singular equations of every case are solvable, every displacement returned is the affine field plus a periodic fluctuation in equilibrium, and C_hom maps every macroscopic strain to the mean stress of any equilibrium under that strain; V fᵀ C_hom e is the work of the fields, so C_hom is symmetric and positive semidefinite.", "quantifier": "all cells, linear elastic materials per quadrature point, prolongations, macroscopic strains and solvers that solve solvable semidefinite systems", "why_tests_cant": "Symmetry on one cell does not show it for all materials and geometries, nor independence of which solution the singular solve returns.", "anchors": ["feax/flat/solver.py:create_homogenization_solver", "feax/flat/solver.py:average_stress", "feax/solvers/reduced.py:create_reduced_solver"]}
{"id": "C119", "title": "Bounds on C_hom", "statement": "C_hom lies between the Reuss and Voigt bounds of the materials of the cell, is monotone in the materials, equals the material's stiffness for a homogeneous cell, and is positive definite when every material resists every strain.", "quantifier": "all cells, materials and macroscopic strains", "why_tests_cant": "Bounds are inequalities over all cells and strains.", "anchors": ["feax/flat/solver.py:create_homogenization_solver"]}
{"id": "C120", "title": "Direct homogenisation path", "statement": "With DirectSolverOptions one reduced degree of freedom per component is pinned; the pinned matrix is symmetric positive definite on a connected cell; the solutions satisfy the complete, unpinned equations; fluctuations have zero nodal mean; and C_hom equals that of the matrix-free path. A prolongation without some component is refused.", "quantifier": "all connected cells, prolongations, materials and exact solvers", "why_tests_cant": "A comparison of both paths on one cell cannot exclude a cell where the pins carry reactions.", "anchors": ["feax/flat/solver.py:_create_direct_homogenization_solve", "feax/flat/solver.py:_translation_pin_dofs"]}
{"id": "C121", "title": "Gradients of C_hom", "statement": "The backward pass of the factor-once solve and that of the reduced matrix-free solve return the derivative of the forward pass; the derivative of C_hom[i,k] with respect to a material parameter is the mean of ∂σ(∇u_k):∇u_i.", "quantifier": "all differentiable families of matrices, right-hand sides and materials, all cotangents that do not see translations", "why_tests_cant": "Finite differences check single directions to finite precision.", "anchors": ["feax/flat/solver.py:_solve_bwd", "feax/solvers/reduced.py:f_bwd"]}
{"id": "C122", "title": "Dimension of the homogenisation problem", "statement": "create_homogenization_solver refuses a dim that is not the dimension of the problem.", "quantifier": "all problems and dim arguments", "why_tests_cant": "Tests pass the right dimension; the claim is about every mismatch.", "anchors": ["feax/flat/solver.py:create_homogenization_solver"]}
{"id": "C123", "title": "Assembly by coloured products", "statement": "operator_assembler and sparse_jacobian_fn return the canonical CSR matrix of the operator, for every pattern argument (any storage order, duplicates, stored zeros), every proper colouring in either direction and every operator whose nonzeros lie on the pattern; on reduced_operator_pattern(P, K) the probes of v -> P^T K P v give exactly P^T K P on the arrays of that pattern, the pattern holding (i, j) exactly when some (a, b) of K joins columns i and j of P; the direct homogenisation path's pinning of those values gives the pinned matrix, and a pin without a diagonal slot, mismatched shapes, or neither sample nor pattern raise ValueError.", "quantifier": "all patterns, colourings, operators, prolongations and pins", "why_tests_cant": "Tests compare one matrix; a colour conflict or a slot error shows only for particular patterns and operators.", "anchors": ["feax/asd.py:operator_assembler", "feax/asd.py:_csr_producer", "feax/asd.py:reduced_operator_pattern", "feax/asd.py:sparse_jacobian_fn", "feax/asd.py:_csr_slots", "feax/flat/solver.py:_create_direct_homogenization_solve"]}
{"id": "C124", "title": "Verdict on the CSR pattern", "statement": "verify_jacobian_pattern reports ok exactly when every detected dependency of the residual has a slot in the problem's CSR pattern; num_detected, num_pattern and num_missing count positions; when ok, every matrix whose nonzeros were detected fits in the pattern; triangular storage is refused.", "quantifier": "all problems, patterns and detected sets", "why_tests_cant": "A test runs it on one mesh where nothing is missing.", "anchors": ["feax/asd.py:verify_jacobian_pattern", "feax/asd.py:connectivity_pattern"]}
{"id": "C125", "title": "Extra residual terms: step, convergence, adjoint", "statement": "With extra_residual_fn, a converged state has the prescribed values and balances problem residual plus extra term at every other unknown. On the Krylov path and on the direct path alike, a solver that solves the system it is given yields the exact Newton step of the combined problem, and the reverse rule's vector solves the transposed system of the boundary-modified combined residual (columns kept), for both eliminations. The direct path refuses triangular storage; the Krylov path must not multiply by half of a matrix.", "quantifier": "all problems, extra terms, boundary conditions, iterates, backends, colourings and covering sparsity patterns", "why_tests_cant": "Tests run one small contact-like term; a coupling between free and constrained unknowns, a slot conflict of the merged pattern or a storage view shows only for particular terms.", "anchors": ["feax/solvers/newton.py:create_newton_solver", "feax/solvers/newton.py:_create_assembled_extra_newton_solver", "feax/solvers/newton.py:_create_differentiable_newton_solver"]}
{"id": "C126", "title": "Rebuild rule of the AMG preconditioner", "statement": "With rebuild_every = k the Newton loop builds a hierarchy exactly at iterations that are multiples of max(1, k), and every solve uses the one built from the state of the latest such iteration; with rebuild_every = None every direction comes from a hierarchy of the current tangent, or from an earlier one whose linear residual met lag_tol. Whatever the rule, the reported norm is that of the returned state, which is the guess or strictly better, and the flag says exactly whether a tolerance was met.", "quantifier": "all residuals, preconditioners, solvers, options and numbers of iterations, NaN included", "why_tests_cant": "Tests count builds of one run; staleness and NaN depend on the history of the run.", "anchors": ["feax/solvers/newton.py:_create_amg_rebuild_newton_solver"]}
{"id": "C127", "title": "Periodic solves with direct or AMG options solve the same reduced equations, and their gradients are exact", "statement": "A solver created with a prolongation P gives guess + P x with PᵀJP x = -Pᵀr, whether the operator is applied matrix-free (Krylov options) or assembled (direct/AMG options, either side): the assembled matrix is exactly PᵀJP for the tangent J after symmetric elimination. When PᵀJP has trivial kernel all options agree. For linear problems the result meets the prescribed values and is in equilibrium with respect to every periodic variation, and for a symmetric tangent the cotangent returned for a traced parameter is the derivative of the objective through the solve. Triangular storage with assembled options is refused at construction.", "quantifier": "every problem, prolongation (tied copies or rotations), boundary condition on used DOFs, guess, colouring, combination of forward and adjoint options, linear solver that solves the one system it is handed, differentiable one-parameter family", "why_tests_cant": "a test checks one mesh and one pair of options; a wrong pattern, a colour conflict or a stale operator changes entries only for some meshes, pairings or boundary conditions", "anchors": ["feax/solvers/reduced.py:create_reduced_solver", "feax/solvers/reduced.py:_create_assembled_reduced_solver", "feax/solvers/reduced.py:_make_reduced_side_solve", "feax/asd.py:operator_assembler", "feax/asd.py:reduced_operator_pattern"]}
{"id": "C128", "title": "The AMG near-null space is the space of rigid body motions", "statement": "rigid_body_modes returns dim(dim+1)/2 vectors exactly for a single displacement field in two or three dimensions and nothing otherwise. Without boundary condition they are rigid motions, they span all rigid motions, they are linearly independent unless the nodes coincide (2D) or lie on a line (3D), the rotations are centred, and for a material without stress under rotation they have zero residual. With a boundary condition the constrained entries are zero. Presets resolve as documented (default, constant, rigid_body_modes, adaptive, array) and impossible requests are refused. With a periodic prolongation the modes are projected to class means, which is exact for the translations.", "quantifier": "every mesh, dimension, number of components, boundary condition, preset, user array, prolongation that ties unknowns in classes", "why_tests_cant": "a wrong sign or stride in a mode leaves the solver converging, only slower, so a test on one mesh does not see it; independence and completeness are statements about all node positions", "anchors": ["feax/solvers/amg.py:rigid_body_modes", "feax/solvers/amg.py:_resolve_near_nullspace", "feax/solvers/amg.py:build_amg_preconditioner", "feax/solvers/amg.py:_default_num_candidates", "feax/solvers/reduced.py:_create_assembled_reduced_solver"]}
{"id": "C129", "title": "The AMG solver with rebuilt hierarchies takes exact Newton steps and uses the true adjoint", "statement": "With AMGSolverOptions and hierarchies rebuilt during the iteration, whichever hierarchy an iteration keeps or rebuilds, a Krylov solve that succeeds gives the exact Newton step of the problem: prescribed unknowns go to their values and every other equation vanishes to first order; a guess with the prescribed values gives a result with them. The reverse rule solves the transposed system of the boundary-modified residual at the returned state. Every hierarchy is built from exactly the matrix the Krylov method multiplies by, forward and adjoint.", "quantifier": "every problem, boundary condition on used DOFs, guess, elimination, rebuild rule, multigrid builder and Krylov method that solves the systems of the iterations that take place, cotangent", "why_tests_cant": "a preconditioner from the wrong matrix or a stale one only slows convergence, and a step or an adjoint for a slightly different system still converges on the symmetric example of a test", "anchors": ["feax/solvers/newton.py:_create_amg_rebuild_newton_solver", "feax/solvers/newton.py:_create_differentiable_newton_solver", "feax/solvers/amg.py:make_self_preconditioned_amg_solve", "feax/solvers/amg.py:_to_scipy_csr"]}
{"id": "C130", "title": "Mesh cells carry the right orientation, size and integration weights", "statement": "check_mesh_TET4 returns, for every tetrahedral mesh and cell by cell in order, the number whose product with the reference weight is the integration weight of the cell at each quadrature point; so it is positive exactly for cells integrated with positive weights, negative exactly for inverted ones, and equals six times the volume. Every cell of rectangle_mesh, for each element type offered, has at every quadrature point the weight of one subdivision, none is inverted, and over the mesh the weights sum to the area and the first moments to those of the rectangle.", "quantifier": "all point lists and tetrahedra; all numbers of subdivisions, side lengths, origins and element types of rectangle_mesh; all quadrature rules (with the stated sums) over every field of characteristic zero", "why_tests_cant": "Integration weights depend on every node coordinate of every cell and on mesh generator, node ordering and shape functions together; tests sample a few meshes.", "anchors": ["feax/mesh.py:check_mesh_TET4", "feax/mesh.py:rectangle_mesh", "feax/fe.py:FiniteElement.get_shape_grads"]}
{"id": "C131", "title": "GPU and matrix-free buckling solvers from the matrices to the modes", "statement": "create_linear_buckling_solver(solver='cudss') works with the symmetrised stiffness and the geometric stiffness of the free DOFs, whatever the numbering. What bf returns has num_modes rows: finite factors first, ascending and above 1e-12, with modes that vanish on constrained DOFs and have unit stiffness energy, then infinite factors with zero modes; with a tolerance the first pair meets it. With as many Arnoldi steps as free DOFs the pairs are exact modes and no lower factor is missed, each as often as it has independent modes. The matfree solver returns ascending factors with their modes and refuses exactly when there is none or the first misses the tolerance.", "quantifier": "all stored matrices and sets of free DOFs, all starting vectors, numbers of modes, steps and tolerances; all library routines that keep their contracts on the matrices handed to them", "why_tests_cant": "The reduction is an index gather over any sparsity pattern, and whether a factor is missed depends on spectrum, starting vector and breakdown of the iteration; tests on a GPU see a handful of structures.", "anchors": ["feax/solvers/eigen.py:_create_cudss_bf", "feax/solvers/eigen.py:_matfree_buckling", "feax/solvers/eigen.py:create_linear_buckling_solver"]}
{"id": "C132", "title": "Reusing one factorisation for forward and adjoint solve changes neither", "statement": "With reuse_factorization=True the linear solver factorises once and uses the factors for both passes. This happens exactly when both sides are direct, the forward one is cuDSS and the matrix is declared symmetric or SPD. For a linear problem with a symmetric non-singular tangent, the solution has the prescribed values and zero residual at free DOFs, and the adjoint vector (so every gradient) equals the one computed by an independent transposed solve. A non-symmetric operator, including symmetric_elimination=False, must fall back to two factorisations.", "quantifier": "all linear problems, storage views, boundary conditions, guesses, cotangents and factorisation libraries that solve the matrix they are given", "why_tests_cant": "tests need a GPU and compare a few problems; the equality is over all symmetric operators, and the failure only appears for the combination of automatic choice and row elimination", "anchors": ["feax/solvers/linear.py:create_linear_solver", "feax/solvers/linear.py:_factor_and_solve", "feax/solvers/options.py:DirectSolverOptions.reuse_factorization"]}
{"id": "C133", "title": "symmetric_elimination is honoured by every solver create_solver returns", "statement": "create_solver(..., symmetric_elimination=False) returns a solver that eliminates only the boundary rows (keeps the coupling of prescribed to free unknowns), True one that eliminates rows and columns, whichever path (linear, Newton, AMG, extra residual) is taken.", "quantifier": "all accepted requests to create_solver without a prolongation, all runtimes", "why_tests_cant": "the flag combines with every option type, runtime and path; a test of a few combinations does not see the one where it is dropped", "anchors": ["feax/solver.py:create_solver", "feax/solvers/linear.py:create_linear_solver", "feax/solvers/newton.py:create_newton_solver"]}
{"id": "C134", "title": "Jacobi preconditioning divides by the shifted diagonal of the operator", "statement": "use_jacobi_preconditioner=True preconditions the Krylov solve by the inverse of the diagonal of the operator plus the shift (duplicate entries added, off-diagonal ones ignored), unless another preconditioner is given; the preconditioner is positive definite when the shifted diagonal is positive.", "quantifier": "all coordinate and CSR matrices, shifts, vectors and option combinations", "why_tests_cant": "all sparsity patterns including duplicates and empty rows; a missing preconditioner only shows in iteration counts", "anchors": ["feax/solvers/common.py:create_jacobi_preconditioner", "feax/solvers/common.py:_extract_sparse_diagonal", "feax/solvers/common.py:create_iterative_solve_fn"]}
{"id": "C135", "title": "A distributed launch is one consistent cluster", "statement": "python3 -m feax.distributed starts one process per configured node and one locally. All are told the configured coordinator (address and port) and the number of processes started, their process numbers are 0..n-1 each once, feax.distributed.initialize in each joins with exactly these data, all run the script with the given arguments, and the exit status reports a failure of any. A configuration the launcher rejects starts nothing.", "quantifier": "all cluster configurations, script arguments and exit statuses", "why_tests_cant": "needs clusters of every size and failing nodes; port, arguments and failures only matter on real multi-node runs", "anchors": ["feax/distributed/__init__.py:_launch", "feax/distributed/__init__.py:initialize"]}
{"id": "C136", "title": "Profiling reports describe the run", "statement": "trace_jaxpr reports how often each primitive is used; time_fn times exactly the last n_runs of warmup + n_runs calls and returns the last result; memory_snapshot reports the arrays of each device; profile_solver_py records the residual norms of the Newton iterates, at most max_iter, and says converged exactly when the returned field has a residual below the tolerance.", "quantifier": "all traced programs, run counts, sets of devices and arrays, problems, solvers and tolerances", "why_tests_cant": "all program nestings, device sets and Newton histories, including the one that ends at the last iteration", "anchors": ["feax/profiler.py:_count_primitives", "feax/profiler.py:time_fn", "feax/profiler.py:memory_snapshot", "feax/profiler.py:profile_solver_py"]}
{"id": "C137", "title": "Importing feax respects the user's environment", "statement": "Importing feax selects double precision unless FEAX_X64 says no, sets the XLA preallocation switch only if it was not set, disables constant folding unless FEAX_CONSTANT_FOLDING keeps it, never drops or reorders other XLA flags or re-enables a pass the user disabled, and importing again changes nothing.", "quantifier": "all values of the variables and all lists of XLA flags", "why_tests_cant": "all combinations of environment values and flag lists", "anchors": ["feax/__init__.py:_resolve_preallocate_env", "feax/__init__.py:_keep_constant_folding_env", "feax/__init__.py:_resolve_x64_env"]}
{"id": "C138", "title": "Periodic adaptive box meshes", "statement": "A box mesh made with periodic=True is periodic along all three axes: on each axis the far face is meshed as the copy of the near face, translated by the side length, in whatever order Gmsh lists the surfaces and although its bounding boxes are slightly enlarged.", "quantifier": "all boxes, surface numberings, orders and bounding box paddings", "why_tests_cant": "boxes of every size and position, and surface orders chosen by the mesher", "anchors": ["feax/gene/adaptive.py:_identify_periodic_face_pairs"]}
{"id": "C139", "title": "Every hook a Problem defines is used, or its absence of use is announced", "statement": "A problem is accepted exactly when its hooks determine its equations; hooks that have no effect are announced. Boundaries the problem declares but has no load for change neither residual nor tangent. A problem with only a surface load has exactly that load as residual.", "quantifier": "all combinations of hooks, numbers of variables, boundaries, faces and states", "why_tests_cant": "all hook combinations and boundary lists; wrong combinations give numbers, not errors", "anchors": ["feax/problem.py:Problem._validate_multi_variable_setup", "feax/assembler.py:create_volume_kernel", "feax/assembler.py:create_surface_kernel", "feax/assembler.py:compute_residual_vars_helper"]}
{"id": "C140", "title": "Cylinder and box generators ask for the geometry the user gave", "statement": "cylinder_mesh meshes the cylinder of the given radius and height along the given axis from the given centre, whatever the direction and length of the axis vector. box_mesh divides each edge into equal elements no shorter than the mesh size and less than twice as long (one element when the edge is shorter than the mesh size), with equal divisions on parallel edges.", "quantifier": "all radii, heights, axes, box sizes and mesh sizes", "why_tests_cant": "continuous families of axes and sizes; the exceptional axes have measure zero", "anchors": ["feax/mesh.py:cylinder_mesh", "feax/mesh.py:box_mesh"]}
{"id": "C141", "title": "Mapped nonlinear solves equal separate solves", "statement": "Mapping the traced Newton solver over parameters, boundary values or initial guesses with jax.vmap returns for every lane exactly what solving that lane alone returns, although the lanes stop at different iterations.", "quantifier": "all batch sizes, residuals, line-search outcomes and stopping iterations", "why_tests_cant": "all batch sizes and all interleavings of converged, failed and running lanes", "anchors": ["feax/solvers/newton.py:create_callback_newton_solver", "feax/solvers/direct/spsolve.py:spsolve_batched"]}
{"id": "C142", "title": "Mesh generation cleans up after itself, wherever it fails", "statement": "box_mesh, sphere_mesh, cylinder_mesh, refine_mesh, adaptive_mesh, adaptive_box_mesh, extract_volume_mesh and SDF.to_volume_mesh leave the process as they found it: whether they return or raise, at whichever outside call they fail, no Gmsh session stays open that was not open before, none that was open is closed, and no temporary file remains.", "quantifier": "all failure points, numbers of meshing calls and retries, and states of the process", "why_tests_cant": "every crash point of every function, including failures inside Gmsh and in user geometry functions", "anchors": ["feax/mesh.py:box_mesh", "feax/mesh.py:sphere_mesh", "feax/mesh.py:cylinder_mesh", "feax/mesh.py:refine_mesh", "feax/gene/adaptive.py:adaptive_mesh", "feax/gene/adaptive.py:adaptive_box_mesh", "feax/gene/mesh_extraction.py:extract_volume_mesh", "feax/gene/sdf.py:SDF.to_volume_mesh"]}
{"id": "C143", "title": "Corners, edges and faces of a unit cell", "statement": "UnitCell.corners lists the corner points of the bounding box, cell_centers lie inside it, and corner_mask, edge_mask and face_mask classify every node by the number of its coordinates that lie on the box; in 3D every node is exactly one of corner, edge, face and interior node.", "quantifier": "all bounding boxes, dimensions, tolerances and nodes", "why_tests_cant": "cells of every size and position; the default tolerances are invisible on unit cubes at the origin", "anchors": ["feax/flat/unitcell.py:UnitCell.corners", "feax/flat/unitcell.py:UnitCell.is_corner", "feax/flat/unitcell.py:UnitCell.is_edge", "feax/flat/unitcell.py:UnitCell.is_face", "feax/flat/unitcell.py:UnitCell.cell_centers"]}
{"id": "C144", "title": "Stiffness surface", "statement": "visualize_stiffness_sphere(C, file, n_theta, n_phi) writes, for every positive definite stiffness, one vertex per grid direction n, at distance E(n)/E_max in that direction and carrying E(n), so the surface touches the unit sphere and stays inside; its quadrilaterals join neighbouring grid directions and close the surface; the statistics returned are the extreme moduli of the material, with ratio at least one and exactly one for isotropic materials.", "quantifier": "all positive definite stiffness matrices, all grids with at least two lines each way", "why_tests_cant": "a wrong row order, a missed closing line or a missed extreme shows only for some anisotropies and grid sizes", "anchors": ["feax/flat/utils.py:visualize_stiffness_sphere"]}
{"id": "C145", "title": "What save_sol writes", "statement": "save_sol(mesh, file, cell_infos, point_infos) writes every field it is given, each under its name and with its rows in the order of the mesh's cells or nodes (tensors of a cell flattened row by row, scalars as one column), in cells of the mesh's type; a call without fields, or with a field that has not one row per cell or node, is refused and has no effect.", "quantifier": "all meshes of a supported cell type, all lists of cell and point fields of any shape and any conversion to single precision", "why_tests_cant": "a dropped field or a permuted row depends on the names, shapes and number of fields, which range over an infinite set", "anchors": ["feax/utils.py:save_sol", "feax/mesh.py:get_meshio_cell_type"]}
{"id": "C146", "title": "The density a finer level starts from", "statement": "run_narrowband_multires starts each finer level from the design of the coarser one: a density grid of exactly the finer level's shape, with values in [0, 1] and between the least and greatest density of the coarser level, interpolated so that uniform and affine densities are continued, more material never gives less, a level of the same shape is kept, and material keeps its place and volume.", "quantifier": "all coarse and fine shapes, all ratios including odd ones and quotients with rounding errors, all densities", "why_tests_cant": "a wrong edge sample or a shape off by one shows only for some ratios; the order and range must hold for every density", "anchors": ["feax/gene/narrowband.py:_upsample", "feax/gene/narrowband.py:run_narrowband_multires"]}
{"id": "C147", "title": "Bridges from one solve to the next", "statement": "TracedParams.node_var_from_solution(problem, sol, component, var_index) is the same bridge as Solution.node_var: the given component of the given variable at every node in node order, from the flat vector or a Solution, refusing a missing component, a variable that does not exist and a vector of another length. SparseDesign.updated(active, values) followed by traced_params(active) gives the values back, leaves every other cell alone, and writing back what was gathered changes nothing.", "quantifier": "all variable layouts, solutions, components and indices; all histories of a design store, all active sets and values", "why_tests_cant": "must hold for every layout of variables and every history of updates", "anchors": ["feax/traced_params.py:TracedParams.node_var_from_solution", "feax/solution.py:Solution.node_var", "feax/spgrid.py:SparseDesign.traced_params", "feax/spgrid.py:SparseDesign.updated"]}
{"id": "C148", "title": "Grid cells occupied by a mesh", "statement": "voxelize_mesh(grid, mesh, subsamples) returns exactly the grid cells occupied by the mesh: every cell returned contains a point of the mesh, and the cells of its nodes and of the centres of its elements are returned, as is every occupied cell once subsamples is large enough.", "quantifier": "all grids with positive spacing, all meshes of any element type, all numbers of subsamples", "why_tests_cant": "a missed cell depends on the position of the mesh in the grid, which ranges over a continuum", "anchors": ["feax/spgrid.py:voxelize_mesh", "feax/spgrid.py:StructuredGrid.voxelize"]}
{"id": "C149", "title": "A boundary specification means what is written", "statement": "DirichletBCSpec, DirichletBCConfig (with add), dirichlet_bc_config and DirichletBC.from_specs compile to the conditions the user wrote: the component names x, y, z, all (any case) or a number name that component of every field (or of variable_index only), the location function is evaluated at every node as Python would evaluate it, the value of a degree of freedom is the one of the first specification that names it, impossible components are refused, variable_index is ignored in problems with one variable, and configurations do not influence one another.", "quantifier": "all lists of specifications made from Python functions with any parameter list, component and value of any of the Python types, all meshes and fields, all programs that build configurations", "why_tests_cant": "ranges over all functions, argument types, overlaps and histories of shared lists", "anchors": ["feax/DCboundary.py: DirichletBCSpec, DirichletBCConfig.add, DirichletBCConfig.create_bc, dirichlet_bc_config, DirichletBC.from_specs"]}
{"id": "C150", "title": "Explicit integrators converge with their stated order on every smooth problem", "statement": "For every right-hand side f(y, t) with p continuous derivatives (p = 1, 2, 4 for euler, rk2, rk4) and every solution y of y' = f(y, t) on [t_start, t_end], there are a constant C and a step limit such that every run from y(t_start) whose steps (fixed or adapted) are at most H, below the limit, is at every recorded time t within C * H^p of y(t). With a fixed step size and non-zero periods the run returns, within 1e-14 dt of the end time.", "quantifier": "all smooth right-hand sides on finite-dimensional states (nonlinear and time-dependent), all solutions, all time intervals, all sequences of step sizes below the limit, all output and callback settings", "why_tests_cant": "a convergence study samples one equation at a few step sizes; the order is a statement about all equations and the limit of small steps", "anchors": ["feax/solvers/time_solver.py: ExplicitPipeline.step, run"]}
{"id": "C151", "title": "Newton's method converges near a regular solution", "statement": "Let u* solve the residual equations, with the residual twice continuously differentiable at u* and its derivative there invertible. Then there is a radius such that from every initial guess within it, with any options (Armijo constant at most 3/8, at least one trial step): with exact linear solves every line search takes the full step, the error is squared (up to a constant) at each iteration, and for every tolerance there is a number of iterations within which the solver returns, without raising, a point meeting the absolute or relative tolerance, at a distance from u* of at most a constant times its residual. The host-driven loops report convergence under the same conditions. With linear solves that leave a fraction eta < q < 1 of the residual the same holds with rate q. Away from u*, wherever the residual is differentiable and not zero and the Newton equation is solved, the line search succeeds if it may try often enough.", "quantifier": "all residuals on normed spaces of any dimension, all regular solutions, all guesses in a neighbourhood, all options and tolerances", "why_tests_cant": "convergence of an iteration for every problem and every tolerance is a limit statement; a test runs one problem to one tolerance", "anchors": ["feax/solvers/newton.py: newton_solve, create_armijo_line_search_scan, host-driven loops"]}
{"id": "C152", "title": "Gradients through a nonlinear solve are right up to the tolerance", "statement": "Differentiating a nonlinear solve with respect to parameters and prescribed values (reverse mode) gives the derivative of the solution branch: near a solution with invertible tangent, solutions for nearby parameters form a differentiable branch, and the gradient computed at the point the solver returns differs from the derivative of the objective along this branch by at most a constant times the residual of that point, hence times the tolerance.", "quantifier": "all residuals that are twice continuously differentiable in parameters and unknowns, all regular solutions, all branches through them, all points near the solution, all objectives, all tolerances and options, both eliminations, direct and matrix-free operators", "why_tests_cant": "A gradient check compares with finite differences for one problem and one step and cannot separate the error of the tolerance from an error of the rule; the bound must hold for every problem, objective and returned point.", "anchors": ["feax/solvers/newton.py:_adjoint", "feax/solvers/newton.py:f_bwd", "feax/solvers/newton.py:create_newton_solver"]}
{"id": "C153", "title": "Backward-Euler runs follow the solution without a step-size limit", "statement": "A time-stepping run with an implicit pipeline whose system is backward Euler for a problem that is one-sided Lipschitz with constant mu (zero for dissipative problems, however stiff) stays, at every row of its history, within exp(2 mu (t-a)) (initial error + (t-a)(M H + eps)) of the exact solution, where H bounds the step sizes (fixed or adapted, H mu <= 1/2), M bounds the change of the solution's velocity and eps is the solver's tolerance; one step brings any two states together up to that growth and twice the tolerance, so the result of a step does not depend on the solver's starting point beyond the tolerance.", "quantifier": "all problems, stiffnesses, solvers meeting the tolerance, schedules, step sizes and run lengths", "why_tests_cant": "a test runs one problem with a few step sizes; the claim is about every problem and every schedule, uniformly in the stiffness", "anchors": ["feax/solvers/time_solver.py: ImplicitPipeline.step, run"]}
{"id": "C154", "title": "Gradients through chains of implicit steps, with and without pseudo_time", "statement": "Differentiating a chain of implicit steps returns the derivative of the last state through all steps; with pseudo_time it performs a single adjoint solve and returns the derivative of the last step with the state before held fixed, which is the derivative through the whole chain whenever the parameters of a step do not depend on the state before (load stepping), and is not for problems with history.", "quantifier": "all designs, parameter maps, residuals, schedules and numbers of steps", "why_tests_cant": "equality of derivatives must hold for every chain length and every pipeline", "anchors": ["feax/solvers/time_solver.py: ImplicitPipeline.step, pseudo_time", "feax/solvers/newton.py: create_newton_solver (f_bwd)"]}
{"id": "C155", "title": "Newton's method with line search converges from afar", "statement": "Let the residual be twice continuously differentiable, let the states whose residual norm is at most n0 form a bounded set, and let the tangent be regular at each of them. Then, unless that set is empty, a solution exists, and from every initial guess in the set, near a solution or not, the squared residual norm decreases at least by a fixed factor Q < 1 in every iteration, no line search fails, and for every tolerance there are numbers of backtracking steps and of iterations within which the solver returns, without raising, a state meeting the absolute or the relative tolerance. For strongly monotone problems (residuals of strongly convex energies) the solution is unique, every initial guess qualifies, and the returned state is within the tolerance divided by the monotonicity constant of the solution. The host-driven loops (algebraic multigrid, hybrid, assembled extra term) accept any decrease of the residual: on such a level set they never stop before converging or reaching the limit of iterations and the residual never grows, but they need not converge, even for a strongly monotone problem.", "quantifier": "all finite-dimensional problems with a regular bounded level set, all guesses in it, all tolerances and Armijo constants c1 <= 3/8, 0 < rho < 1", "why_tests_cant": "a test starts from a few guesses of a few problems; the claim is about every problem and every guess, and about a limit", "anchors": ["feax/solvers/newton.py: create_newton_solver, newton_solve, create_armijo_line_search_scan"]}
{"id": "C156", "title": "The nonlinear solver on a discretised problem: steps and boundary values", "statement": "In every iteration of the nonlinear solver all constrained DOFs move towards their prescribed values by the same fraction, the step taken; a guess that meets them stays so, and so does the returned vector, converged or not. The direction is the Newton step of the tangent at the other DOFs if the boundary values are met or with row elimination. On a linear problem the solver then returns in one step what the linear solver returns. Calling it with new boundary values from the solution of the last solve (or from the default guess) solves the new problem.", "quantifier": "all discretised problems, boundary conditions, overrides, guesses, exact backends (direct or matrix-free) and options", "why_tests_cant": "the claims are about every iterate of every problem; a test sees a few converged results", "anchors": ["feax/solvers/newton.py: create_callback_newton_solver, create_armijo_line_search_scan", "feax/assembler.py: create_res_J_bc_csr_parametric"]}
{"id": "C157", "title": "The coarse correction of the multigrid cycle", "statement": "On every level of the structured multigrid solver the correction obtained from an exact solve on the next coarser level is the one that lowers the potential energy most among all corrections interpolated from that level. A cycle never raises the potential energy above that of the unloaded state.", "quantifier": "all bands made of whole 2x2x2 blocks of equal density, all numbers of levels, Poisson ratios, moduli, loads and clamped planes", "why_tests_cant": "solves still converge because conjugate gradients absorb a badly scaled preconditioner; tests see the final residual, not what a correction does to the energy", "anchors": ["feax/solvers/cmg.py: NarrowBandCMG._vcycle_j, _mv_j, build, es_from_rho"]}
{"id": "C158", "title": "Gradients with iterative linear solves", "statement": "If the linear solves inside the nonlinear solver are only approximate, the gradient is still right up to the errors made: the residual of the adjoint solve is passed on unchanged to the boundary-modified transposed system, whichever elimination is used, and the gradient differs from the derivative along the solution branch by at most a constant times the residual of the returned point plus the adjoint residual times the size of the solution's derivative. With Newton directions that reduce the linear residual by a fixed factor the solver still reaches its tolerance from nearby guesses, so the bound holds for what it returns.", "quantifier": "all discretised problems, regular solutions, objectives, backends with any residual, both eliminations, direct and matrix-free operators, tolerances and guesses near the solution", "why_tests_cant": "a gradient check mixes the error of the adjoint solve, of the tolerance and of the finite difference; only a bound tells which error is admissible for every problem", "anchors": ["feax/solvers/newton.py: _adjoint, f_bwd, create_newton_solver"]}
{"id": "C159", "title": "Multigrid CG never raises the energy", "statement": "Every pass of the geometric multigrid solver's conjugate gradient loop lowers the potential energy of the displacement, or leaves it, whatever the preconditioner does: allowing more passes (cg_maxit) never gives a displacement of higher energy or further in energy from the exact solution, so a solve cut short is never worse than its start. The only thing needed is that the product of residual and preconditioned residual does not fall into the tiny negative interval the 1e-30 guard leaves; on two levels of whole blocks with an exact coarse solve, and on any number of levels without sweeps, it is never negative, and with a sweep before the correction every pass made lowers the energy strictly.", "quantifier": "all grids, designs, supports, loads, starts, tolerances, numbers of sweeps, levels and passes, all coarse solves", "why_tests_cant": "a run shows the residual of one history; the residual of conjugate gradients is not monotone, so a test cannot tell a harmless rise from a wrong update, and the preconditioner is not the symmetric one the method's theory assumes", "anchors": ["feax/solvers/cmg.py: _solve_j, _vcycle_j, _smooth_j"]}
{"id": "C160", "title": "Well-posed elasticity problems", "statement": "A displacement problem of a strictly monotone material (linear elasticity with mu > 0 and lmbda >= 0 is one, in every dimension) under dead or elastic loads on a braced mesh - cells on which a strain-free displacement is rigid, joined to each other by nodes that fix a body, and supports that fix a body - has at most one equilibrium with the given boundary values. If the problem is linear it has exactly one, every system the linear solver hands to its backend has exactly one solution (assembled or matrix-free, symmetric or row elimination), and the solver returns that same displacement whatever the backend, the operator, the elimination and the guess. Every simplex element is rigid in this sense, and so is every parallelogram QUAD4 and every parallelepiped HEX8 cell with a quadrature of two points per direction, but not a QUAD4 cell with the centre as its only point; two distinct nodes in the plane and three nodes off a line in space fix a body. Isotropic linear elasticity under dead loads has exactly one equilibrium on every braced mesh, for all loads and boundary values. Every QUAD4 mesh of rectangle_mesh is braced as soon as two of its nodes are held, and so is every mesh StructuredGrid.to_mesh makes of cells connected through faces as soon as three nodes off a line are held. Conversely, where the supports leave a rigid motion no equilibrium is the only one.", "quantifier": "all meshes, elements, quadratures with positive weights, materials, loads, supports, right-hand sides, exact backends and guesses meeting the boundary values", "why_tests_cant": "a solve of one mesh that converges says nothing about uniqueness, and a singular system often goes unnoticed by an iterative solver; the claim is about all meshes and all supports", "anchors": ["feax/assembler.py: Operator, create_J_bc_csr_parametric", "feax/solvers/linear.py: create_linear_solver", "feax/problem.py: Problem.get_tensor_map", "feax/mesh.py: rectangle_mesh", "feax/spgrid.py: StructuredGrid.to_mesh", "feax/fe.py: FiniteElement.get_shape_grads"]}
