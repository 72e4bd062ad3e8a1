# Design: a Lean 4 model of feax

## Scope and trusted base

* Checker: Lean 4.33.0 kernel. Library: Mathlib, imported one module at a time.
* No axioms are added. Every theorem listed in MANIFEST.json depends on at most `propext`,
  `Classical.choice`, `Quot.sound` (checked with `#print axioms`). Purely combinatorial theorems use fewer.
* No `sorry`, `admit`, `native_decide`, `bv_decide`, `unsafe` or `implemented_by`. `decide` is used only to evaluate
  closed instances (finite tables of the code, concrete examples and counterexamples).
* What is trusted besides the kernel: that the Lean definitions under `lean/Verif/Model`, each citing the /repo lines it
  models, say what the Python code does, under the simplifications listed below and in their comments; and that the
  definitions under `lean/Verif/Spec` say what the English property says.

### General simplifications

* Floating point is replaced by an arbitrary commutative ring, field, ordered field or the real numbers, whichever is
  the weakest that the statement needs. Rounding, overflow and signed zeros are not modelled. NaN is modelled only where
  the code branches on it (an explicit `Option` or flag).
* JAX and NumPy arrays are lists or functions on indices. Indexing follows the library: NumPy raises out of range, JAX
  gathers clamp, negative indices wrap, `segment_sum` and scatters drop indices out of range. Each definition says
  which convention it uses.
* JIT compilation, tracing, devices, sharding, memory and dtype promotion are not modelled, except for integer casts and
  type tests on which the result depends.
* External libraries are parameters of the model: an arbitrary function or relation with the contract stated in the
  theorem. Direct solvers: exact solution of the system they are given. `np.linalg.inv`: an inverse. `eigh`: its
  specification. `jax.grad`/`jax.vjp`: the derivative. Basix: the Lagrange basis at the tabulated points, and quadrature
  rules with their degree of exactness. NLopt, gmsh, scipy's trees: any function with the stated contract. HDF5: a table
  of datasets in which creating an existing name raises.
* Python exceptions are values (`Except PyErr`). `while` loops are recursions with a number of steps; termination is
  proved separately where it holds.

### Layout of the development

* `Verif/Spec/*.lean`   small independent specifications (dense sums, finite maps, boxes, weak forms ...), written
  without reference to the helpers of the model.
* `Verif/Model/*.lean`  the model of the code, one file per area, with citations.
* `Verif/Lemmas/*.lean` proof machinery only.
* `Verif/Props/*.lean`  the property theorems, each with a concrete case that meets its hypotheses. This is the part to
  read. A theorem named `Cxx_...` belongs to property `Cxx`; the suffix `_partial` marks a restricted form of a
  property that the code does not satisfy, or for which something is missing.
* `seeded/LOG.jsonl`    log of deliberately wrong edits of the model and the theorems that caught them.


## What of /repo is modelled

Lines cited by at least one definition of the model (a function cited as a whole counts with its docstring). "Left out" says what the file contains beyond that.

| file | lines | cited | model modules | left out |
|---|---|---|---|---|
| `feax/DCboundary.py` | 535 | 387 | Arr, BC, BcInput, Pytree |  |
| `feax/__init__.py` | 257 | 24 | Import | re-exports, `enable_x64`/`enable_preallocate` (they set the same switches) |
| `feax/asd.py` | 311 | 198 | Asd, AsdOps, ReducedAsm | detection and colouring by asdex (a parameter), `sparse_hessian_fn` |
| `feax/assembler.py` | 1961 | 1587 | Arr, Assembly, BC, Detect, Geometry, Helmholtz, Homog, Hooks, Kernels, Layout, Lifecycle, Matfree, Responses, Solve, Vars | sharded variants, JIT plumbing |
| `feax/basis.py` | 325 | 200 | Elements, Geometry, Mesh | quadrature rules of Basix; its bases are modelled from the definition of the elements |
| `feax/csr.py` | 172 | 109 | Arr, Csr, Pytree | BCOO conversion, dtype handling |
| `feax/distributed/__init__.py` | 185 | 75 | Distributed | the operating system (ssh, docker), YAML parsing, `gather`, `finalize`, the argument parser |
| `feax/distributed/__main__.py` | 3 | 0 | - | entry point |
| `feax/fe.py` | 438 | 187 | ElementData, Geometry, Helmholtz, Kernels, Layout, Mesh | printing, caching of shape values |
| `feax/flat/__init__.py` | 19 | 0 | - | re-exports only |
| `feax/flat/graph.py` | 333 | 209 | Graph |  |
| `feax/flat/pbc.py` | 443 | 413 | Periodic |  |
| `feax/flat/solver.py` | 447 | 248 | AsdOps, Homog, Vars | cuDSS itself, labels, warnings |
| `feax/flat/unitcell.py` | 493 | 346 | CellPoints, Periodic |  |
| `feax/flat/utils.py` | 134 | 125 | StiffnessSphere, Voigt |  |
| `feax/gene/__init__.py` | 111 | 0 | - | re-exports only |
| `feax/gene/adaptive.py` | 483 | 286 | Adaptive, Mesh, PeriodicBox, Sessions | gmsh calls |
| `feax/gene/filters.py` | 472 | 351 | Filters, Helmholtz, Projection |  |
| `feax/gene/mdmm.py` | 148 | 106 | Mdmm |  |
| `feax/gene/mesh_extraction.py` | 263 | 82 | Sessions |  |
| `feax/gene/narrowband.py` | 256 | 114 | OC, Upsample |  |
| `feax/gene/optimizer.py` | 621 | 401 | Optimizer | NLopt itself, plotting |
| `feax/gene/responses.py` | 254 | 241 | Responses |  |
| `feax/gene/sdf.py` | 950 | 544 | Sdf, Sessions |  |
| `feax/mechanics/__init__.py` | 153 | 0 | - | re-exports only |
| `feax/mechanics/cohesive.py` | 406 | 226 | Cohesive |  |
| `feax/mechanics/copv.py` | 624 | 432 | Copv |  |
| `feax/mechanics/layered_solid_element.py` | 842 | 421 | Layered, Stiffness |  |
| `feax/mechanics/orientation.py` | 840 | 609 | Orientation |  |
| `feax/mechanics/shell.py` | 706 | 487 | Orientation, Shell, Stiffness |  |
| `feax/mechanics/tmc.py` | 270 | 70 | Geometry, Tmc |  |
| `feax/mesh.py` | 1011 | 653 | Generators, Mesh, MeshQuality, SaveSol, Sessions | gmsh calls of box, sphere, cylinder generators (geometry construction is gmsh's) |
| `feax/narrowband.py` | 289 | 189 | Band, Grid |  |
| `feax/problem.py` | 846 | 441 | Arr, Assembly, Csr, ElementData, Hooks, Kernels, Layout, Lifecycle, Pytree |  |
| `feax/profiler.py` | 622 | 197 | Profiler | wall-clock values, text formatting, XLA cost analysis |
| `feax/solution.py` | 173 | 45 | Pytree, Solution | thin accessors |
| `feax/solver.py` | 416 | 369 | Options |  |
| `feax/solvers/__init__.py` | 101 | 0 | - | re-exports only |
| `feax/solvers/amg.py` | 275 | 167 | Amg, AmgOps, Options | the multigrid hierarchy (PyAMG) itself |
| `feax/solvers/cmg.py` | 500 | 304 | Cmg | the cuDSS factorisation and the inner Krylov method of the coarse solve (arbitrary coarse solver), caching of traced functions, parsing of solver options |
| `feax/solvers/common.py` | 395 | 267 | Csr, Newton, Options, Periodic, Reuse, Solve |  |
| `feax/solvers/direct/__init__.py` | 11 | 0 | - | re-exports only |
| `feax/solvers/direct/_callback_utils.py` | 148 | 104 | Direct, NestedBatch |  |
| `feax/solvers/direct/cholmod.py` | 263 | 128 | Direct, NestedBatch |  |
| `feax/solvers/direct/spsolve.py` | 204 | 41 | BatchedNewton, Direct, NestedBatch | GPU paths |
| `feax/solvers/direct/umfpack.py` | 278 | 146 | Direct, NestedBatch |  |
| `feax/solvers/eigen.py` | 869 | 534 | Buckling, CudssBuckling | ARPACK, cuDSS, matfree, Cholesky, eigh and eig themselves (specified, not modelled) |
| `feax/solvers/linear.py` | 499 | 271 | Detect, Options, Reuse, Solve |  |
| `feax/solvers/newton.py` | 1112 | 662 | AmgNewton, AmgOps, Asd, BatchedNewton, CallbackNewton, Extra, Implicit, Newton, Options, Solve |  |
| `feax/solvers/options.py` | 1010 | 736 | Detect, Options |  |
| `feax/solvers/reduced.py` | 365 | 260 | Amg, Homog, Options, Periodic, ReducedAsm |  |
| `feax/solvers/time_solver.py` | 596 | 417 | Implicit, TimeLoop |  |
| `feax/spgrid.py` | 280 | 213 | Band, Chain, Grid |  |
| `feax/traced_params.py` | 519 | 301 | Chain, Pytree |  |
| `feax/traced_structure.py` | 172 | 124 | Lifecycle, Pytree |  |
| `feax/utils.py` | 499 | 352 | SaveSol, Solve, Xdmf | VTU writer |

## Per-property plan and result

For each property: how it is modelled and proved, the modules with its theorems, and the result. The theorem names are in MANIFEST.json.

* **C01** Assembled CSR Jacobian equals the dense sum of element contributions. `segmentSum` over the slots produced by sort/run-length compression, list model; refinement to `denseSum` (sum over matching triplets). Induction on the triplet list, permutation invariance of sums. Theorems in `Assembly`. Status: proved. Production batched CSR route and reference route; real arithmetic replaced by an arbitrary commutative monoid (exact).
* **C02** CSR pattern is canonical. same model; sortedness of the key list, `indptr` as cumulative counts; refinement to the set of distinct pairs. Theorems in `Csr`. Status: proved. Canonical pattern, stored iff coupled and kept by the view, count of distinct pairs, unique slot of every raw entry.
* **C03** Batched (padded) assembly equals unbatched assembly. chunking/padding functions on lists; padded slots point to the discard slot; equality of segment sums. Theorems in `Assembly`. Status: proved. Any batch size, any padding item.
* **C04** Residual assembly is an order-independent scatter-add. segment sum is invariant under permutation of (id, value) pairs. Theorems in `Assembly`. Status: proved. Dense scatter-add specification; fused route agrees.
* **C05** Triangular matrix views store exactly one triangle. triangle filter on triplets, refinement to the triangle of the dense matrix; ring identity for the symmetric product. Theorems in `Csr`. Status: proved. Storage of UPPER/LOWER and the triangular product identity.
* **C06** CSRMatrix operations agree with dense algebra. CSR structure with `rowOfSlot`; each operation refined to dense matrix functions on Nat indices. Theorems in `Csr`. Status: proved. Any well-formed CSR matrix over a commutative ring.
* **C07** Precomputed transpose maps give the transposed matrix. stable sort by (col,row); permutation; dense transpose. Theorems in `Csr`. Status: proved. Any value array; flag implies shared arrays; full view always sets the flag.
* **C08** Global DOF numbering is a bijection. offset prefix sums; explicit inverse. Theorems in `Layout`. Status: proved.
* **C09** Solution views partition the flat solution vector. exceptions as `Except`; slices of the flat list; concatenation law. Theorems in `Layout`. Status: proved. Also proved of the code: an out-of-range component is clamped, not rejected.
* **C10** Compiled Dirichlet BC is canonical. list model of create_bc: concat, stable argsort, unique first; refinement to set of selected DOFs. Theorems in `BC`. Status: proved. Rows sorted/unique/in range, mask and value alignment, rows exactly the selected DOFs; failure exactly for wrong-arity location predicates. numpy argsort/unique modelled as stable.
* **C11** When specs overlap the earliest one wins. same; `List.find?` as specification of the winning spec. Theorems in `BC`. Status: proved. For every DOF the compiled value is that of the first selecting spec.
* **C12** Boundary rows of the eliminated Jacobian are identity rows. CSR data rewrite; dense entries; negation with a witness when the diagonal is not stored (slot -1 wraps to the last slot). Theorems in `BC`. Status: proved. Exact entrywise form for every pattern with stored diagonals at the constrained DOFs; C12_assembled discharges that hypothesis for assembled matrices whenever each constrained DOF lies in an element; C12_orphan_dof_not_eliminated shows the code really mishandles a constrained DOF outside every element.
* **C13** Boundary rows of the residual. vector update over any ring. Theorems in `BC`. Status: proved.
* **C14** Matrix-free operator equals the assembled operator. matrix-free formula against the dense eliminated matrix. Theorems in `BC`. Status: proved. Full storage; jvp/vjp are modelled as exact differentiation of the modelled residual. C14_triangular_storage_differs shows the plain product is not the operator under triangular storage (C05 gives the correct product).
* **C15** replace_vals changes only the prescribed values. record update; history by induction on list of replacements. Theorems in `BC`. Status: proved.
* **C16** A linear solve satisfies the boundary values and the interior equations. affine residual over a field, solver = any exact solution of the eliminated system. Theorems in `Solve`. Status: proved. Affine residual, any matrix view, assembled or matrix-free, backend any function that solves the system it is given.
* **C17** Overriding boundary values at call time solves the new problem. negation with a concrete 2-DOF witness; partial theorem for guesses that satisfy the new BC and for row elimination. Theorems in `Solve`. Status: partial. Full statement is false: C17_override_leaves_interior_unsolved gives a 3-node bar whose interior equation is not met after an override. Proved: constrained DOFs get the new values; interior equations hold when the guess already satisfies the new values.
* **C18** Newton iteration is bounded, reports convergence truthfully and never increases the residual. loop as fuel recursion with abstract residual/solve; invariants by induction on steps. Theorems in `Newton`. Status: partial. Bound, monotone decrease, truthful reporting and error reporting proved. Missing: a residual that is NaN at the initial guess stops the loop at once and the guess is returned without error (C18_nan_guess_returned). Floats are an ordered field with NaN.
* **C19** Armijo search returns the first acceptable step. scan fold vs `List.find?`. Theorems in `Newton`. Status: proved. Scan formulation equals first acceptable step of sequential backtracking; on failure the 1e-8 fallback step is returned with found=False.
* **C20** Adjoint with boundary conditions is the true adjoint. block elimination algebra over a commutative ring with finite index types; the linear solver's missing correction is a proved violation. Theorems in `Solve`. Status: partial. Newton adjoint proved to be the true adjoint for full storage (and matrix-free with symmetric tangent). Counterexamples proved: linear solver boundary-value gradient, triangular storage, matrix-free with non-symmetric tangent.
* **C21** Reduced (periodic) solve stays in the constrained space and enforces compatible BCs. class-count validation as in the code, linear map P. Theorems in `Reduced`. Status: partial. In-range part proved for every P. Validation, prescribed values and equilibrium proved for prolongation_matrix without chains and guesses compatible with the prescribed values; false for cyclic prolongations (C21_cyclic_partial_pin_accepted) and for incompatible guesses (C21_incompatible_guess_not_met).
* **C22** Periodic prolongation matrix identifies slave with master. integer map construction; uniqueness and surjectivity; violation: chained pairings, ignored offset. Theorems in `Periodic`. Status: partial. Proved for pairings without chains (no master is a slave of another pairing); with a chain the matrix gets a negative column (C22_chain_gives_negative_column).
* **C23** Cyclic prolongation rotates the master block. node-level version with rotation block. Theorems in `Cyclic`. Status: partial. Proved when no two masters share a slave; a shared slave is accepted and the first constraint dropped (C23_shared_slave_drops_constraint).
* **C24** 3-D periodic pairing covers the whole boundary of any box. box node sets; violation witness off the origin (faces/edges compared with 0 and L); the 2-D builder proved. Theorems in `UnitCell`. Status: partial. 2-D proved for every box; 3-D proved for boxes with lower corner at the origin; off-origin 3-D boxes leave face and edge nodes unpaired (C24_off_origin_3D_unpaired).
* **C25** Time stepping ends at the end time without overshoot. while loop as fuel recursion over an ordered field; telescoping; termination for dt>=dt_min>0. Theorems in `TimeLoop`. Status: proved. Exact arithmetic (ordered field). Termination needs growth >= 1; C25_shrinking_steps_never_end shows the hypothesis is needed.
* **C26** Time stepping output schedule. trace of saves/callbacks by induction on steps. Theorems in `TimeLoop`. Status: proved. Also proved for runs in which the pipeline raises. history.csv has no row for step 0.
* **C27** Adaptive step size stays within its bounds. bounds; violation: growth cap after clamp, initial dt not clamped. Theorems in `TimeLoop`. Status: partial. dt_min is not a lower bound as stated: the growth cap is applied after the clamp (C27_can_go_below_minimum). Upper bound, growth bound and the weaker lower bound are proved; the full bounds under dt0 >= dt_min and growth >= 1.
* **C28** Explicit integrators have their stated order on polynomial and linear problems. ring identities. Theorems in `TimeLoop`. Status: proved. Also for linear systems.
* **C29** Structured-grid numbering is a bijection. div/mod arithmetic on Nat. Theorems in `Grid`. Status: proved. Cell and node numbering is a bijection with the index box; nodes_where selects exactly the nodes satisfying the predicate.
* **C30** Structured-grid connectivity is valid. node arithmetic; injectivity. Theorems in `Grid`. Status: proved. Connectivity is in range and injective, in hex8 order (right-handed), and to_mesh returns it with every node kept.
* **C31** dilate_cells is the in-grid box neighbourhood. membership characterisation, sorted/nodup output, equality with node adjacency, additivity. Theorems in `Grid`. Status: proved. dilate_cells is the box neighbourhood clipped to the grid; dilations add; one dilation equals one ring of node adjacency.
* **C32** Narrow-band gather and scatter are inverse where they should be. list gather/scatter; dispatch on lengths; violation: coincident counts. Theorems in `Band`. Status: partial. Proved for node solutions, for cell fields on meshes of more than one cell, and for volume variables of TracedParams unless cell and node counts coincide. gather_cells raises on a one-cell mesh (C32_single_cell_gather_raises) and the shape dispatch of gather_params/scatter_params is not inverse when counts coincide (C32_params_*_fails).
* **C33** The band mesh is the restriction of the full mesh. searchsorted on sorted unique list is exact position. Theorems in `Band`. Status: proved. For meshes and structured grids, any active list.
* **C34** Superset band keeps the active band covered. protocol state machine, induction on history; monotonicity of dilation; violation for guard > margin. Theorems in `Band`. Status: partial. Proved for margin >= guard, all histories; for any margin and guard the active cells themselves are covered. With guard > margin the guard ring is not covered and re-extraction is requested for ever (C34_guard_above_margin_fails).
* **C35** SparseDesign behaves like a finite map with default. sorted association list refined to a finite map; int32 cast modelled; violation for ids >= 2^31 queries. Theorems in `Sparse`. Status: partial. Proved for all histories of updates with distinct ids and for queries within int32. Queries of 2^31 and more wrap and can return the value of another cell (C35_large_query_aliases).
* **C36** Points used to fit a grid lie in the grid. floor arithmetic over an Archimedean ordered field with floor; violation for dims mode. Theorems in `Fit`. Status: partial. Proved for fitting by cell size with the default positive padding. With dims given, or with padding 0, the maximal point of an axis gets no cell: C36_dims_excludes_maximum, C36_no_padding_excludes_maximum.
* **C37** Optimality-criteria update respects bounds and move limits. bisection as fuel recursion over an ordered field with abstract monotone candidate function. Theorems in `OC`. Status: proved. Bounds, move limits, volume bracket and termination over any ordered field; damping is an arbitrary function.
* **C38** Multiresolution ladder is coarse-to-fine and ends at the requested grid. recursion on levels with banker's rounding; violation for dims below floor. Theorems in `OC`. Status: partial. End and length proved for all arguments, coarse-to-fine order when no dim is below floor. Below floor the coarse level is finer (C38_floor_makes_coarse_level_finer).
* **C39** Batched sparse solves equal independent solves. block-diagonal CSR arrays; dense block characterisation. Theorems in `Batched, NestedBatch`. Status: partial. Stacked matrix proved block diagonal and stacked solve equivalent to the separate solves for every batch size, valid (also padded) pattern and values; UMFPACK (shared/individual values) and CHOLMOD/SciPy batched solves, with one or two batch axes, and their vmap rule return solutions of each instance for any backend whose answers solve the system it is given. Partial: under vmap, instances with different patterns are accepted and solved with the first one's pattern (witness); a solve vmapped twice raises TypeError for every pattern and batch (C39_nested_vmap_refused).
* **C40** Cached factorisations never change results. state machine with abstract backend; induction on call history with failures. Theorems in `Cache`. Status: partial. History independence of answers and exceptions for all histories, under a stated contract of the factorisation library. Partial: a call interrupted between the cache's assignments poisons later calls (witness, also with a library that checks patterns).
* **C41** XDMF time series stays consistent under failures. state machine over calls; index consistency invariant; violation: rejected frame blocks later ones. Theorems in `Xdmf`. Status: partial. Index consistency proved for all histories of calls and for re-entry; the last clause (a rejected frame does not prevent later ones) is false: proved that every later call of the session is then rejected; a 4-component field makes the exit fail without an index.
* **C42** Merged sparsity patterns carry the sum of two operators. sorted union; slot lookup; dense sum. Theorems in `Merge`. Status: partial. Canonical union pattern for any storage order/duplicates, sum of two CSR matrices on the merged pattern and its transpose, for all shapes and values. Partial: a scipy pattern with a stored zero makes the merge raise (witness).
* **C43** Generated rectangle meshes are valid. arithmetic connectivity. Theorems in `Mesh`. Status: proved. All Nx,Ny>=1, all three element types; exact arithmetic for coordinates.
* **C44** Contiguous reindexing keeps the geometry. unique + inverse map. Theorems in `Mesh`. Status: partial. box/sphere/cylinder/_extract_tet4 assume node tag t sits at position t-1: proved under that condition, refuted without it; refine_mesh (which remaps tags) proved for every numbering.
* **C45** from_gmsh imports every cell of the requested type. fold over blocks; violation: last block wins. Theorems in `Mesh`. Status: partial. Only the last block of a type is kept: proved for one block per type, refuted for two; automatic choice and rejection proved.
* **C46** Boundary face selection. filter over all (cell, face) pairs. Theorems in `Mesh`. Status: proved. Criterion is all vertices of the face (the docstring of count_selected_faces says centroid). Node numbers assumed in range.
* **C47** Assembly scratch lifecycle. state machine. Theorems in `Lifecycle`. Status: proved. TracedStructure.from_problem, free_assembly_scratch and the slot-sort caches as a state machine over the problem attributes; all histories of build/free/assemble. The residual-only path reads arrays that are never released.
* **C48** Solver option resolution picks an available and admissible backend. decision tables over finite enumerations with arbitrary availability; violation: restart dropped. Theorems in `Options`. Status: partial. Selection, admissibility, error-iff-none, explicit choice kept: proved. Fails: triangular storage handed to a general LU backend, GMRES restart dropped by automatic selection, order=None documented but refused.
* **C49** create_solver honours or rejects its option combination. decision logic; violations: symmetric_elimination ignored when linear, linear=False ignored with P. Theorems in `Dispatch`. Status: partial. All accepted non-reduced requests honoured outside three listed combinations; contradictions raise. Fails: linear=True ignores symmetric_elimination=False; P never iterates; rebuilding AMG drops the extra residual and the adjoint options.
* **C50** Topology-optimisation schedule. transition system with nondeterministic inner optimiser; invariants by induction. Theorems in `Optimizer`. Status: proved. Exactly max_iter evaluations numbered 1,2,...; parameters value_at(k-1); remeshes at the first n_adapts_max multiples; optimiser objects never reused across a change. For any inner optimiser that makes between 1 and budget evaluations per call.
* **C51** Continuation values stay between initial and final. ordered ring; violation when step points away from final. Theorems in `Optimizer`. Status: partial. Starts at initial, never passes final, monotone, eventually final for steps towards final; between initial and final for such steps. The documented clamp fails for steps that lead away: C51_not_clamped_to_initial.
* **C52** Equality constraints expand to the intended band. ordered ring. Theorems in `OptConstraints`. Status: proved. Feasibility of all registered constraints iff the declared ones hold, with the optimiser's tolerance; gradients match values; other types raise.
* **C53** Density filter is a bounded averaging. weights over an ordered field; violation of mass preservation. Theorems in `Filters`. Status: partial. The filtered value is the weighted mean with the linear hat weights (formula, weights), is bounded by the extremes, linear, monotone and exact on constants for every batch size and mesh when the radius is positive. Two parts of the claim are false of the code and their negations are proved: the sum (mass) of the field is not conserved near a boundary (C53_mass_not_conserved) and a zero radius returns the zero field (C53_zero_radius).
* **C54** Sensitivity filter computes the stated weighted average. sum over offsets vs sum over neighbours. Theorems in `Filters`. Status: proved.
* **C55** Gradient refinement uses the true element gradient. 3x3 linear algebra; violation witness. Theorems in `Adaptive`. Status: partial. False of the code for elements whose edge matrix is not symmetric: it applies the inverse transpose where the inverse is needed (C55_gradient_transposed). Proved: the correct gradient on elements with a symmetric edge matrix, zero gradient for constant fields, the nodal averaging, and the range of the normalised result for all fields and meshes.
* **C56** Volume-variable classification is consistent. decision on shapes; violation at coincident counts. Theorems in `Vars`. Status: partial. Values handed to the constitutive function by assembly are the intended ones whenever no field has as many nodes as there are cells (C56_assembly_partial); the energy and average-stress routes agree for scalar nodal data of field 0, per-cell and per-quadrature data (C56_energy_partial, C56_routes_agree_partial). Violated, with witnesses: equal node and cell counts (C56_ambiguous_assembly, C56_ambiguous_energy), nodal data of another field in the energy (C56_second_field_energy), rank-0 data (C56_scalar_refused), per-cell vectors (C56_cell_vector_truncated).
* **C57** Edge-list and adjacency-matrix lattice descriptions agree. adjacency as function; lists of pairs. Theorems in `Graph`. Status: proved. For simple undirected graphs (no loops) with num_nodes given. Outside: C57_loop_lost, C57_lower_triangle_ignored, C57_isolated_node_lost show what happens.
* **C58** Pytree flatten/unflatten round-trips. records and tuples. Theorems in `Pytree`. Status: partial. TracedParams: C58_params_{roundtrip,leaves,map,structure,lane,stack_ok} and replacements; TracedStructure, DirichletBC, CSRMatrix, Solution round trips; Problem as constructed (C58_problem_roundtrip_partial, any subclass state computed from the fields). Violated for Problem attributes assigned after construction: C58_problem_later_lost.
* **C59** Krylov results that miss the tolerance are flagged. ordered field with an explicit NaN case. Theorems in `Newton`. Status: proved. Any operator product and norm; NaN modelled as none.
* **C60** Initial increments satisfy the boundary rows. vectors over a ring. Theorems in `Reduced, Solve`. Status: partial. Proved without a prolongation. With a prolongation the increment is met only where a class has one constrained DOF (C60_x0_prolonged_partial); tied constrained DOFs overshoot by the size of the class (C60_tied_rows_overshoot).
* **C61** Fused residual+Jacobian assembly equals separate assembly. same slots, pair of segment sums. Theorems in `Assembly`. Status: proved.
* **C62** Constraint terms of the multiplier method. ordered field, abstract square root. Theorems in `Mdmm`. Status: partial. Update signs, ascent in the multipliers, initial infeasibility, combine. Violated: an inequality constraint that starts violated keeps slack 0 for ever and acts as an equality (C62_violated_start_is_equality).
* **C63** Directional Young's modulus. finite sums / ring identity. Theorems in `Voigt`. Status: proved. np.linalg.inv is assumed to return an inverse.
* **C64** Host-driven Newton loops are bounded, strictly decreasing and report truthfully. the host loop of the matrix-free/AMG Newton solver as fuel recursion; invariants by induction on steps; the case of zero iterations is a violation. Theorems in `Newton`. Status: partial. Missing: max_iter=0 with an unconverged guess raises UnboundLocalError (C64_zero_iterations_fails) instead of returning.
* **C65** Multiresolution runs the requested iterations on the requested grid. the level plans as a recursion over the ladder; offsets by telescoping. Theorems in `OC`. Status: partial. Proved for every ladder as run; with a one-level ladder the requested grid runs coarse_iter instead of n_iter iterations (C65_single_level_ignores_n_iter).
* **C66** Moving-band loop never solves with a stale band. the moving-band loop as a transition system; invariant: the handle in use was built for the active set. Theorems in `OC`. Status: proved.
* **C67** Concurrent solves sharing a factorisation cache do not mix. interleavings of factorise/solve steps over an abstract library; serial schedules proved, an overlapping schedule is the counterexample. Theorems in `Cache`. Status: partial. Serial schedules in any order give every call its own answer; overlapping factorise/solve steps mix matrices (witness).
* **C68** Output files name the element type of the mesh. table of inferred types against the table of feax types. Theorems in `Xdmf`. Status: partial. Type is guessed from the number of nodes per cell; plane QUAD8 is written as HEX8 (refuted), QUAD9/HEX27 are rejected.
* **C69** The dead-load fast path never changes the tangent. zero-surface detection on two probing states; sound for constant tangents, witnesses otherwise. Theorems in `Detect`. Status: partial. Sound when the surface tangent depends neither on load parameters nor on the state (C69_constant_tangent_partial). Violated otherwise: a Robin coefficient that is zero in the sample (C69_zero_sample_parameter), contact not reached by the probes (C69_stop_taken_for_dead).
* **C70** The detected matrix property is right. probing product and diagonal test over an ordered field with an abstract norm. Theorems in `Detect`. Status: partial. Symmetric is never reported general, SPD is always recognised, and what each verdict implies. The converse fails: C70_indefinite_taken_for_spd, C70_nonsymmetric_taken_for_spd.
* **C71** The optimisation history has one row per evaluation. history columns as an association list; constraint expansion. Theorems in `OptConstraints`. Status: partial. For distinct names (including the added _lb names). Violated on a collision: C71_colliding_names.
* **C72** Passive nodes are pinned and the initial design is admissible. bounds and pinned indices over an ordered field. Theorems in `OptConstraints`. Status: partial. Bounds exact; initial design admissible if the design it is made from is. Violated: default design below the lower bound for a small target (C72_default_design_out_of_bounds); stale indices after a remesh with the same number of nodes (C72_stale_indices).
* **C73** Field transfer interpolates. barycentric interpolation among the nearest candidates; linear fields by uniqueness of barycentric coordinates. Theorems in `Adaptive`. Status: partial. Exact for linear fields at points contained in a candidate, for whole meshes of at most eight elements; bounds and clip for all inputs. False in general: the containing element need not be among the eight nearest centroids (C73_containing_element_missed).
* **C74** Adaptive element size follows the refinement field. size field: clip and affine map over an ordered field. Theorems in `Adaptive`. Status: partial. Bounds for all fields; the interpolation for every non-uniform field. A uniform field is ignored (C74_uniform_field_ignored).
* **C75** Node-count tuning terminates and keeps the grading. remeshing loop with an arbitrary mesher; bisection invariants. Theorems in `Adaptive`. Status: proved. The mesher is an arbitrary deterministic function of the two sizes.
* **C76** Lattice indicator is the union of the struts. unit-cell density of a lattice: membership in a union of capsules, squared distances. Theorems in `Graph`. Status: proved. Distances are compared squared, which is the same for a non-negative radius.
* **C77** Uniform and solved coefficients reach the quadrature points unchanged. volume-variable constructors and their later reading. Theorems in `Pytree`. Status: partial. C77_uniform_partial and C77_solution_value_partial need that no mesh has as many nodes as cells; C77_uniform_violated is the counterexample. C77_solution_array and C77_ambiguous_solution hold without it.
* **C78** Patch test. Basix tabulation of all element types as explicit polynomials; partition of unity, nodal values and derivative sums as ring identities. Theorems in `Geometry`. Status: proved. Every supported element type, arbitrary points and meshes, exact arithmetic in any field. For QUAD8 and HEX20 the Basix basis is modelled from its documentation (vertex values and edge averages).
* **C79** Reference elements and node order. order tables, face tables and nodal geometry; decision by kernel evaluation of finite tables, polynomial identities over any field. Theorems in `Elements`. Status: partial. All statements for the Lagrange types; node orders, face tables, partition of unity, coordinates, gradients and face traces for all nine types. Refuted: on QUAD8 and HEX20, for the degrees of freedom Basix documents (edge averages), the field at a midside node is 3/2 of the stored value less a quarter of the corner values (C79_serendipity_midside_not_nodal; corner nodes and the trace on edges are settled by C79_serendipity_nodes_partial and C79_serendipity_edge); HEX27 is refused (C79_hex27_refused); Gmsh's TET10 order, which refine_mesh says matches meshio, does not (C79_gmsh_tet10_order). Quadratic types overshoot (C79_quadratic_overshoot).
* **C80** Second derivatives of shape functions. mapped gradients and weights; affine cells by linear algebra, a trapezoid as witness. Theorems in `Elements, Geometry`. Status: partial. Exact on affine images of the reference cell for every element type (affine fields) and for TRI6, TET10, QUAD9 (quadratic fields). On other straight-edged cells it fails: C80_trapezoid_violated. On QUAD8 the nodal values of a quadratic field give one and a half times its curvature (C80_serendipity_curvature_wrong), for the degrees of freedom Basix documents.
* **C81** Integration measures. face scale by Nanson formula; equality with edge length / face area. Theorems in `Geometry`. Status: proved. Exact arithmetic; face normals and facet directions of Basix enter as hypotheses of C81_edge_measure and C81_face_measure. On inverted cells the measures are negative (C81_inverted_cell_negative).
* **C82** The assembled residual is the weak form. weak-form kernels as finite sums over quadrature points; the assembled residual tested with any field equals the weak form. Theorems in `Kernels`. Status: proved. Kernels, the flattening and slicing of multi-variable element vectors and the scatter are modelled; shape values, gradients and weights enter as data per cell (their relation to the mesh is C78-C81). Exact arithmetic in any commutative ring.
* **C83** Global balance of forces and moments. test fields of rigid motions; discrete equilibrium by partition of unity and skew symmetry. Theorems in `Balance`. Status: proved. Stated for the displacement variable of problems with any number of variables, under consistency of its shape functions; C83_every_mesh discharges that for one-variable problems on every supported element type. Exact arithmetic.
* **C84** Residual of an energy density is the gradient of the energy. derivative of the discrete energy along any direction with Mathlib derivatives; jax.grad by its specification. Theorems in `Energy, FormEnergy`. Status: proved. jax.grad is a function assumed to be the derivative of the density (IsGradientOf); exact real arithmetic.
* **C85** Compliance. element data and response integrals as sums; work identities. Theorems in `Responses`. Status: partial. Work identities proved for one-variable problems with surface maps. Refuted: numpy arrays of parameters are not split (C85_numpy_array_not_split), surfaces beyond the end of surface_vars are left out (C85_dynamic_drops_surfaces), loads given as surface weak forms are ignored (C85_weak_form_loads_ignored).
* **C86** Volume fraction. volume fraction as weighted mean; bounds by convexity. Theorems in `Responses`. Status: partial. Meaning, linearity, uniform densities and errors proved; range proved except for nodal densities on elements with negative shape values. Refuted: TET10 nodal densities give -1/20 (C86_tet10_out_of_range), a quadrature array is read as nodal when the sizes coincide (C86_quadrature_array_misread).
* **C87** Cohesive laws. exponential and bilinear laws over the reals; analysis with Mathlib (monotonicity, derivative, integral). Theorems in `Cohesive`. Status: partial. Exponential law: peak traction, energy range, monotonicity, fracture energy and irreversibility of the stiffness proved over the reals. Refuted: closing returns the stored energy (no dissipation), traction on reversal exceeds sigma_c, and the bilinear law has its onset at opening 1 whatever the parameters, so it exceeds Gamma whenever sigma_c > 2 Gamma (proved in general, and with the module's example parameters). C87_bilinear_partial covers sigma_c < 2 Gamma. Exact real arithmetic; floating-point rounding is not modelled.
* **C88** Cohesive interfaces. interface residual as a sum over node pairs; energy derivative; action/reaction. Theorems in `CohesiveInterface`. Status: proved. Node numbers in range and one weight and one history value per pair are assumed (JAX would clamp or broadcast). Exact real arithmetic.
* **C89** Design variables give admissible orientation tensors. orientation tensors from angles, eigen-decomposition by specification. Theorems in `Orientation`. Status: partial. Proved with the bound 1 + 1e-6 (2e-6 in space). Refuted: the sum stays at most one (C89_trace_above_one), arrays are accepted (C89_arrays_refused, C89_array_of_one_wrong), the three-dimensional tensor is positive semidefinite (C89_tensor_3d_not_admissible; C89_tensor_3d_partial gives the two-by-two minors). eigh enters by its specification (IsEigh). Exact real arithmetic.
* **C90** Closures of the fourth-order orientation tensor. closures as polynomial maps; finite orientation distributions as specification. Theorems in `Closure`. Status: proved. Distributions are finite weighted lists of unit vectors. The documentation says the contraction is exact; with eps > 0 it holds within eps/2, which is what the property states. Exact real arithmetic.
* **C91** Stiffness tensors. Voigt stiffness and compliance, rotation of fourth-order tensors; matrix inverse by specification. Theorems in `Averaged, Stiffness`. Status: proved. np.linalg.inv is the matrix inverse; the compliance is assumed invertible where it is inverted. Exact real arithmetic.
* **C92** Orientation-averaged stiffness. Advani-Tucker average against the orientation integral of the rotated lamina stiffness. Theorems in `Averaged`. Status: proved. Distributions are finite. Stability is proved in the plane. Exact real arithmetic.
* **C93** Laminates and plates are thickness integrals, and the plate residual is the gradient of the plate energy. ABD integrals against interval integrals through the thickness; potential theorem for several fields. Theorems in `Laminate, Plate`. Status: proved. Real arithmetic instead of floating point. thicknessIntegral is Mathlib's interval integral of the piecewise function through the stack. The potential theorem asks for symmetric stiffnesses; C93_laminate_symmetric shows that laminates of symmetric plies have them. The invalid 'nonlinear' is refused when the weak form is evaluated, not when make_mindlin_plate is called.
* **C94** Layered solid elements integrate every ply exactly and pass the patch test. layered solid element: exact integrals for polynomial fields, patch statements. Theorems in `Layered`. Status: proved. Exact real arithmetic. The Gauss rules of numpy are any rules satisfying GaussRule (points in [-1,1], non-negative weights, exact to the stated degree); the two-point rule is shown to satisfy it.
* **C95** Third medium contact: energy, safe logarithm and regularisation. third-medium energy, safe logarithm and regularisation over the reals. Theorems in `Tmc`. Status: partial. Proved except: the regularisation forces are the gradient of half the documented energy (C95_documented_energy_violated), and affine motions are free only on cells that are affine images of the reference cell (see C80).
* **C96** The Helmholtz filter solves the filter equation and has the filter properties. filter problem assembled through the modelled weak form; Galerkin equation on the discrete space; existence by finite dimension, uniqueness by positivity. Theorems in `Helmholtz`. Status: partial. Proved: the returned field is the Galerkin solution (plain and periodic), solvability, uniqueness on connected meshes, linearity, constants, volume, self-adjointness, damping, smoothing. Partial: the call fails with TypeError on every mesh with as many nodes as cells (C96_equal_counts_violated); the range [0,1] is not kept (C96_range_violated: -1/6 on a square of two triangles); with the one-point rule of TRI3 a vanishing radius does not give back the density (C96_small_radius_violated); quadratic elements are taken for linear ones (C96_element_detected).
* **C97** Heaviside projection and volume-fraction threshold. logistic form of the projection, sorted percentile, sharp limit with Mathlib filters. Theorems in `Projection`. Status: partial. Proved: range, order, sharpness, sharp limit of the mean, and that the share of entries above the threshold is within one entry of the target (1/n in the limit, without ties). Partial: the documented exact volume fraction fails (C97_volume_fraction_violated: a uniform field is projected to 1/2 whatever the target).
* **C98** Signed distance fields: set operations, bounds and sampling. structural induction over trees of set operations; sampling positions from linspace; vertices by convexity of the box. Theorems in `Sdf`. Status: partial. Set meaning, evaluate, bounds, no overestimate, sampling and vertex positions proved for all trees. The documented default mesh size is not the one used: C98_default_size_doubled.
* **C99** Density fields on linear simplices. barycentric coordinates by Cramer's rule; case analysis of the candidate search; counterexamples for the boundary and for missed cells. Theorems in `Density`. Status: partial. Interpolation, exactness, range, evaluate and far points proved for points whose containing cell is among the candidates of the tree. False in general: the containing cell can be missed (C99_containing_element_missed), close_boundary does not close the surface inside the box (C99_boundary_not_closed) and the solid extends half a cell outside the mesh (C99_solid_extends_outside).
* **C100** Density fields on elements located by Newton's method. affine cells turn a Newton step into a linear recursion on the error; an invariant bounds the residual from below (failure) or one step is exact (symmetric derivative). Theorems in `DensityNewton`. Status: partial. Proved for boxes along the axes in the standard node order. False otherwise, because the Newton step uses the transposed Jacobian: square cells turned by 30 to 150 degrees (C100_turned_square_lost), every cubic cell of a structured grid (C100_grid_cube_lost, C100_grid_field_lost); evaluate and __call__ then differ (C100_evaluate_differs).
* **C101** Double-wall vessel mesh. explicit node positions from the numbering; factorised Jacobian determinant; distance to the axis is 1-Lipschitz, so layers separate. Theorems in `Copv`. Status: partial. Everything but the refusal of degenerate cells is proved for all vessels; one and two columns are refused (C101_flat_refused). A vessel closed at the pole is accepted although its cells at the pole are degenerate, since the check looks at the centres only: C101_pole_accepted.
* **C102** Double-wall vessel supports. membership in the DOF lists; six linear equations from six constrained DOFs. Theorems in `Copv`. Status: proved. Proved for all vessels with positive dimensions and at least three columns.
* **C103** Winding of double-wall vessels. explicit directions of a cell from sums of cosines; frames as rotations by an angle in the wall; induction over the layup. Theorems in `Copv`. Status: partial. Frames, angles, materials and reported directions proved for all cells and layups. The documented balance on the dome holds for an even number of hoop plies (C103_dome_balance_partial) and fails for an odd number: C103_dome_unbalanced.
* **C104** Linear buckling factors and modes. reduction to a symmetric eigenproblem through Cholesky; completeness by expansion in the eigenbasis; selection as filter and take of a sorted list. Theorems in `Buckling`. Status: partial. The dense backend is proved complete under the specification of Cholesky and eigh (C104_dense, C104_returned). The sparse backend is proved for spectra in which few other values are larger in magnitude (C104_sparse_partial) and fails otherwise: C104_sparse_misses (a factor is reported missing although it exists, and convergence is reported). A K that is not positive definite is not noticed by the dense backend: C104_dense_singular_silent. The GPU and matfree backends are C131.
* **C105** Buckling sensitivities. difference quotient of the bilinear form at an eigenpair; the cotangent as a pairing over stored entries; extended reals for inf and NaN. Theorems in `Buckling`. Status: partial. The derivative of a factor along a differentiable family and the assembled cotangents are proved. Violations: a missing mode makes every gradient NaN on the host backends (C105_missing_mode_nan), while the cudss backend is guarded (C105_cudss_guarded). At a repeated factor symmetric weights are basis independent (C105_cluster_invariant), a single member is not (C105_degenerate_ambiguous).
* **C106** Histories of calls of the buckling function. state machine over histories of uses; induction over the history. Theorems in `Buckling`. Status: partial. Proved for constant sparsity and for eager use with any sparsity. With two sparsities of equal size a compiled function answers for a matrix nobody assembled (C106_stale_pattern), and the cudss backend does so even in eager use (C106_cudss_first_pattern).
* **C107** Arnoldi iteration of the GPU buckling backend. invariant of the iteration by induction; dimension count for the full basis. Theorems in `Buckling`. Status: proved. Exact arithmetic; any operator, start and number of steps.
* **C108** Element stiffness of the geometric multigrid solver. trilinear shape functions as polynomials; 2x2x2 Gauss exact for the products; kernel by solving the strain equations. Theorems in `CmgElement`. Status: partial. Proved for the unit cube. C108_spacing_ignored: the same matrix is used whatever the grid spacing, so on a grid that is not of unit cubes it is not the stiffness of the cells.
* **C109** Multigrid levels over a narrow band. induction over levels; halving by ceil division. Theorems in `CmgLevels`. Status: partial. Violations: a floor below 1 never terminates (C109_auto_levels_diverges); the cells are sorted while the band keeps their order, so unsorted cells silently pair designs with the wrong cells (C109_design_order).
* **C110** Transfer between levels. tensor product of one-dimensional averages; a stencil node with positive weight belongs to the parent of the cell. Theorems in `CmgLevels`. Status: proved. Exact reproduction, existence of all stencil nodes, transposition.
* **C111** Coloured smoothing of the multigrid solver. block Gauss-Seidel as exact minimisation over one colour; induction over colours and sweeps. Theorems in `CmgSolve`. Status: proved. Poisson ratio strictly between -1 and 1/2; exact arithmetic.
* **C112** What the multigrid solve returns. loop invariant r = b - K u of the preconditioned iteration for an arbitrary preconditioner. Theorems in `CmgSolve`. Status: partial. Bound on the residual proved through the recurrence; C112_unconverged_silent: reaching cg_maxit is not reported. No convergence rate is claimed or proved.
* **C113** Padding of the band is invisible. simulation between the padded and the plain solver. Theorems in `CmgDesign, CmgSolve`. Status: proved. For coarse solvers that do not look at the padding.
* **C114** Sensitivities of the multigrid solver. derivative of the equilibrium equations along a path, tested with the adjoint. Theorems in `CmgDesign`. Status: proved. Differentiability of the displacement is derived, not assumed. Exact solves are part of the statement: the code uses the iterative solution for both.
* **C115** Coarse solves of the geometric multigrid solver. sums by slot are sums by key; rows of the assembled matrix. Theorems in `CmgDesign`. Status: proved. Exact arithmetic; factorisation and Krylov methods are parameters, specified by the solution they return.
* **C116** Coarse designs and loads. segment sums over the children of a coarse cell. Theorems in `CmgDesign`. Status: proved. C116_load_off_band records what happens when the documented precondition on the nodes fails; C116_not_overall_mean that two levels up the mean is of means, not of the band cells.
* **C117** Macroscopic strain cases. affine fields have constant gradients by completeness of the shape functions; strain tables entry by entry. Theorems in `Homog`. Status: proved. Cells as lists of quadrature points with nodes, shape gradients, weight and material.
* **C118** C_hom is the effective law of the cell. residual tested with a field is the virtual work; Hill's identity; solvability by orthogonality to the kernel; uniqueness of the mean stress through semidefiniteness. Theorems in `Homog`. Status: proved. The linear solver is any function that solves solvable symmetric semidefinite systems; convergence of CG is not modelled.
* **C119** Bounds on C_hom. energy minimisation among fields with the same macroscopic strain; the dual inequality pointwise. Theorems in `Homog`. Status: proved. Reuss, homogeneous and definite need that periodic fields have zero mean gradient (the cell fills its box).
* **C120** Direct homogenisation path. quadratic form of the pinned matrix; the pinned rows are recovered by testing with translations. Theorems in `HomogDirect`. Status: proved. Dense matrices; the CSR arrays of the pinned matrix are C123.
* **C121** Gradients of C_hom. derivative of the equations along a path, tested with the adjoint; Hill's identity between two parameter values. Theorems in `HomogDirect`. Status: proved. Existence of the derivative of the solution is a hypothesis.
* **C122** Dimension of the homogenisation problem. evaluation of the model with the default argument on an arbitrary plane cell. Theorems in `Homog, HomogDirect`. Status: partial. Only 2 and 3 are enforced; C122_dim_unchecked shows that the default dim=3 on a plane problem returns a 6x6 matrix whose rows 33 and 23 repeat row 22, since JAX clamps indices.
* **C123** Assembly by coloured products. the seed of a colour meets a row of the operator in one nonzero at most; slots by binary search in sorted keys; scatter writes consistent values; boolean triple product covers every nonzero path. Theorems in `AsdOps`. Status: proved. asdex is a parameter: it must return a proper colouring of the positions it is given; JVPs and VJPs are products with the Jacobian. C123_outside_pattern_wrong shows that the pattern hypothesis is needed. sparse_hessian_fn's star colouring is not modelled.
* **C124** Verdict on the CSR pattern. sorted keys are in bijection with positions; filter and count. Theorems in `AsdOps`. Status: proved. The detected set is a parameter (asdex). coverage is the ratio of two of the counts.
* **C125** Extra residual terms: step, convergence, adjoint. products with the eliminated extra Jacobian; merged matrix is the sum (C42, C123); block elimination of the constrained columns gives the correction. Theorems in `Extra`. Status: partial. Full storage (the default). C125_hybrid_triangular_wrong proves that with triangular storage the Krylov path is not refused and multiplies by the stored triangle. asdex and automatic differentiation are contracts. bc passed at solve time must constrain the rows of the construction-time bc, as the code documents.
* **C126** Rebuild rule of the AMG preconditioner. the loop is a host-driven loop (C64) for the recorded directions; induction on the iterations, carrying where the hierarchy came from. Theorems in `AmgNewton`. Status: partial. C126_nan_not_rebuilt proves that a lagged solve returning NaN is not rebuilt (nan > lag_tol is false): the loop stops there although a rebuild would converge. PyAMG itself is a parameter.
* **C127** Periodic solves with direct or AMG options solve the same reduced equations, and their gradients are exact. operatorAssembler with the boolean triple product of the connectivity pattern (C123) applied to the matrix-free product; result and adjoint by linear algebra; gradient by differentiating the reduced equations tested with the adjoint Theorems in `ReducedAsm`. Status: partial. Assembled operator = PᵀJP, result, agreement of the options and refusals for all prolongations. Missing: equilibrium for linear problems with pairings without chains only; gradient for linear problems with symmetric tangent (the code assumes symmetry and takes one linear step). The statement fails for a prescribed DOF that belongs to no element: the assembled operator has a zero row there, the matrix-free one an identity row (C127_unused_prescribed_dropped).
* **C128** The AMG near-null space is the space of rigid body motions. mode columns entry by entry; rigidity, span and independence by algebra over any ordered field; zero residual from the weak form of C83; projection by counting classes Theorems in `Amg`. Status: partial. Proved for all meshes and prolongations; zero residual for materials whose stress vanishes on skew gradients on elements that reproduce linear fields. Missing: PyAMG itself and the convergence it gives. The refusal of impossible requests fails with a prolongation: an explicit request for rigid body modes that do not exist is silently replaced by the constant near-null space (C128_reduced_request_silently_replaced).
* **C129** The AMG solver with rebuilt hierarchies takes exact Newton steps and uses the true adjoint. the loop of C126 instantiated with the assembled operators; invariant over the recorded iterations; step and adjoint from the algebra of C125 with no extra term Theorems in `AmgOps`. Status: partial. Steps, prescribed values, adjoint and hierarchies for full storage. The statement fails for triangular storage: it is accepted, the Krylov method multiplies by the stored triangle, and the adjoint is that of the triangle although the tangent is symmetric (C129_triangular_adjoint_wrong). PyAMG and the Krylov methods are parameters.
* **C130** Mesh cells carry the right orientation, size and integration weights. determinant of the cell map by C81_tetrahedron; cells of rectangle_mesh are affine images of the reference cell (C43), summed over the grid Theorems in `MeshQuality`. Status: partial. Proved: C130_check_tet4, C130_check_is_orientation, C130_swap_turns_sign, C130_rectangle, C130_rectangle_positive. The documented claim that check_mesh_TET4 returns signed volumes is false: C130_check_not_volume (the unit tetrahedron gives 1, not 1/6). Box meshes come from Gmsh and are not covered.
* **C131** GPU and matrix-free buckling solvers from the matrices to the modes. gather maps and sorted keys of the transposed pattern; Arnoldi invariants (C107) made into an orthonormal change of basis when all rows are nonzero; symmetry of K⁻¹K_g in the product of K rules out complex pairs Theorems in `CudssBuckling`. Status: partial. Proved: C131_restrict, C131_symmetrise (structurally symmetric patterns), C131_returned, C131_matfree, and C131_exact_partial (full number of steps, no breakdown). False in the code: C131_repeated_factor_missed (a double factor is reported once and inf), C131_indefinite_silent (an indefinite stiffness gives a finite factor with a zero mode and passes the convergence test). C131_triangular_storage: for a stiffness stored as a triangle the symmetrisation mixes unrelated entries.
* **C132** Reusing one factorisation for forward and adjoint solve changes neither. the linear solver with an abstract factorisation library; forward by the C16 theorem, adjoint by symmetry of the eliminated tangent and uniqueness; violations on the two-bar example Theorems in `Reuse`. Status: partial. C132_when, C132_forward_correct, C132_adjoint_same, C132_fallback hold. Violated: with automatic options create_linear_solver declares the matrix SPD whatever the elimination (C132_row_elimination_still_reuses), and the gradient with respect to boundary values is then wrong for every library that solves the forward system (C132_row_elimination_gradient_wrong). The factorisation library is assumed to solve the matrix it is given.
* **C133** symmetric_elimination is honoured by every solver create_solver returns. case analysis of the dispatch model, and the two-bar load step Theorems in `Reuse`. Status: partial. C133_elimination_partial gives the elimination for every accepted request; for linear=True the flag is dropped (C133_linear_ignores_choice) and a load step from the previous solution is then wrong (C133_load_step_wrong).
* **C134** Jacobi preconditioning divides by the shifted diagonal of the operator. segment sums of the coordinate entries; sums of squares Theorems in `Reuse`. Status: partial. C134_diagonal, C134_apply, C134_choice, C134_definite hold; the solvers returned by create_solver always hand Krylov methods a callable, for which the option is silently ignored (C134_ignored_matrix_free).
* **C135** A distributed launch is one consistent cluster. induction over the node list Theorems in `Distributed`. Status: partial. C135_consistent_cluster, C135_single_node, C135_succeeds_iff hold. Violated: the configured port is never used (C135_port_ignored), workers get no script arguments (C135_arguments_dropped), a failing worker does not change the exit status (C135_worker_failure_hidden), a node without host leaves the earlier workers running (C135_orphaned_workers).
* **C136** Profiling reports describe the run. dictionary counts and the Newton loop by induction; violations on small programs and the two-bar example Theorems in `Profiler`. Status: partial. C136_time_fn and C136_newton_record hold. Violated: nested jaxprs are not counted (C136_nested_not_counted), several devices of a platform each report all its arrays (C136_memory_counted_per_platform), a solve that converges in the last iteration is reported as not converged (C136_converged_reported_unconverged).
* **C137** Importing feax respects the user's environment. induction over the flag list Theorems in `Import`. Status: partial. C137_precision, C137_preallocation, C137_flags_preserved, C137_folding_kept, C137_idempotent hold; constant folding stays enabled if any flag merely mentions the word (C137_mention_keeps_folding). Environment values are given stripped and lower-cased, flags as words.
* **C138** Periodic adaptive box meshes. case split over the axes; last writer of each dictionary entry Theorems in `PeriodicBox`. Status: partial. C138_faces_paired and C138_translation for boxes whose sides exceed the tolerance (1e-6 in mesh units) plus twice the padding. A box whose first side is below 1e-6 silently gets no periodicity at all (C138_small_box_not_periodic).
* **C139** Every hook a Problem defines is used, or its absence of use is announced. scatter-add over positions, with JAX's clamped reads; violations on the two-bar example Theorems in `Hooks`. Status: partial. C139_validation, C139_volume_hooks_ignored, C139_idle_boundaries, C139_idle_boundaries_tangent hold. Violated: a single-variable weak form is silently unused (C139_single_weak_form_ignored), surface maps announced as ignored stop the assembly (C139_surface_map_not_ignored), a universal kernel method returning None passes the check (C139_empty_universal_accepted), get_res of a problem with only a surface load is wrong (C139_surface_only_problem_wrong).
* **C140** Cylinder and box generators ask for the geometry the user gave. Rodrigues rotation as an isometry with an inverse; floor arithmetic; case split over directions Theorems in `Generators`. Status: partial. C140_cylinder_partial for axes tilted from the vertical by more than the tolerances of the code, C140_cylinder_upright for the upward axis, C140_box_element_size, C140_edges_match. The downward axis builds the upward cylinder (C140_downward_axis_wrong). Gmsh is trusted to rotate and to mesh what it is asked for.
* **C141** Mapped nonlinear solves equal separate solves. well-founded induction on the remaining iterations of all lanes; violation on two scalar lanes Theorems in `BatchedNewton`. Status: partial. C141_lanes_independent_partial for every batched linear solve that gives each lane its own direction; C141_direct_lanes derives that for CHOLMOD, SciPy and UMFPACK with systems of any size and regular tangents, C141_scipy_lanes with NaN values for one unknown. One lane with a singular tangent makes SciPy return NaN for the stacked system, so a lane that converges alone returns NaN in the batch (C141_singular_lane_spoils_batch). jax.vmap of while_loop is trusted to be the masked loop of the model.
* **C142** Mesh generation cleans up after itself, wherever it fails. structural induction over function bodies with a failure oracle Theorems in `Sessions`. Status: partial. C142_generators_clean_partial and C142_retries_clean for the functions with try/finally, C142_extract_clean_partial for the extraction. Violated: a session the user has open is closed (C142_user_session_closed); when Gmsh cannot mesh the volume, extract_volume_mesh and to_volume_mesh leave the session open and the STL file on disk (C142_failed_extraction_leaks).
* **C143** Corners, edges and faces of a unit cell. counting coordinates on the box; induction over bit lists; bounds of a mean Theorems in `CellPoints`. Status: partial. C143_classification_partial and C143_partition for nodes that are on the box or farther from it than the tolerance; C143_corners and C143_centers_inside without condition. The relative part of the tolerance grows with the distance from the origin and the absolute one does not shrink with the cell: for cells smaller than it every node is a corner (C143_everything_is_a_corner, C143_center_is_a_corner).
* **C144** Stiffness surface. positions in the flattened grid by induction; moduli through C63; the equator is missed because 2j = 29(2k+1) has no solution Theorems in `StiffnessSphere`. Status: partial. Surface, mesh and sampled statistics proved. The extremes are those of the grid only: the default grid has no line on the equator, so E_max of a material that is stiffest along the first axis is too small (C144_default_grid_misses_axis). Exact reals; meshio is not modelled.
* **C145** What save_sol writes. induction over the fields with the dict built so far; reshaping by cases on the number of dimensions Theorems in `SaveSol`. Status: partial. Proved for fields with different names. Of two fields with one name only the last is written (C145_repeated_name_lost); a refused call can leave a new directory behind (C145_directory_left_behind); eight-node quadrilaterals and surface quadrilaterals in space are written as hexahedra and tetrahedra (C145_cell_type_guessed). meshio is not modelled.
* **C146** The density a finer level starts from. each sample of a line is a mean of two samples with weights independent of the density, and its place is exact; three axes composed Theorems in `Upsample`. Status: partial. Shape, range, affine densities, order and identity proved for all shapes and all quotients within rounding. The material moves, since the samples of both grids are aligned at the first and last cell centres (C146_moves_material), and the volume changes (C146_changes_volume). scipy's zoom is modelled by its documented linear interpolation; exact arithmetic otherwise.
* **C147** Bridges from one solve to the next. field_eq_unflatten of C09 and the map a design store represents (C35) Theorems in `Chain`. Status: partial. Proved for variables counted from the front and vectors of the right length; the store round trips in full. The bridges are not the same for negative variable indices (C147_negative_index_accepted) and for vectors of another length (C147_wrong_length). Cell ids below 2^31.
* **C148** Grid cells occupied by a mesh. samples are means of the corners of a cell; membership through C36_voxelize Theorems in `Chain`. Status: partial. Soundness and the cells of nodes and centres proved. A grid cell inside a tetrahedron is missed whatever subsamples is (C148_occupied_cell_missed), since the samples lie on the lines from the centre to the corners. Exact arithmetic.
* **C149** A boundary specification means what is written. Python-level specifications (parameter lists, argument types, list objects), reduced to the normal form of the boundary-condition model and its canonical form; counterexamples by evaluation. Theorems in `BcInput`. Status: partial. C149_as_written_partial for specifications of the documented kinds, C149_refused, C149_histories, C149_component_beyond_all_fields. Violated, silently: a location function with a default argument gets the node number in its place (C149_default_argument_overwritten); negative NumPy integers pass the check and constrain another node (C149_negative_numpy_component); variable_index is not ignored in problems with one variable, the specification is (C149_variable_index_not_ignored); a value function with several results is dealt out to the wrong nodes (C149_vector_value_dealt_out); two configurations made from one list share it (C149_shared_list).
* **C150** Explicit integrators converge with their stated order on every smooth problem. Taylor expansion of the exact solution to order p+1; stage errors expanded with the partial derivative in the state (rk4: the weighted sum of stage errors cancels); stability of a step in a ball; induction over the history of the run. Theorems in `RkOrder`. Status: proved. Taylor remainders of the solution, stage by stage, give the local error; a discrete Gronwall argument inside a tube around the solution gives the run's error. No global Lipschitz hypothesis. Exact arithmetic.
* **C151** Newton's method converges near a regular solution. Mean value inequality around the derivative; the derivative is uniformly invertible near the solution; the residual is equivalent to the error; the Armijo test holds at the full step; induction over the states of the loop. Theorems in `NewtonConverge`. Status: proved. Exact arithmetic. The direction is any function solving the linearised equation (exactly or to a relative tolerance) near the solution; the matrix-free loop's stagnation test is not included in the host-loop theorem.
* **C152** Gradients through a nonlinear solve are right up to the tolerance. the implicit function theorem of Mathlib gives the branch; the error of the adjoint gradient is the adjoint vector applied to the difference of two derivatives of the residual, Lipschitz near the solution; C20 gives the adjoint equation of the discretised solver, C151 the returned point; example: a cubic spring with moving load and support Theorems in `SolverGradient`. Status: proved. The tangent is assumed to be the derivative of the residual (automatic differentiation is trusted) and the linear solves to be exact; the residual and its derivatives are real.
* **C153** Backward-Euler runs follow the solution without a step-size limit. energy estimate for the difference of two backward-Euler systems, consistency of the exact solution by the mean value inequality, induction over the history given by C25 Theorems in `Implicit`. Status: proved. Proved for every real inner-product state space (the inner product of the mass matrix), weak form, solver meeting the tolerance in every call, and every run that returns. Exact arithmetic; that a solver meets its tolerance is a hypothesis on its answers (see C18, C151).
* **C154** Gradients through chains of implicit steps, with and without pseudo_time. induction over the chain with the chain rule; implicit differentiation of the residual for the solver's rule Theorems in `Implicit`. Status: proved. Proved for every differentiable update_vars, residual and solution map; the solver is taken to return the solution whatever it starts from, and its reverse rule to use an exact adjoint solve (C152 bounds the error of inexact ones). JAX's reverse mode and stop_gradient are modelled by chainVjp. The dropped history is a documented limit, proved with a witness.
* **C155** Newton's method with line search converges from afar. compactness of the level set gives a lower bound of the tangents and a Lipschitz constant of the derivative, hence a uniform step size that passes the Armijo test; C19 gives that the accepted step is at least as large; induction over the reached states Theorems in `NewtonGlobal`. Status: proved. Exact arithmetic and exact linear solves; the numbers of backtracking steps and iterations that suffice exist but depend on the problem, so the default limits (30 steps; max_iter) may be too small for a given one, and the solver then behaves as C18 and C19 say.
* **C156** The nonlinear solver on a discretised problem: steps and boundary values. the solved eliminated system row by row, induction over reached states, C16 and C19 for the single step, closed form of the residual norm along the direction for the violation Theorems in `CallbackNewton`. Status: partial. Proved except the last sentence, which is false under the default symmetric elimination: C156_warm_start_fails shows that every line search of the first iteration fails once the stiffness coupling exceeds a bound given by the smallest step tried, and C156_stiff_bar_fails gives a bar for which the solver with default options raises although row elimination solves it in one step. Exact arithmetic, exact backends.
* **C157** The coarse correction of the multigrid cycle. the strain of a half-size cube, Gauss points summed over eight octants, interpolation on a block, transpose of the restriction, induction over the levels Theorems in `CmgCoarse`. Status: partial. The first sentence is false: the element matrix of the unit cube is used on every level, so a coarse displacement has half the strain energy of its interpolation (C157_energy_halved), an exact coarse solve gives twice the best correction and leaves the energy as it was (C157_correction_lowers_nothing; half of it is the best one). The second sentence is false from three levels on without sweeps (C157_deeper_cycles_raise) and proved for two levels with any numbers of sweeps (C157_two_level_cycle_partial). Cycles with sweeps on three levels or more, and bands with incomplete blocks, are not settled.
* **C158** Gradients with iterative linear solves. the backend's answer solves the system for a perturbed right-hand side; C152 for that one, C151 for inexact directions Theorems in `InexactAdjoint`. Status: proved. Exact arithmetic; the matrix-free symmetric path needs a symmetric tangent and the direct path full storage, as in C20.
* **C159** Multigrid CG never raises the energy. invariant of the loop: direction times residual is at least the product the step uses; energy of a step; the cycle's energy from C157 Theorems in `CmgDescent`. Status: proved. Exact arithmetic. No rate is claimed.
* **C160** Well-posed elasticity problems. the difference of two residuals works on the difference of the displacements (C82), monotonicity makes the strain vanish, rigidity propagates cell by cell to the supports; injective square systems are solvable; affine displacements for the converse; bilinear and trilinear strains vanish when they do at the points; pull-back of strains along the affine map of a cell; neighbouring cells of a rectangle or voxel mesh share an edge or a face, so one cell's motion reaches all Theorems in `AffineRigid, ElasticEquilibrium, PlateMesh, RigidBricks, VoxelMesh, WellPosed`. Status: proved. Exact arithmetic. Rigidity of a cell is proved for simplices and for parallelogram QUAD4 and parallelepiped HEX8 cells, and is a hypothesis for other elements and shapes. Bracing of a whole generated mesh is proved for rectangle_mesh with QUAD4 and for StructuredGrid.to_mesh.

## Behaviour of the code that contradicts or limits a property

Each is a theorem about the model with a concrete witness (or a general statement), beside the theorem that holds.

* `C09_component_out_of_range_not_rejected`: An out-of-range *component* is not rejected; JAX clamps it, so component 7 of a 2-component field silently returns component 1.
* `C12_orphan_dof_not_eliminated`: For a constrained DOF outside every element, the row of the eliminated matrix is zero instead of identity, and the diagonal entry of the *last stored row*, an unconstrained one, is overwritten by `1`.
* `C14_triangular_storage_differs`: With triangular storage the plain product with the assembled matrix is not the matrix-free product; the solvers must use the triangular product of C05.
* `C17_override_leaves_interior_unsolved`: Overriding the boundary value `0` by `1` with the default initial guess, on a solver whose backend is exact: the boundary DOF gets the new value but the interior equations are not satisfied (the interior is the one of the old boundary value).
* `C18_nan_guess_returned`: A residual that is not a number at the guess is not an error; the guess is returned as the solution.
* `C20_linear_solver_bc_gradient_wrong`: Same problem, same exact backend: the linear solver's reverse rule returns `0` for the derivative of the tip displacement with respect to the boundary value; the true derivative (any `du` consistent with the equations) is `1`.
* `C20_triangular_storage_bc_gradient_wrong`: With upper storage and a direct adjoint the Newton rule's correction uses the transpose of the *stored triangle*, so the coupling is lost and the derivative with respect to the boundary value is again `0` instead of `1`.
* `C20_matfree_nonsymmetric_adjoint_wrong`: With symmetric elimination the matrix-free adjoint solves with the forward operator; for a nonsymmetric tangent the returned vector does not satisfy the transposed system.
* `C21_incompatible_guess_not_met`: Both nodes of a periodic class are pinned at `0`, so the validation passes; the caller's guess is `1` and `-1` there; the backend solves the reduced system exactly; the returned field is not `0` there.
* `C21_cyclic_partial_pin_accepted`: Node `2` is the rotated image of node `0`; both components of node `2` and component `1` of node `0` are prescribed as `0`, component `0` of node `0` is not, so the class of that unknown is pinned in part. The validation, which looks only at the last column of each row, accepts it; with a backend whose answer solves the reduced system the prescribed values are not met.
* `C22_chain_gives_negative_column`: A chain of pairings (node `0` ties node `1`, node `1` ties node `2`) is accepted, and the matrix gets an entry with a negative column: the constraint of the last pairing is not what the caller asked for.
* `C23_shared_slave_drops_constraint`: Two masters whose images coincide are accepted, and only the last one is tied to the slave; the first master's constraint `u_slave = R u_master` is dropped.
* `C24_off_origin_3D_unpaired`: For every box whose lower corner has positive coordinates exceeding its edge lengths, `periodic_bc_3D` ties no node that is not a corner of the box: a node interior to an upper face or edge is left free, without any error.
* `C25_shrinking_steps_never_end`: With a growth factor of one half the step sizes shrink, the run never gets past two of its three units of time, and the loop never ends, although every step size is positive.
* `C27_can_go_below_minimum`: A run whose step sizes chosen after steps 1 and 2 are 2 and 4, below the minimum 10, although the proposal 100 and both bounds are above it.
* `C32_single_cell_gather_raises`: `gather_cells` raises for every field of the right length.
* `C32_params_gather_after_scatter_fails`: On a mesh with as many cells as nodes, a node variable of the band (one triangle, three nodes) comes back from scatter and gather with a single entry.
* `C32_params_scatter_after_gather_fails`: On a band with as many cells as nodes inside a larger mesh (five triangles, six nodes), a node variable comes back from gather and scatter as a variable on the five cells.
* `C34_guard_above_margin_fails`: Right after re-extracting for the active cell 0, the superset is cells 0 and 1, cell 2 within two rings is not in it, and re-extraction is requested again.
* `C35_large_id_refused`: An id of `2^31` or more is refused when the design is built or updated.
* `C35_large_query_aliases`: Cell `2^32` was never assigned but `gather` returns the value of cell 0.
* `C36_dims_excludes_maximum`: A point that is maximal in the first direction, in a point set that is not flat in that direction, is reported outside the grid.
* `C36_no_padding_excludes_maximum`: The far corner of the unit cube is outside the grid fitted to it with cells of size 1/2.
* `C38_floor_makes_coarse_level_finer`: The default floor 8 makes the "coarse" level of a `(4, 4, 4)` grid finer than the grid.
* `C39_vmap_uses_first_pattern`: Two 2 × 2 systems, one diagonal and one anti-diagonal, are accepted, and the second is solved with the first one's pattern. Here the solve is exact.
* `C40_interrupted_update_poisons`: The next call with the first pattern fails although its matrix is fine, and so does every later one with that pattern.
* `C41_rejected_call_blocks_later`: Once a call has been rejected inside a session, every later call of the session is rejected, however valid: the group of the failed frame exists and its number is not advanced.
* `C41_four_components_lose_index`: A field with four components is accepted when written; leaving then raises, and no index is written at all, so the valid first frame is lost too.
* `C41_names_survive_reentry`: A writer entered a second time still insists on the field names of its first use.
* `C42_stored_zero_raises`: The sum drops the entry and looking it up raises.
* `C44_unordered_tags_wrong_geometry`: A model that lists its nodes in another order (here tag 3 before tag 2) is read without an error, and the cell gets the coordinates of other nodes.
* `C45_earlier_blocks_lost`: With two blocks of hexahedra only the second survives.
* `C48_triangular_storage_gets_lu`: Without Cholesky, a matrix of which only the upper half is stored is given to a general LU backend, which takes the stored half for the whole matrix: for `[[2,1],[1,2]]` the stored half is `[[2,1],[0,2]]`, whose solution for `b = (3,3)` is not `(1,1)`.
* `C48_restart_dropped`: With automatic selection the user's restart length is lost: whatever it is, GMRES runs with 20.
* `C48_documented_order_none_rejected`: What the option constructors accept: `order=None` is documented but refused, Hermitian types are refused.
* `C49_linear_ignores_elimination`: `linear=True` ignores `symmetric_elimination=False`: the operator chosen for the non-symmetric matrix then meets the symmetrically eliminated one, whatever the options.
* `C49_prolongation_never_iterates`: With a prolongation matrix every accepted request gets one linear solve with symmetric elimination: a nonlinear problem is not iterated, and neither the Newton controls nor `symmetric_elimination=False` have any effect.
* `C49_amg_drops_extra_residual`: With the default AMG options the extra residual is silently left out of the equation, and separate adjoint options are ignored: the accepted request solves a different problem.
* `C51_not_clamped_to_initial`: The docstring says that the value is always clamped between `initial` and `final`; with a step that leads away from `final` it leaves the interval, without bound.
* `C53_zero_radius`: With radius 0 and the default cone weight every field is mapped to the zero field, not to itself.
* `C53_mass_not_conserved`: The docstring says that the filter preserves the integral of the density field; a unit mass at the end of a bar of three nodes is filtered to less than 0.96.
* `C55_gradient_transposed`: A linear field, `x`, on one sheared element: the gradient should be `(1, 0, 0)`, the code computes `(-3, 2, 0)`.
* `C56_ambiguous_assembly`: Whatever the user means, the array is tagged as nodal but not gathered, and each quadrature point receives the row of shape function values times the entry of the cell - an array where a number is expected.
* `C56_ambiguous_energy`: On `exSquare` the energy takes a nodal field for cell data: 10 instead of the interpolated 35/2; assembly hands over an array.
* `C56_second_field_energy`: A nodal variable of the second field: assembly interpolates it on its own mesh, the energy on the mesh of the first field.
* `C56_scalar_refused`: A rank-0 array is classified as cell data "broadcast to all quadrature points", but the batched map refuses it.
* `C56_cell_vector_truncated`: A per-cell vector reaches the constitutive function as its first component only.
* `C57_loop_lost`: A loop is a ball around its node in the edge list and nothing in the matrix.
* `C57_lower_triangle_ignored`: An edge entered only below the diagonal is ignored.
* `C57_isolated_node_lost`: Without `num_nodes` the size is inferred from the edges: trailing nodes without an edge disappear.
* `C58_problem_later_lost`: Attributes assigned to a problem after its construction are lost by the round trip.
* `C60_tied_rows_overshoot`: The validation only accepts conditions that pin whole classes, and then the increment is the prescribed correction times the size of the class: the tied DOFs `1` and `2` are both prescribed `1`, and the first increment takes them to `2`.
* `C62_violated_start_is_equality`: An inequality constraint `h(x) ≥ 0` that is violated where it is initialised gets the slack 0, and no gradient step ever changes it, whatever happens to the design and to the multipliers: the constraint acts as the equality `h(x) = 0`, and a design that satisfies it strictly has a nonzero infeasibility.
* `C64_zero_iterations_fails`: With `max_iter = 0` and a guess that is not converged the code reads a loop variable that was never assigned and fails instead of returning `converged = False`.
* `C65_single_level_ignores_n_iter`: The requested grid is optimised for `coarse_iter` iterations instead of `n_iter`.
* `C67_overlapping_calls_mix_matrices`: Two calls with the same pattern on one cache, scheduled factorise, factorise, solve, solve; the first gets the solution for the second one's matrix.
* `C68_quad8_written_as_hexahedron`: A plane `QUAD8` mesh is written as hexahedra, a surface `QUAD4` mesh in space as tetrahedra.
* `C68_rejected`: Meshes with any other number of nodes per cell are rejected, among them the supported `QUAD9`.
* `C69_zero_sample_parameter`: If the sample parameters given to `create_solver` have a zero support stiffness, the surface term is taken for dead, and is then missing from the matrix of every later solve with a nonzero stiffness.
* `C69_stop_taken_for_dead`: A stop that is not reached by the two probing patterns (all displacements at most 1) is taken for a dead load, and its stiffness is missing where it is reached.
* `C70_indefinite_taken_for_spd`: `[[1,2],[2,1]]` is symmetric and indefinite, and is taken for SPD (so that Cholesky or conjugate gradients are chosen), whatever norm, probing vector and tolerance.
* `C70_nonsymmetric_taken_for_spd`: Whatever the fixed probing vector, some matrix that is far from symmetric is taken for SPD: identity plus the cross product with the probing vector.
* `C71_colliding_names`: An equality constraint `volume` and another constraint named `volume_lb` share a history column, which gets two entries, both of the same constraint, per evaluation.
* `C72_default_design_out_of_bounds`: With a normalised constraint `f ≤ 0` and the default bounds, the default initial design is 0 everywhere, which is below the lower bound 0.001: the optimiser rejects it.
* `C72_stale_indices`: A remesh that happens to keep the number of nodes pins the nodes of the new mesh that carry the old passive indices.
* `C73_containing_element_missed`: The point `(1, 1, 1)` is inside element 0 of the mesh, but eight other elements have nearer centroids: for every correct answer of the trees the transferred value of the linear field `x` is the value at the origin, 0, instead of 1.
* `C74_uniform_field_ignored`: A field that is 1 everywhere should give `h_min` everywhere (`field ≈ 1`); the size is `h_max`.
* `C77_uniform_violated`: With as many nodes as cells not even a uniform value survives: the constitutive function receives an array.
* `C77_ambiguous_solution`: A `Solution` with several fields is refused.
* `C79_hex27_refused`: `HEX27`, which `Mesh.from_gmsh` and `FiniteElement` list as supported, is refused.
* `C79_gmsh_tet10_order`: Cells numbered in Gmsh's own order, as `refine_mesh` returns them, are not in the order the shape functions use: function 8 is zero at the node Gmsh numbers 8.
* `C79_quadratic_overshoot`: On quadratic elements it can: nodal values between 0 and 1 with an interpolated value of `-1/8` inside the cell.
* `C80_trapezoid_violated`: On a trapezoid, a straight-edged `QUAD4` cell with positive Jacobian, the field `u = x` is given the mixed second derivative `-2/3`; the docstring declares the formula valid for straight-edged elements.
* `C81_inverted_cell_negative`: On an inverted cell the surface weight is negative: the sign of the Jacobian is kept.
* `C85_numpy_array_not_split`: A `numpy` array with one parameter per surface is not split: every surface gets the whole array, here the first parameter twice, although the documentation promises one entry per surface.
* `C85_dynamic_drops_surfaces`: With fewer entries in `surface_vars` than surfaces (`()` is legal for maps without parameters) the residual applies all loads, but the dynamic compliance leaves out the surfaces beyond the end.
* `C85_weak_form_loads_ignored`: Loads declared as surface weak forms are not seen: a problem without surface maps has zero compliance whatever its loads.
* `C86_tet10_out_of_range`: On a mesh of one TET10 cell, with any quadrature rule that integrates quadratic functions exactly, the nodal density that is `1` at one vertex and `0` elsewhere has volume fraction `-1/20`: the result is not "between 0 and 1".
* `C86_quadrature_array_misread`: A density given at the quadrature points is read as nodal values when the mesh happens to have as many nodes as quadrature points: a design that fills exactly the first of two triangles (a fifth of the volume) is reported as two fifths.
* `C87_closing_returns_the_energy`: No dissipation: the law has irreversibility in its stiffness only. Opened to `dmax` and then closed, the interface gives back all of the stored energy except for a fraction of order `1e-30 / δ_max²` and the jump at `δ_max`: over the whole closing path the energy released is at least `t²` times the energy spent, for every `t < 1`.
* `C87_unloading_exceeds_critical_traction`: On reversal the traction jumps above the critical traction: opened to twice the critical opening, the interface carries more than `sigma_c` just after it starts to close.
* `C87_bilinear_onset_fixed`: The onset of softening sits at opening `1`, whatever the parameters and the units.
* `C87_bilinear_exceeds_fracture_energy`: Whenever `σc > 2Γ` the stored energy exceeds the fracture energy on the way to separation, and falls back later.
* `C87_bilinear_example`: With the parameters of the module's own usage example, an opening of one half stores 2500 J/m² instead of 15.
* `C89_trace_above_one`: The bound `a11 + a22 ≤ 1` of the documentation is exceeded, by the tolerance built into the map.
* `C89_arrays_refused`: The documentation allows arrays and promises results of the same shape; arrays whose length is neither 1 nor 8 are refused, and the other two give a pair of scalars.
* `C89_array_of_one_wrong`: For the array `[-1]` of length one the result is not that of the scalar `-1`.
* `C89_tensor_3d_not_admissible`: Three-dimensional tensors built from variables in the box need not be admissible: at `x1 = x2 = x3 = 1`, `x12 = x13 = 1`, `x23 = -1` the direction `(1, -1, -1)` is negative.
* `C95_documented_energy_violated`: The regularisation forces are not the gradient of the documented energy `kr λ L² ∫ (H:::H - (1/d) L·L)`: they are half of it.
* `C96_equal_counts_violated`: Whatever the density and the radius, the call fails.
* `C96_range_violated`: On the unit square of two triangles, with radius `1/6`, a density that is `1` at one corner and `0` at the others is filtered, by any exact solver, to `-1/6` at the opposite corner.
* `C96_small_radius_violated`: On the same mesh a density concentrated at a corner shared by both triangles is filtered to the constant `1/3`, however small the radius: the one-point rule sees only the mean of each triangle.
* `C96_element_detected`: The element detected from the array shapes is right for the four linear elements and wrong for every other supported one.
* `C97_volume_fraction_violated`: A uniform density is projected at its own threshold to `1/2` everywhere, whatever the target and the sharpness.
* `C98_default_size_doubled`: The documentation gives `diagonal / resolution` as the default; the size passed to gmsh is twice that.
* `C99_boundary_not_closed`: For every mesh, a uniform density `r` gives the field `threshold - r` at every point of the bounding box (and one percent beyond it), inside or outside the elements, whatever `close_boundary` is: a solid block, sampled on its default bounds, has no surface, and notches and holes of the mesh are filled.
* `C99_solid_extends_outside`: For every mesh, a uniform density `r` extends outside the mesh by half an element: at every point whose barycentric coordinates in some candidate element are all above `-1/2`, however far outside the bounding box, the field is `threshold - r`.
* `C99_containing_element_missed`: In this mesh of positively oriented triangles the point `(15, 1/2)` lies in a triangle whose nodes all have density one, but the centroids of sixteen other triangles are nearer; the candidates and the nearest node are those the trees return. The field at the point is positive (void).
* `C100_turned_square_lost`: A point at distance at least `1e-6` from the centre of a square cell that is turned by an angle between 30° and 150° with respect to the reference square is not located by Newton's method, wherever it lies in the cell.
* `C100_grid_cube_lost`: In a cubic cell with the node order of structured grids, Newton's method locates no point at distance `1e-6` or more from the line through the centre of the cell in direction `(1, -1, 1)`. The squared distance to that line is `|q|² - (q · (1, -1, 1))² / 3`, where `q` is measured from the centre.
* `C100_grid_field_lost`: For the HEX8 mesh of a structured grid with cubic cells, a point at distance `1e-6` or more from the line through the centre of each candidate cell in direction `(1, -1, 1)` is not located in any cell: its density is that of the nearest node (or zero outside the box with `close_boundary`), not the interpolated one.
* `C100_evaluate_differs`: The value at a point and the value of the array that holds only that point differ: the failure of Newton's method is noticed in the first and not in the second. Neither is `1/2` minus the interpolated density, which is near `1/4`.
* `C101_pole_accepted`: The check is documented to assert that all Jacobian determinants are positive. It looks at the centres of the cells only: a vessel closed at the pole passes, although the cells at the pole are degenerate, their determinant being zero along a whole edge.
* `C103_dome_unbalanced`: The documentation says that the alternation keeps the dome laminate balanced. With an odd number of hoop plies it does not: a balanced layup of two helical plies and one hoop ply becomes, on the dome, two plies at `+α` and one at `-α`.
* `C104_dense_singular_silent`: When the stiffness block is not positive definite (a mechanism, a missing support) the dense solver raises nothing: every factor comes back infinite, "never buckles", with zero modes.
* `C104_sparse_misses`: Two positive factors, 1 and 2, exist; the default sparse solver, asked for two modes and with ARPACK converging exactly, reports only the first, and raises nothing: its search is by magnitude and the seven stiffening directions crowd the second factor out. The dense solver returns both.
* `C105_missing_mode_nan`: When fewer positive factors exist than were requested, the padding row (infinite factor, zero mode, see `C104_returned`) turns the whole gradient of the host solvers into NaN: every stored entry between two free DOFs gets NaN in both cotangents, whatever the incoming cotangent, even one that only looks at the first, found, factor.
* `C105_degenerate_ambiguous`: At a repeated factor the gradient of one member is not determined: two answers of the eigensolver, both orthonormal bases of genuine modes with the same factors, give different cotangents for the first factor.
* `C106_stale_pattern`: A compiled `bf` reads the pattern of whatever matrix `bf` was last called with eagerly: compile it for one operator, call it eagerly on another of the same size and number of entries, and the compiled function now answers for a matrix nobody assembled, here losing a factor, with no error.
* `C106_cudss_first_pattern`: The `cudss` closure keeps the pattern of its first call for ever: a second eager call with another pattern is answered for a matrix nobody assembled.
* `C108_spacing_ignored`: The module says its operator is identical to the one assembled on the same grid, but the element matrix is that of a unit cube whatever the spacing of the grid. On cells of side `h` the exact work is `h` times the one computed, so for `h ≠ 1` every deforming displacement gets a wrong energy.
* `C109_auto_levels_diverges`: With a floor below one the depth is never found for a grid with cells, as `⌈1/2⌉ = 1`.
* `C109_design_order`: Entry `i` of the design belongs to the `i`-th smallest cell. The band of the same cells keeps the order given, so its design is applied to the right cells exactly if that order is increasing. Nothing warns otherwise.
* `C112_unconverged_silent`: The solver does not say that it stopped at `cg_maxit`. With no step allowed every load on every design is answered by zero, without an error.
* `C122_dim_unchecked`: Fails: `dim` defaults to 3 and is not compared with the problem. For a plane problem the call succeeds; the rows of `C_hom` for `33` and `23` repeat the row for `22`, while the column for `33` belongs to a case without any macroscopic displacement.
* `C125_hybrid_triangular_wrong`: With triangular storage the product path is not refused, and multiplies by the stored triangle: although problem and extra term are symmetric, the product is not the one with the tangent.
* `C126_nan_not_rebuilt`: A lagged hierarchy whose solve returns NaN is not rebuilt under the adaptive rule (`nan > lag_tol` is false): the solve stops there, not converged, although rebuilding at that very iteration goes on to converge.
* `C127_unused_prescribed_dropped`: C127 (violation): a prescribed DOF outside every element has an identity row in the matrix-free reduced operator and a zero row in the assembled one, so a direct solve gets a singular matrix where the matrix-free solve does not.
* `C128_reduced_request_silently_replaced`: Where rigid body modes do not exist an explicit request for them is refused by the ordinary solvers, but with a prolongation it is silently replaced by the constant near-null space.
* `C129_triangular_adjoint_wrong`: With triangular storage nothing is refused, and the adjoint system is that of the stored triangle: although the tangent is symmetric and the Krylov method solves exactly what it is handed, the adjoint is not that of the problem.
* `C79_serendipity_midside_not_nodal`: On the serendipity types a field does not take the stored value at the middle node of an edge.
* `C80_serendipity_curvature_wrong`: Nodal values of `x²` on a `QUAD8` cell: the interpolated field has second derivative 3, not 2.
* `C130_check_not_volume`: The values are documented as signed volumes; for the unit tetrahedron, of volume `1/6`, the result is 1.
* `C131_repeated_factor_missed`: Two equal springs that soften alike: the factor 1 has two independent modes (every vector is one). Asked for two modes, the GPU solver returns the factor 1 once and `inf` for the second, whatever the starting vector, the number of steps and the tolerance.
* `C131_indefinite_silent`: With `K = -I` and `K_g = I` (unstable already without load) and a solver that does solve with `K` (`LDLᵀ` does not need a definite matrix), the GPU solver returns the factor 1 with a mode that is zero, and its convergence test passes for every tolerance.
* `C131_triangular_storage`: The stiffness may be stored as a triangle only; the matrix stored here is symmetric positive definite either way it is read. The symmetrisation averages its second diagonal entry (4) with the entry in the corner (0): the matrix factorised has 2 in both places.
* `C132_row_elimination_still_reuses`: C132 (the safeguard described in the source does not exist): on a machine with cuDSS, `create_linear_solver` with automatic options, reuse requested and `symmetric_elimination=False` does *not* fall back to two factorisations.
* `C132_row_elimination_gradient_wrong`: Whatever the library, as long as it solves the forward system, the reverse pass reports that the tip displacement does not depend on the prescribed value of the held node, while the adjoint system has a solution, its only one, that says the derivative is `1`.
* `C133_linear_ignores_choice`: A request with `linear=True, symmetric_elimination=False` never gets row elimination.
* `C133_load_step_wrong`: Why it matters. Incremental loading on the two bars: the condition given per call moves the held node to `1` and the solver starts from the previous solution. With the row elimination asked for, an exact backend reaches equilibrium (C16); with the symmetric elimination that is used instead, every exact backend leaves the interior out of equilibrium.
* `C134_ignored_matrix_free`: A Krylov method there always gets a callable operator (`linear.py:393-399`, `newton.py:953`), and `use_jacobi_preconditioner=True` is then without effect.
* `C135_port_ignored`: Whatever port the configuration names, every process of the launch joins at port 1234.
* `C135_arguments_dropped`: Only the local process gets them, every remote one runs without.
* `C135_worker_failure_hidden`: It is the local process's, so a failing worker goes unnoticed.
* `C135_orphaned_workers`: A node without host makes the launcher raise, but the workers of all nodes before it are already running, with no coordinator to come.
* `C136_nested_not_counted`: Two programs that differ only in the body of a loop, one of them with many more operations, are reported alike.
* `C136_memory_counted_per_platform`: Each is reported to hold all arrays of the platform.
* `C136_converged_reported_unconverged`: With `max_iter=1` the same problem is solved exactly, and reported as not converged.
* `C137_mention_keeps_folding`: Any flag that mentions constant folding without disabling it (a dump filter, a longer pass name) keeps it enabled.
* `C138_small_box_not_periodic`: When the first side is below the tolerance (a micrometre cell in metres), no axis is made periodic at all, without a message, even with exact bounding boxes.
* `C139_single_weak_form_ignored`: The weak form of a single-variable problem is never used and nothing is said: the problem is accepted and its equations are the bare number zero whatever the weak form and the state.
* `C139_surface_map_not_ignored`: A surface map in a multi-variable problem is announced as ignored, but makes the assembly stop.
* `C139_empty_universal_accepted`: A class whose `get_universal_kernel` returns nothing is accepted when the problem is made, and refused only when the equations are assembled.
* `C139_surface_only_problem_wrong`: Two bars without physics, a load 7 at the end node. The cells give one bare zero each, so the face values are read at the wrong places: `get_res` reports a load of 14 at the end and 7 at the middle node, while the fused residual of the solver has the load right.
* `C140_downward_axis_wrong`: The cylinder is built upwards, so that it shares only its base with the one asked for.
* `C141_singular_lane_spoils_batch`: Solved alone, the regular lane returns its solution; mapped together with a lane whose tangent is singular it returns NaN.
* `C142_user_session_closed`: The generators close it, on success too.
* `C142_failed_extraction_leaks`: When Gmsh cannot mesh the volume (the last of the calls before the second file, `generate(3)`, raises), the session stays open and the STL file stays on disk.
* `C143_everything_is_a_corner`: Then every node, the interior ones included, is a corner.
* `C143_center_is_a_corner`: The centre of the cube far from the origin, and that of the micrometre cube, are corners.
* `C144_default_grid_misses_axis`: The default grid (30 polar lines) has no line on the equator, so for the material above, which is stiffest along the first axis, `E_max` is less than the modulus along that axis.
* `C145_repeated_name_lost`: Of two fields with one name only the second is written, without error.
* `C145_directory_left_behind`: A refused call may leave the directory of the file behind, created before the fields are looked at.
* `C145_cell_type_guessed`: The cells of a two-dimensional mesh with eight nodes per cell, quadrilaterals, are written as hexahedra, and those of a surface mesh of quadrilaterals in space as tetrahedra.
* `C146_moves_material`: Cells are where their centres are, so a density that depends on the place alone is not continued. The density `x` over a bar of unit length comes out as `1 / (2 s)` in the first of the `t` cells, whose centre is `1 / (2 t)`.
* `C146_changes_volume`: Of three cells one solid, a third; of the six cells made from them, three tenths.
* `C147_negative_index_accepted`: The two bridges differ for a negative variable index: one counts from the end, the other raises.
* `C147_wrong_length`: The two bridges differ for a vector of another length: one refuses it, the other reads what is there.
* `C148_occupied_cell_missed`: A grid cell that lies inside a tetrahedron is not returned, however many subsamples are asked for, because the samples lie on the lines from the centre to the corners.
* `C149_default_argument_overwritten`: Refuted: `lambda pt, tol=1: abs(pt) < tol` describes the node at the origin. The code takes the second parameter for the node number, replaces the tolerance by it, and constrains nothing, without an error.
* `C149_negative_numpy_component`: Refuted: a negative component is refused if it is a Python integer, not if it is a NumPy integer. Component `-1` at the second node then constrains the second component of the first node.
* `C149_variable_index_not_ignored`: Refuted: the documentation says that `variable_index` is ignored for single-variable problems; a specification with index 1 is ignored instead.
* `C149_vector_value_dealt_out`: Refuted: a value function with several results is not refused. Its results are strung together and dealt out to the rows of the nodes: the second node gets the second component meant for the first.
* `C149_shared_list`: Refuted: two configurations made from one list are not independent: a condition added to one is in the other, and in the list of the caller.
* `C39_nested_vmap_refused`: A solve mapped twice raises `TypeError` in the host callback, for every pattern of a system with unknowns, every batch size and every right-hand side.
* `C155_host_loops_can_stall`: They accept any decrease of the residual, and this is not enough. For the strongly monotone residual `17u - 7u³ + 2u⁵`, whose only root is 0 and for which `create_newton_solver` converges from every guess (`C155_strongly_monotone`), they run from 1.04 for as many iterations as allowed, alternate between neighbourhoods of 1 and of -1, and end with a residual above 12, not converged.
* `C156_warm_start_fails`: C156 (violation): a solve continued from the solution of the last one. Symmetric elimination, linear problem, exact backend; the guess is the solution for the old boundary values, the call overrides them by `v`. Let `D` be the squared length of the change of the boundary values and `L` the squared length of the forces it causes at the free DOFs. If `2 D < rho^m (L + D)` for all step sizes tried (30 halvings: `L/D` above about `10^9`, a stiffness of 33000 in the units of the problem), every line search fails in the first iteration: the solver raises, although row elimination, or a guess with the new values, solves the same system in one step (`C156_one_step_partial`).
* `C156_stiff_bar_fails`: C156 (violation, a case): an unloaded bar at rest, of stiffness `a ≥ 10^5`, whose held end is then moved by 1 by overriding the boundary value. With the default options the nonlinear solver raises; with row elimination it returns the right answer, the bar moved by 1.
* `C157_correction_lowers_nothing`: So, on such a band, the correction from an exact solve on the next level overshoots: it leaves the potential energy as it was. Half of it lowers the energy by a quarter of the correction's coarse energy, and no correction from that level does better.
* `C157_deeper_cycles_raise`: On a hierarchy of `L` levels of whole blocks, a cycle without sweeps and with an exact last solve returns `2^(L-1)` times the best displacement the last level can give: its strain energy is `2^(L-1)` times half the work of the load instead of half of it. With three levels or more it raises the potential energy above that of the unloaded state.
