# A Lean 4 model of serac: design

The properties are listed in `properties.jsonl` (C01, C02, ...). This file says, for each one, what part of the
C++ code is modelled, how the property is proved, and what is trusted. Line numbers refer to the pinned source in
`/repo`. The code was read as text; nothing of it was compiled or run.

## Layout

* `lean/Verif/Model/*.lean` - the model. One definition per modelled function or loop; each carries a comment with the
  file and lines it models and says where it simplifies.
* `lean/Verif/Proofs/*.lean` - helper lemmas about the model.
* `lean/Verif/Props/*.lean` - small independent specifications and the property theorems, with examples that meet the
  hypotheses beside them. These are the theorems named in `MANIFEST.json`.
* `seeded/LOG.jsonl` - wrong programs that were tried against the theorems.

## Trusted base

* Lean 4.33.0's kernel and Mathlib's definitions. Axioms: at most `propext`, `Classical.choice`, `Quot.sound`. No axioms
  are added; there is no `sorry`, `admit`, `native_decide` or `bv_decide`.
* The reading of the C++ source: the tie between model and code is the citation on each definition.
* Numbers. `double` is modelled by the real numbers (or any commutative ring / field where the theorem says so), so
  rounding, overflow, signed zero and (unless a model says otherwise) NaN are *not* modelled. `int`/`uint64_t` used as an
  index is modelled by `Nat`/`Int` unless the property is about the bit pattern (C01), where `BitVec 64` is used.
* External libraries (MFEM, Axom, hypre, PETSc, Tribol, STL). Calls into them are parameters of the model, or are modelled by
  their documented effect. Each such assumption is listed with the property below.
* Not modelled at all: MPI communication, GPU paths (`.cuh`, `accelerator`), memory safety beyond the out-of-range
  outcomes that a model makes explicit, logging, file formats, output, performance.

Undefined behaviour and error exits (SLIC_ERROR, `exit(1)`, out-of-range access, null dereference, division by zero) are a
distinct outcome in the models where they can occur, not assumed away.

## Properties

Status words: *proved* - the full statement; *partial* - the code violates part of the statement or part is out of reach: a
theorem with suffix `_partial` covers what holds and, where the code violates it, a theorem proves the negation on a concrete witness.

| id | modelled code | approach |
|----|---------------|----------|
| C01 | `DoF` ctor and accessors on `BitVec 64` | bit-level algebra for all words; sign field negation |
| C02 | `decodeSignedIndex` on `Int` | case analysis, inverse function |
| C03 | `tri_id`, `quad_id`, `tet_id`, `hex_id` | closed forms related to sums over rows/layers; injectivity + counting for all p |
| C04 | `face_permutations` as a fold of table writes | final table characterised by the inverse coordinate map; permutation and group facts |
| C05 | `geom_local_face_dofs` | membership iff the lattice point lies on the face |
| C06 | `GetVDof` | arithmetic bijection |
| C07 | `Gather`, `ScatterAdd` as loops over lists | induction over the loop; transpose identity over any commutative ring |
| C08 | `bOffsets`, block gather/scatter | prefix sums; negation for `ESize` |
| C09 | `GradientAssemblyLookupTables::init` | sortedness/uniqueness; row pointer invariant by induction; negation for trailing rows |
| C10 | `Domain::of*`, `EntireDomain` | loop invariant over the entity list |
| C11 | set operators, `dof_list` | merge algorithms on sorted lists; negation for `dof_list` of combined domains |
| C12 | `dual.hpp` | expression trees, `HasDerivAt` by structural induction |
| C13 | `tensor.hpp` | polynomial identities over a commutative ring/field |
| C14 | `factorize_lu`, triangular solves | induction on n with loop invariants; negation witness with exact zero pivot |
| C15 | `solve_scalar_equation` | loop invariant over iterations with arbitrary f |
| C16 | `polynomials.hpp` recurrences | induction on the loop index |
| C17 | hard-coded nodal bases, element shape functions | polynomial identities with algebraic node relations |
| C18 | `parent_to_physical`, `physical_to_parent` | algebra over matrices |
| C19 | `ShapeCorrection`, area correction | algebra; negation for the 3D Hcurl curl |
| C20, C21 | `odes.cpp` | models of the solve step; induction over step lists; negations |
| C22 | `SetTimestepper`/`Step` | state machine, induction over call lists; negation |
| C23 | `NewtonSolver::Mult` | fuelled loop with explicit exceptions/NaN outcomes; negation for stale flag |
| C24 | trust region sub-problem and outer loop | inner-product-space algebra, loop invariants |
| C25 | boundary condition manager | refinement to a set; negation for the dropped component |
| C26 | elimination, Newton on constrained systems | matrix algebra over a field |
| C27 | checkpoint vectors, disk path | state machine refinement to a log; negations |
| C28 | state manager restart | state machine; negation for zeroing constructors |
| C29 | `adjoint_integrate` | discrete adjoint identity by induction over steps, in abstract modules; negation for velocity loads |
| C30 | heat `reverseAdjointTimestep` | same for backward Euler |
| C31 | solid materials | matrix identities, derivative at zero |
| C32 | J2 small strain | history induction |
| C33 | Piola conversion, stress functor | matrix identities |
| C34 | contact offsets | prefix sums |
| C35 | contact Jacobian/active set | algebra; negations |
| C36 | driver loop | fuelled loop with termination bound over the reals |
| C37 | input parsing | finite decision logic, list lookup |
| C38 | `addPrefix`/`removePrefix` | string lemmas |
| C39 | ring mesh | arithmetic on connectivity |
| C40 | thermomechanics stepping | state machine |
| C41 | quadrature kernels | fold over elements and points |
| C42 | sum factorisation | finite sums exchange |
| C43 | isotropic tensors | index identities |
| C44 | option decoding (`equation_solver.cpp`, `petsc_solvers.cpp` tables) | finite tables over strings, characterised for every string |
| C45 | `TimeDependent` stages, `advanceTimestep` clocks | induction over step lists with mfem's stage times as data |
| C46 | `quasiStaticSolve`, contact residual functions | induction over step lists, abstract solver |
| C47 | `FromInlet` for materials and hardening, `defineInputFileSchema` verifiers | decoding functions over tables of optional entries; encode/decode round trips |
| C48 | input-file constructors of the modules, `createPhysics` in `serac.cpp` | refinement to the list of calls the file asks for; negations |
| C49 | thermal conductors, `is_symmetric_and_positive_definite` | quadratic forms; negations |
| C50 | all Gauss tables, `functionalQ` | moments of every monomial by kernel evaluation, integrals by analysis, linearity for all polynomials; negations |
| C51 | element kernels (`evaluation_kernel_impl`, `action_of_gradient_kernel`, `element_gradient_kernel`) and `integrate`/`interpolate`/`batch_apply_shape_fn` of H1, L2 and QOI elements | loops over elements and components reduced to sums; `HasDerivAt` of the residual |
| C52 | `Functional::operator()`, `ActionOfGradient`, `updateQdata`, `Integral::Mult`, `GradientMult` as calls on one object with its buffers | invariant of the derivative buffers over every call sequence; `HasDerivAt` of the assembled residual; negation |
| C53 | `Gradient::assemble`, `ActionOfGradient`, `GradientMult`, `ComputeElementGradients` over all geometries, both domain types and all integrals | fold over integrals and geometries reduced to a sum over elements; Hcurl negation |
| C54 | `GreenSaintVenantThermoelasticMaterial` and its parameterized version, the two material adaptors of `Thermomechanics` | calculus along paths (with C33's elastic part), induction over histories; negation for the thermal adaptor |
| C55 | `eig_symm`, `argsort`, `sgn` | the cubic equation by trigonometry with the discriminant from the spectral theorem; rank-two argument for the frame; case analysis of the block; negation on a concrete matrix |
| C56 | `symmetric_mat3_function`, `symmetric_mat3_function_with_derivative`, `log_symm`, `exp_symm`, `sqrt_symm` | interpolation by polynomials for uniqueness; termwise differentiation of the exponential series in a non-commutative algebra; Sylvester equation for the root; logarithms differentiable by compactness and the inverse of the derivative of the exponential |
| C57 | `J2` (finite deformation) with `log_symm`, `exp_symm` and the scalar solver | spectral calculus for commuting tensors; determinant of the exponential of a traceless tensor; induction over histories; derivative of Hencky's energy along paths |
| C58 | Hcurl elements on quadrilaterals and hexahedra: tables, shape functions, `interpolate`, `integrate`, `batch_apply_shape_fn`, nodes | sums over flat dof indices by direction; transpose; partial derivatives and uniqueness with the pull-back of C18 |
| C59 | quasi-static `advanceTimestep`, `reverseAdjointTimestep`, sensitivities, reactions | state machine, induction over steps; each step by C29's adjoint identity |
| C60 | `J2SmallStrain` with dual numbers, the derivative of the scalar solve | dual numbers represent functions with derivatives; implicit function argument for the exact return; closed form for symmetry and stability; negation in a band next to the yield surface |
| C61 | `functional_qoi.inl`: evaluation, action and assembly of gradients on all processors | fold invariants for the loops, linearity for action = product with the assembled vector, simulation over call sequences, derivative of finite sums; negation for the returned reference |
| C62 | `liquid_crystal_elastomer.hpp`: both material models; `tensor.hpp`: `matrix_sqrt` | closed form of Newton's square root on eigenvectors, invariants over histories, equivariance by simulation, energy derivative along paths; exact conditions for the failures |
| C63 | `variant.hpp`: storage, construction, assignment, queries, `MaybeOwningPointer` | object lifetimes as a ghost log; simulation and bookkeeping invariants over sequences of assignments; exact condition for undefined behaviour |
| C64 | `mesh_utils.cpp`: disks, balls, cross section of cylinders, quarter cylinders | refinement loop with termination; grid invariant of refined triangles and two inequalities for their areas; cancellation of every alternating edge (face) function; exact Jacobian of cylindrical elements |
| C65 | `solid_mechanics.hpp` loads, `heat_transfer.hpp` sources and fluxes, boundary kernel, shape-aware wrapper | algebra at one point with undefined outcomes; Nanson's formula; cancellation over closed surfaces (alternating edge functions); derivative of the enclosed volume; partition of unity |
| C66 | `find_root`; `material_verification_tools.hpp` | relation to Newton sequences by induction over the passes; quadratic convergence; induction over the records; closed form for Hooke's law; negations |
| C67 | `calculateConstrainedDofs`, `setDisplacementBCs*`, `BoundaryCondition::setDofs` | both orderings are bijections; loops to filtered lists; pointwise description of the written vector; induction over conditions; ownership across ranks |
| C68 | `setParameter`, parameters in `advanceTimestep` and `warmStartDisplacement` | invariant over call sequences (refinement to the last value set); exact description of the previous values; residual left by the warm start; negations |
| C69 | `fit` (fit.hpp) with the quadrature choice of `Functional` | normal equations over arbitrary weighted points: Pythagoras, uniqueness, iff for reproduction; counterexample from the code's Gauss tables |
| C70 | `defineAndParse`, `printGiven`, `findMeshFilePath`, `getInputFileName`, mesh `FromInlet`, `buildParallelMesh`, `refineAndDistribute`, `main` up to the mesh | decision logic as iff over all arguments; induction over refinement levels with cells as sets |
| C71 | the whole solid domain residual: gather, `interpolate`, Jacobians, `parent_to_physical`, `MaterialStressFunctor`, `physical_to_parent`, `integrate`, scatter | refinement of the computed vector to virtual work; balance laws, frame indifference, energy derivative and patch test as consequences, induction over the element list |
| C72 | the whole heat transfer domain residual (`ThermalMaterialIntegrand`, `setSource`) and backward Euler steps of it through `FirstOrderODE` | refinement of the computed vector to the weak form; balance, dissipation and uniqueness as consequences; induction over sources and steps |
| C73 | the dynamic solid residual with body forces (`addBodyForce`, `residual_with_bcs_` of the acceleration) and Newmark and backward Euler steps of it through `SecondOrderODE` | refinement of the computed vector to the weak form; momentum and energy balances by induction over the steps; bilinear algebra; existence by injectivity |
| C74 | `FiniteElementVector`, `FiniteElementState`, `FiniteElementDual`: constructors, assignments, moves, views, projection, reductions | refinement of a memory with space objects and views to value semantics by induction over programs; transposes of prolongation and restriction; finite sums over ranks |
| C75 | `setTraction`, `setPressure`, `setFluxBCs` in the assembled residuals, boundary kernels, dynamic and transient steps with them | virtual work of the boundary integrals by the transposed gather; divergence theorem on closed surfaces; induction over steps; definite forms for existence |
| C76 | `petsc_solvers.cpp`: line search pre-check, pre-solve callbacks of preconditioners and Krylov solvers, formats, constructors | induction over the halvings; refinement of the caches to a spec by induction over programs |
| C77 | `SolidTangent.lean`: derivative buffers of `MaterialStressFunctor` and of the load q-functions, action and element gradient kernels over element lists, assembly, `J_` of `buildQuasistaticOperator` and of the dynamic residual | both sides as forms tested with vectors, then Fréchet derivatives; symmetry from second derivatives of the energy |
| C78 | `SolidStatics.lean`: `quasiStaticSolve` on the assembled body, warm start and Newton solver included | positive forms on the free dofs; invariance of the equilibrium under the solver; induction over steps and over held nodes |
| C79 | `ShapedResidual.lean`: the assembled residuals of solids and heat with the shape-aware wrappers | every quadrature point is that of the displaced mesh; the kernel only calls the q-function there |
| C80 | `Parallel.lean`: `Functional` and Newton's method on any number of processors with their own numberings | loops as sums, summed over processors by a permutation of the entities; Newton's method commutes with renumbering (induction over iterations) |
| C81 | `HeatTangent.lean`: gradients of the heat transfer residual, `J_` of both problems, Newton solves, quasi-static steps | kernels tested with a field give the bilinear forms; calculus; an affine residual is solved in one Newton step; energy argument for uniqueness |
| C82 | `SolidNewton.lean`: residual and `J_` of a dynamic problem as the problem of the Newton solver | forms of mass and stiffness (C77, C78); affine residual; composition with C75 |
| C83 | `Newton.lean`, `Elim.lean`, `SolidStatics.lean` for arbitrary nonlinear residuals | mean value inequality on balls, uniform over a compact branch (`Proofs/LocalNewton`); contraction mapping for existence; induction over iterations and over load steps |
| C84 | `SolidStatics.lean`, `SolidNewton.lean`, `Materials.lean` | C83 for the assembled residual; continuity of the stiffness from its bilinear form (C77); materials continuously differentiable; rest linearises to linear elasticity (C31, C78); compactness for inertia |
| C85 | `ParameterTangent.lean`, `StaticAdjoint.lean` | rectangular kernels (C51) give the weak form of the parameter derivative; residual continuously differentiable in displacement and parameter; implicit function theorem for branches; C59 along lines; C78 for linear bodies |
| C86 | `Summary.lean`: `initializeSummary`, `saveSummary`, the driver's loop with them | refinement of the arrays to the history of saves by induction over saves and over passes of the loop; C36 for the times, C74 for the values |
| C87 | `TransientAdjoint.lean`, `HeatParameter.lean` | implicit function theorem step by step for backward Euler; induction over the reverse pass (C30) along every direction of initial temperature and parameter; rectangular kernels as in C85; C81 for linear problems |
| C88 | `ShapeTangent.lean` | product rules for strict derivatives of correction, inverse, determinant, normal and area; kernels as in C51 and C77 with a third field; implicit function theorem as in C59 and C87; C79 turns shape displacements into positions, C78 gives the linear solids |
| C89 | `CoupledResidual.lean` | the adaptors' arguments are the interpolated fields (C71, C72); weak forms of the two thermal residuals agree; induction over the steps; closed form of the stress (C54) and the laws of C71 and C75; a singular deformation gradient gives no thermal result in the model (an artefact: the code discards that stress) |
| C90 | `HistoryBody.lean` | the gradient handed to the material is the interpolated one (C71); at a point the work of the new stress splits by the radial return (C32) and polarisation of the stored energy; weak form (C75) with the displacement increment as test function; induction over the steps |
| C91 | `RungeKutta.lean` | stages unfolded to calls of `Solve` (C21); heat from the weak form of C75 at each stage; polynomial quadrature by the order conditions; contraction from algebraic stability, applied pointwise, with the difference of the stage fields as test function |
| C92 | `DynamicAdjoint.lean` | the steps' equations as zeros of a regular map (implicit function theorem) give differentiability of the whole run by induction; the algebra of the reverse steps is C29's; the derivative of the residual by displacement, acceleration and parameter from C77 and C85; runs of the code's solver from C82 |
| C93 | `GeneralizedAlpha.lean` | the step unfolded to calls of `Solve` (C20); relations by field arithmetic; induction over steps for boundary values; conservation laws of the midpoint rule from the weak form and the balance of moments of C75 tested with the mean displacement |
| C94 | `Discontinuous.lean` | element tables from C51 at order zero; adjoint pass of C59/C85 with the derivative of the branch of equilibria; compliance as a maximum over displacements (C78) |
| C95 | `ContactSolve.lean` | one evaluation of the residual as a function on contact states, from the specifications of merging and splitting in C34; induction over the evaluations of the solver; negations |
| C96 | `StaticAdjoint.lean` | adjoint identity with contact forces as an additional term; induction over the pass; the linear solver inverts, so adjoint displacements are arbitrary |
| C97 | `MeshGeometry.lean` | nested loops as patches of memory whose contents are a function of the address; the dispatch tables compared with an inequality description; nodal bases of order one |
| C98 | `Contact.lean`, `ContactSolve.lean` | first-order conditions of convex programs read off a zero residual; converse by a descent direction; saddle-point systems as injective linear maps of a finite dimensional space; a block at a wall followed through four corrections |
| C99 | `DirectSolver.lean` | loops as functions on tables; offsets as running sums; a wide matrix has a kernel; calls of the equation solver by induction on what the user does |
| C100 | `ContactMemory.lean` | programs on a heap (a multiset of addresses) with undefined behaviour as failure; total-correctness triples with frames; counting |
| C101 | `FirstAlpha.lean` | closed form of a linear recurrence; heat balance of stages (C91); a quadratic energy found for the method, dissipated pointwise at quadrature points |
| C102 | `ElementDofs.lean` | marks as sets by induction over elements; refinement to a mesh no processor knows as a whole (`Describes`) |
| C103 | `FinitePlasticityDual.lean` | dual numbers represent paths (`RepM`, C60); derivative of matrix logarithm and exponential (C56); implicit function of the increment; Hencky's law after the flow (C57) |
| C104 | `AutoDiff.lean` | one-hot seeds read through a pairing with a direction (C12); types as submodules of gradients; pointwise version of C51 |
| C105 | `UserFunctional.lean` | kernels with several arguments as functions of one (C51, C104), then C52 pointwise |
| C106 | `UserAssemble.lean` | gathering is linear (C08), one kernel (C105, C51), scatter and the loop over integrals by induction, then C53 |
| C107 | `UserQoI.lean` | bodies of the kernels' loops as kernels with one element (C105, C51), then C61 at one set of arguments |
| C108 | `Lifecycle.lean` | transition system of calls and signals; invariant over all executions, decreasing measure for termination |
| C109 | `FunctionalFrontEnd.lean` | position of the mark by induction over the argument list, then C52 |
| C110 | `ForConstexpr.lean` | recursion of the overloads unrolled by induction over the rank; order and completeness of the visited indices |
| C111 | `LifecycleRanks.lean` | invariant over interleavings: all ranks have made the same collective calls; progress from equal remaining collective calls; number of calls as measure |

## Assumptions about code outside /repo

These are the hypotheses under which the theorems speak about the running program. Each is a parameter or definition of the
model with a comment at the place where it enters.

* MFEM, meshes and spaces: orientation codes and local vertex lists of faces (C04, C05; taken from comments in the source);
  `Mesh::UniformRefinement` splits a quadrilateral by edge midpoints and its centre (C39); `GetEssentialTrueDofs` returns the true
  dofs of the marked attributes (C25); `PWConstCoefficient::Eval` indexes its vector with attribute - 1 (C37); the restriction and
  prolongation of a space satisfy R P = I (C28).
* MFEM, time integrators: the update formulas and stage times of backward Euler, Newmark, generalised-alpha and the first-order
  methods are transcribed from the MFEM documentation (C20, C21, C29, C45).
  For C95 Tribol computes gaps, their derivatives and forces in `tribol::update` from the coordinates and pressures it holds, and keeps them until the next update; a nonlinear solver evaluates the residual last at the point it returns.
  For C93 `GeneralizedAlpha2Solver::Step` and the defaults of `HHTAlphaSolver` (α = 1), `WBZAlphaSolver` (ρ = 1), `AverageAccelerationSolver` (αm = αf = ½, β = ¼, γ = ½), `LinearAccelerationSolver`, `CentralDifferenceSolver`, `FoxGoodwinSolver` are written out in `GeneralizedAlpha.lean`.
  For C91 the Butcher coefficients of `BackwardEulerSolver`, `ForwardEulerSolver`, `RK2Solver(0.5)`, `RK3SSPSolver`, `RK4Solver`, `ImplicitMidpointSolver`, `SDIRK23Solver` (default option), `SDIRK33Solver` and
  `SDIRK34Solver`, with one call of `ImplicitSolve` or `Mult` per stage at the stage time, as written in `RungeKutta.lean`.
  For C97 `mfem::Mesh::SetCurvature(1, …)` gives the new nodes the positions that the old nodal function has at the vertices of each element.
  For C98 the contact library's forces do work on the change of its gaps (`Surfaces.force`), its gaps are concave functions of the displacement and those of tied surfaces affine; these are hypotheses of the theorems, not axioms.
  For C99 `mfem::HypreParMatrixFromBlocks` takes the size of a block row or column from a block that is there, refuses blocks that disagree and copies entries to their places; `mfem::BlockOperator::SetBlock` checks sizes; the factorisations solve systems with regular matrices.
  For C100 functions of mfem that return a raw pointer to a matrix (`Add`, `ParMult`, `Transpose`, `HypreParMatrixFromBlocks`, `EliminateRowsCols`, `EliminateCols`) return a new one, and `Array2D` does not initialise pointers; both behaviours of `BlockOperator::SetBlock` are covered.
  For C101 the step of `mfem::GeneralizedAlphaSolver` and its parameters for a given spectral radius, including that the first step calls `Mult` without `SetTime` (only `late_wrong` and `reset_wrong` use the latter; the other theorems hold for any time of that call).
  For C102 `DofToVDof`, `GetElementVDofs`, `Synchronize` (or of all copies of a true dof), `GetRestrictionMatrix` (one entry per row, the owner's local dof; conforming meshes), `BooleanMult`, `BooleanMultTranspose` and `MarkerToList` of mfem.
  For C103 gradients are numbers: tensor-valued gradients, which assembly uses, are treated component by component by the same operators (C13), which is read off the code and not modelled.
  For C104 the user's function is an expression tree; which gradient blocks have type `zero` is computed from the tree (`kind`) by the rules of the operators' return types, and a part of type `zero` is a part filled with zeros.
  For C105 an element vector has `N` numbers for each of `G` geometries, one size for all spaces; positions beyond it are read as zero and not written.
  For C106 an element vector is a function of positions with the blocks of C08; that kernels visit only elements of their block is a hypothesis (`Fits`).
  For C107 the loops over elements are C61's and their bodies are kernels with a single element; `C107_elements` shows that the kernels of C105 do the same.
  For C108 a library call is atomic, `std::signal` handlers stay installed, SLIC prints at once on one rank and at the next flush on several, and finalizing PETSc when it is not running is an error that ends the process; other ranks, PETSc's own signal handlers and static destructors are not modelled.
  For C109 the two assertions at compile time are an outcome of the call; the number of arguments is below 2^31 so that no position equals `NO_DIFFERENTIATION`.
  For C110 overload resolution picks the overload by the kind of the first argument, and a fold over a comma evaluates from left to right.
  For C111 the collective calls are starting and stopping MPI, PETSc and the profiler and flushing the logger; each completes exactly when all ranks make the same call.
* MFEM, linear algebra: `SetSubVector`, `SetSubVectorComplement`, `EliminateRowsCols`, `EliminateBC`, `EliminateRows`,
  `HypreParMatrixFromBlocks`, `TransposeMult` do what their names say (C20, C26, C29, C30, C35). Linear solves in C29, C30 are exact; in C26
  only what is stated as a hypothesis there is used.
* Axom: Sidre returns what was stored under a name (C28); Inlet's `contains`/`get`/`verify` reflect the file (C37, C44, C47, C48).
  `SLIC_ERROR` ends the program.
* Tribol: gaps, pressures, forces and Jacobian blocks are arbitrary data of the right size (C34, C35).
* C++ standard library: `std::set_*`, `sort`, `unique`, `lower_bound`, `map` iterate in key order; the order of `unordered_map` is
  unknown (an arbitrary permutation, C48).
* A residual evaluated at an iterate may return anything, including NaN, and may throw (C23, C24).

## Where the code and the properties disagree

Each entry is a theorem about the model (suffix `_wrong`, `_lost`, `_overflow` or similar) stated for all inputs of the described kind
where possible. The matching `_partial` theorem says what does hold.

* C01, C06: the sign flag of a `DoF` is never stored (`C01_sign_flag_lost`); `index_mask` has sixteen `F` digits instead of twelve, so
  `index()` returns sign and orientation too (`C01_index_wrong`) and `GetVDof` multiplies them (`C06_word`). All users cast to 32
  bits, which hides it. (An early version of the model had the intended 48-bit mask; the audit that found this compared every
  constant again.)
* C08: `BlockElementRestriction::ESize` is not the total of the blocks.
* C09: row pointers of rows after the last touched one are zero; an empty table is dereferenced.
* C10: the 2D edge that is boundary element 0 loses its attribute (`> 0` for `>= 0`).
* C11: the dof lists of combined domains, of the entire domain and of 3D face domains are empty or of the wrong kind.
* C14: `factorize_lu` does all row exchanges before eliminating, so an invertible 3x3 matrix can meet a zero pivot.
* C15: `f = 0` and `df = 0` at an iterate gives 0/0.
* C16: `factorial` overflows `int` for 13 and above.
* C17: nodes and weights are decimal literals, so identities hold to stated bounds only.
* C18: the measure is signed for elements of negative orientation.
* C19: the 3D curl correction of trial functions lacks the division by the determinant.
* C20, C21: RateControl and FullControl do not enforce what is documented; FullControl's correction after a step uses list positions
  as dof numbers.
* C22: mixing backward Euler with other selections leaves the wrong integrator or a doubled state.
* C23, C24: a NaN residual leaves the report of the previous call; exceptions at the initial guess; a zero model objective reverses
  acceptance.
* C25: an attribute already in use is dropped even if another component is asked for.
* C27: disk checkpoints, repeated forward passes and a non-zero start cycle.
* C28: module constructors zero the fields they have just loaded.
* C29, C30: first step of non-zero size, velocity loads, loads left out after being given, a second reverse pass.
* C31: 2D St. Venant-Kirchhoff and parameterized models linearise to other moduli.
* C32: the status of the scalar solve is ignored.
* C33: `KirchhoffToPiola` and `CauchyToPiola` use the transpose of their argument (harmless for symmetric stress).
* C35: penalty interactions before multiplier interactions put ones into the wrong rows or read past the offsets.
* C36: a run started at its final time takes a step of size zero; a step that vanishes against the time never ends.
* C37: attributes above the largest key, keys below one and vectors of different length access memory out of range.
* C39: two or fewer sectors in a full ring, angles of pi or more per sector; straight sides have no boundary elements.
* C40: the coupled module's constructor does not pass cycle and time on; `resetAdjointStates` resets its clock only.
* C41: `resetStates` keeps the quadrature history; a buffer shared between domains is overwritten; the buffer has order+1 points per
  direction whatever the field's order.
* C44: documented names "minres" and "AMG" are refused; `Preconditioner::None` is a null dereference; `preconditioner_print_level` is
  ignored.
* C45: after a step of seven of the ten first-order methods the module's time is that of the last stage.
* C46: contact with penalty enforcement only keeps evaluating loads at the start time.
* C47: `Hk` ignored for elastic models; `strain_constant` ignored; linear hardening cannot be written.
* C48: the coupled input constructor drops materials, boundary and initial conditions; unsorted iteration of conditions.
* C50: mass integrals on triangles of order 3 and tetrahedra of orders 2 and 3 are under-integrated: the rule with `p + 1`
  "points per direction" is exact only to degree 5, 3 and 5 where 6, 4 and 6 are needed.
* C49: positive definiteness is tested with `< 0`, and symmetry with an absolute tolerance.
* C52: an integral that names an argument twice (`DependsOn<0, 0>`) keeps only the last position of the argument in its
  table, so gradients with respect to it miss the derivative in the other position.
* C53: Hcurl dofs of reversed edges are negative MFEM numbers, cast to `uint64_t` and back to `int`: `Gather` reads a negative position.
* C54: `ThermalMaterialInterface` drops the heat source of the material and evaluates with a fresh state, so deformation never heats or cools.
* C55: `delta` is multiplied with `sgn(A11 - A22)`, which is 0 when the diagonal entries of the reduced block agree, so two different eigenvalues are replaced by their mean and the vectors are not eigenvectors.
* C56: consequently `exp_symm` is not the exponential and `sqrt_symm` does not square to its argument for those matrices.
* C57: `J2::State::accumulated_plastic_strain` has no initialiser, so `State s;` leaves it indeterminate (`State{}` makes it zero); the status of the scalar solve is ignored, so a step that did not converge is accepted.
* C58: the quadrilateral `batch_apply_shape_fn` multiplies by `(dir == 0)` instead of branching and reads `B1(q, p)`, one past the row, and for the last row past the array; `interpolate` and `integrate` there reuse one `A` for two shapes, so only `q = p + 1` compiles.
* C59: `computeDualAdjointLoad` evaluates the Jacobian at `displacement_`, which before a second reverse step is still the displacement of the later step, and after `resetAdjointStates` that of the first step; a load that is not set again acts again; both sensitivity routines return references to one buffer.
* C60: just outside the yield surface the scalar solver accepts its first bisection point, half of the bracket, while the gradient it attaches is that of the exact root; the tangent is off by a factor there, not by the tolerance.
* C61: `operator()` with a differentiated argument returns a `double&` to `output_T_[0]`; calling the gradient on a direction overwrites it, so `auto [value, grad] = f(...)` followed by `grad(dx)` changes `value`. `Gradient::Mult` calls `form_.GradientMult`, which does not exist (unused template member, so it compiles).
* C62: in `LiquidCrystElastomerBrighenti` a misplaced parenthesis makes `N_b_squared / 3` multiply only the isotropic part of the initial distribution tensor, so the parameter does not cancel as the comment says; the reference order tensor is not rotated with the body, so rigid rotations cause stress; a fresh state stores the incoming deformation as the previous one, so the first step has no shear response and the reference configuration is lost. `N_b_squared = 0` is accepted and divides by zero. `LiquidCrystalElastomerBertoldi` accepts Poisson ratios of one half (division by zero) and above (the energy takes negative values).
* C63: `variant::operator=(T&&)` destroys the active member and then *assigns* to the other one, which was never constructed; `variant(T&&)` places the value over the default-constructed `t0_` without destroying it; the choice of the member asks for convertibility to `T0` before identity with `T1`.
* C64: `build_hollow_quarter_cylinder` does not compare its radii (exchanged radii give inverted elements, equal ones flat elements); `ser_ref_levels`/`par_ref_levels` refine the disk and ball after their vertices were moved, so new boundary vertices lie inside the circle.
* C65: `setSource` and `setFluxBCs` of heat transfer pass the pair of position and derivative to the user's function, while the documentation (and `setTraction`, `setPressure`, `addBodyForce`) say a vector of coordinates.
* C66: `find_root` does not report that ten steps were not enough, never looks at the residual of its tenth iterate, and compares the residual with an absolute `1e-8`.
* C68: `previous_state` of the parameters is assigned only in steps at cycle 0, so from the third step on the warm start uses the Jacobian of the first step's parameters, and after a restart that of zero parameters (a zero stiffness, say), contrary to the comment that insists on the previously solved Jacobian.
* C69: `fit` integrates the mass term and the right-hand side with different rules when an auxiliary field has a higher order than the output, so on distorted hexahedra even constants are not reproduced; whether the CG solver converged is not checked.
* C70: a box mesh with `elements.z` and a `size` without `z` is accepted by the schema and then throws `std::out_of_range`; `--version` with a missing input file or a non-positive restart cycle is refused although cli.cpp 65 says that all other options are ignored; `printGiven` leaves out `--print-unused`.
* C74: `FiniteElementDual::operator=(FiniteElementDual&&)` moves the linear form only, the true vector is not assigned; the move constructor copies the vector but takes over a linear form built on the space of the source, which dangles when the source is destroyed; `avg` sums the number of dofs in an `int`; `project(coef, domain)` lists dofs rank by rank and keeps only owned ones, so a dof whose owner has no element of the domain at it is not set.
* C76: `convertPCPreSolve` converts a copy and then keeps it until the operator is set again, changes of the original are not seen; `convertKSPPreSolve` sets `checked_for_convert_` after a first operator that is not hypre and never looks again; `PetscKSPSolver(comm, ..., wrap_op, ...)` does not store `wrap_op`; `min_iterations` only sets `SNESSetForceIteration`, one iteration.
* C91: with `DirectControl` (documented as `u(t+dt) = U(t+dt)`, solver_config.hpp) the constrained values after a step of implicit midpoint are `2 U(t+dt/2) - u(t)`, and after SDIRK23 and SDIRK34 other combinations of stage values; all differ from `U(t+dt)` already for quadratic histories, and with implicit midpoint a wrong initial value changes sign every step forever.
* C93: `AverageAcceleration` under `DirectControl` puts `2 U(t+θ dt) - u(t)` at constrained dofs, where `t+θ dt` is the time at which mfem evaluates the equation. No θ is right for all histories. With mfem's θ = 1 a boundary that moves with velocity 1 gets velocities 3, -3, 7, -7, 11, … . A wrong initial value is never corrected. `CentralDifference` under `DirectControl` divides by `c0 = 0`, with or without constrained dofs. `HHTAlpha` and `WBZAlpha` are constructed with parameters that make them Newmark's average acceleration: they damp nothing. (odes.cpp:35-47 warns about the first; the warning mentions only time-dependent conditions.)
* C95: the active set of an evaluation is computed from the pressures of the evaluation before. When a load reverses, Newton's method with multipliers stops at once at a state that is held by a pulling multiplier; the step then discards that multiplier, so that the body stays where it was and the reported forces do not balance it. The constructor of a tied interaction does not initialise `surf2_markers`.
* C96: the adjoint pass of `SolidMechanicsContact` leaves out the contact stiffness (and multipliers) altogether.
* C97: `GeometricFactors` has no kernels for elements that are triangles or tetrahedra of order two or three; it prints a line on standard output and the integrals use uninitialised positions and Jacobians. `StateManager::setMesh` silently replaces a curved mesh by the straight-sided one with the same vertices.
* C98: a step may stop with multipliers that pull at surfaces that do not overlap; the energy is then not minimal. When surfaces come into contact, the residual at the solution is not zero, because the pressures of the previous evaluation decide which multipliers count; Newton's iteration leaves the solution and comes back to it.
* C100: `mergedJacobian` never deletes the constraint matrices of interactions with multipliers after merging them, and `jacobianFunction` never deletes the tangent it was given when it adds contact contributions to it: each evaluation of the gradient loses memory. Entries of `constraint_matrices` for interactions without a (1,0) block are not written before they are read.
* C101: with `TimestepMethod::GeneralizedAlpha` direct control does not give prescribed values at the end of a step; the integrator's rate is first computed at the time the operator was constructed with (`0.0`) instead of the start of the step; `resetStates` does not reset that rate, so that a second run differs from the first.
* C102: the constructor of a tied `ContactInteraction` does not synchronise its marks between processors (the code it cites in its comment does), so that which dofs are tied depends on the distribution of the mesh. `BoundaryCondition::setTrueDofList` lists local dofs on the owner only.
* C103: as C60, for finite deformations: in a band next to the yield surface the derivative of the stress is wrong by a factor.
* C108: `exitGracefully` (terminator.cpp 53-59) finalizes PETSc unconditionally.  In a build with PETSc, a failure to start the logger, or a signal that arrives after PETSc was finalized, finalizes PETSc when it is not running, and MPI is then never finalized (`C108_petsc_wrong`).
* C111: the signal handler calls `exitGracefully`, which is collective. If a signal reaches one rank only, its flush meets a flush
  of another rank's program, and both then wait for ever, one to stop the profiler, the other to flush (`C111_signal_wrong`).
* C87: `ParameterizedLinearIsotropicConductor` checks that its offset is not negative, but not the sum of offset and parameter that it uses as conductivity; `ParameterizedSource` and `ParameterizedFlux` add the pair of value and gradient to a number, which does not compile, nothing uses them.
